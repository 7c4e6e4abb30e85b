import Verif.Spec.Prep
import Verif.Regex.More
import Verif.Proof.MacroDefinitions4
/-
The expression for macros in %prep.
-/
namespace Specfile.Prep
open Py Regex Spec MacroDefinitions

/-- `\s*(.*?)$` on the rest of a line -/
theorem head_tail {pre d o : Str} {caps : List (Nat × Str)} (hd : ∀ c ∈ d, isSpace c = true)
    (ho : ∀ c ∈ o.head?, isSpace c = false) (hn : '\n' ∉ o) :
    (run (.grp 2 (star isSpace) ⬝ .grp 3 (starL dot) ⬝ .eos : Re Nat) ⟨pre, d ++ o, caps⟩).head? =
      some ⟨o.reverse ++ (d.reverse ++ pre), [], (3, o) :: (2, d) :: caps⟩ := by
  rw [star, starL]
  refine head_grp_greedy (w := d) (r' := o) rfl (List.all_eq_true.mpr hd) (Nat.zero_le _) ho ?_
  refine head_grp_lazy (w := o) (r' := []) (by simp) ?_ (Nat.zero_le _) (by simp [run]) ?_
  · rw [List.all_eq_true]
    intro c hc
    simp only [dot, bne_iff_ne, ne_eq]
    rintro rfl
    exact hn hc
  · intro w' w'' e hne _
    have h1 : w'' ≠ ['\n'] := by
      rintro rfl
      exact hn (by rw [e]; simp)
    simp [run, hne, h1]

theorem mem_macroRe [Uni] {st t : St Nat} (h : t ∈ run macroRe st) :
    ∃ k name rest, st.rest = name ++ rest ∧ PrepNameAt k name rest := by
  unfold macroRe at h
  rw [mem_cat] at h
  obtain ⟨u, hu, -⟩ := h
  rw [mem_grp] at hu
  obtain ⟨v, w, hv, -, -⟩ := hu
  rw [mem_cat] at hv
  obtain ⟨x, hx, hv⟩ := hv
  rw [mem_ch] at hx
  obtain ⟨r, hr, rfl⟩ := hx
  rw [mem_alt, mem_alt, mem_alt] at hv
  rcases hv with hv | hv | hv | hv
  · rw [mem_lit] at hv
    obtain ⟨q, hq, -⟩ := hv
    simp only at hq
    exact ⟨.setup, s% "%setup", q, by rw [hr, hq]; rfl, .setup⟩
  · rw [mem_cat] at hv
    obtain ⟨y, hy, -⟩ := hv
    rw [mem_lit] at hy
    obtain ⟨q, hq, -⟩ := hy
    simp only at hq
    refine ⟨.patch, s% "%patch" ++ q.takeWhile Uni.isDecimal, q.dropWhile Uni.isDecimal, ?_, .patch ?_ ?_⟩
    · rw [hr, hq, List.append_assoc, List.takeWhile_append_dropWhile]; rfl
    · exact List.all_eq_true.mp List.all_takeWhile
    · intro c hc
      cases hx : q.dropWhile Uni.isDecimal with
      | nil => rw [hx] at hc; simp at hc
      | cons d ds => 
        rw [hx] at hc; simp at hc; subst hc
        exact dropWhile_head hx
  · rw [mem_lit] at hv
    obtain ⟨q, hq, -⟩ := hv
    simp only at hq
    exact ⟨.autopatch, s% "%autopatch", q, by rw [hr, hq]; rfl, .autopatch⟩
  · rw [mem_lit] at hv
    obtain ⟨q, hq, -⟩ := hv
    simp only at hq
    exact ⟨.autosetup, s% "%autosetup", q, by rw [hr, hq]; rfl, .autosetup⟩

theorem run_lit_pos {a r pre : Str} {caps : List (Nat × Str)} :
    run (lit a : Re Nat) ⟨pre, a ++ r, caps⟩ = [⟨a.reverse ++ pre, r, caps⟩] := by
  rw [run_lit_eq, if_pos (by simp [List.isPrefixOf_iff_prefix])]
  simp

theorem run_lit_neg {a : Str} {s : St Nat} (h : ¬ a <+: s.rest) : run (lit a : Re Nat) s = [] := by
  rw [run_lit_eq, if_neg (by rwa [List.isPrefixOf_iff_prefix])]

/-- the name at a place is matched completely -/
theorem head_macroRe [Uni] {k : PrepKind} {name rest pre : Str} (h : PrepNameAt k name rest)
    {X : Re Nat} {t : St Nat} (hX : (run X ⟨name.reverse ++ pre, rest, [(1, name)]⟩).head? = some t) :
    (run (.grp 1 (ch '%' ⬝ (lit (s% "setup") ∣∣ (lit (s% "patch") ⬝ star Uni.isDecimal) ∣∣
      lit (s% "autopatch") ∣∣ lit (s% "autosetup"))) ⬝ X) ⟨pre, name ++ rest, []⟩).head? = some t := by
  have key : ∀ w, name = '%' :: w →
      (run (lit (s% "setup") ∣∣ (lit (s% "patch") ⬝ star Uni.isDecimal) ∣∣
        lit (s% "autopatch") ∣∣ lit (s% "autosetup") : Re Nat) ⟨'%' :: pre, w ++ rest, []⟩).head? =
          some ⟨w.reverse ++ '%' :: pre, rest, []⟩ → 
      (run (.grp 1 (ch '%' ⬝ (lit (s% "setup") ∣∣ (lit (s% "patch") ⬝ star Uni.isDecimal) ∣∣
        lit (s% "autopatch") ∣∣ lit (s% "autosetup"))) ⬝ X) ⟨pre, name ++ rest, []⟩).head? = some t := by
    rintro w rfl hw
    rw [run_grp_cat, run_ch_cat '%' _ _ (w ++ rest) rfl]
    obtain ⟨l, hl⟩ := List.head?_eq_some_iff.mp hw
    simp only at hl ⊢
    rw [hl, List.flatMap_cons]
    apply head_append_left
    have e := take_left_length ('%' :: w) rest
    simp only [List.cons_append] at e ⊢
    rw [e]
    simpa using hX
  cases h with
  | setup =>
    apply key (s% "setup") rfl
    rw [run_alt]
    apply head_append_left
    rw [run_lit_pos]; rfl
  | autosetup =>
    apply key (s% "autosetup") rfl
    rw [run_alt, run_alt, run_alt, run_lit_neg (by simp), run_cat, run_lit_neg (by simp),
      run_lit_neg (by simp), run_lit_pos]
    rfl
  | autopatch =>
    apply key (s% "autopatch") rfl
    rw [run_alt, run_alt, run_alt, run_lit_neg (by simp), run_cat, run_lit_neg (by simp), run_lit_pos]
    rfl
  | @patch ds _ hd hr =>
    apply key (s% "patch" ++ ds) (by simp)
    rw [run_alt, run_alt, run_lit_neg (by simp), List.nil_append]
    apply head_append_left
    rw [run_cat, List.append_assoc, run_lit_pos, List.flatMap_singleton, star]
    have := head_rep_cat (p := Uni.isDecimal) (n := 0) (X := (.eps : Re Nat))
      (s := ⟨(s% "patch").reverse ++ '%' :: pre, ds ++ rest, []⟩) (w := ds) (r' := rest)
      (t := ⟨ds.reverse ++ ((s% "patch").reverse ++ '%' :: pre), rest, []⟩) rfl
      (List.all_eq_true.mpr hd) (Nat.zero_le _) hr (by simp)
    rw [run_cat, show (run (.eps : Re Nat)) = (fun t => [t]) from rfl, List.flatMap_singleton'] at this
    rw [this]
    simp

/-- a search finds the first name -/
theorem search_first [Uni] {l before name d o : Str} {k : PrepKind} (hn : '\n' ∉ l)
    (h : FirstPrepName l k before name (d ++ o)) (hd : ∀ c ∈ d, isSpace c = true)
    (ho : ∀ c ∈ o.head?, isSpace c = false) : ∃ f, search macroRe l = some f ∧ f.before = before ∧
      f.st.get 1 = some name ∧ f.st.get 2 = some d ∧ f.st.get 3 = some o ∧ f.st.rest = [] := by
  have e := h.text
  rw [List.append_assoc] at e
  have hno : '\n' ∉ o := by intro hc; apply hn; rw [e]; simp [hc]
  unfold search
  rw [e, searchFrom_first (t := ⟨o.reverse ++ (d.reverse ++ (name.reverse ++ (before.reverse ++ []))), [],
    [(3, o), (2, d), (1, name)]⟩)]
  · exact ⟨_, rfl, by simp, by simp [St.get], by simp [St.get], by simp [St.get], rfl⟩
  · intro a b e1 hb
    rw [List.eq_nil_iff_forall_not_mem]
    intro t ht
    obtain ⟨k', n', r', e2, h2⟩ := mem_macroRe ht
    simp only at e2
    refine h.first a (b ++ (name ++ (d ++ o))) k' n' r' (by rw [e, e1]; simp) ?_ e2 h2
    rw [e1]
    have := List.length_pos_iff.mpr hb
    simp; omega
  · exact head_macroRe h.name (head_tail hd ho hno)

theorem search_noName [Uni] {l : Str} (h : NoPrepName l) : search macroRe l = none := by
  unfold search
  apply searchFrom_none
  intro a b e
  rw [List.eq_nil_iff_forall_not_mem]
  intro t ht
  obtain ⟨k', n', r', e2, h2⟩ := mem_macroRe ht
  simp only at e2
  exact h a n' r' k' (by rw [e, e2]; simp) h2

/-- there is a first name or none -/
theorem first_or_none [Uni] (l : Str) : NoPrepName l ∨ ∃ k before name rest, FirstPrepName l k before name rest := by
  by_cases h : NoPrepName l
  · exact .inl h
  · right
    unfold NoPrepName at h
    simp only [Classical.not_forall] at h
    obtain ⟨a, name, rest, k, e, hk⟩ := h
    replace hk := Classical.not_not.mp hk
    generalize hm : a.length = m
    induction m using Nat.strongRecOn generalizing a name rest k with
    | _ m ih =>
      by_cases h : ∃ a' b k' name' rest', l = a' ++ b ∧ a'.length < a.length ∧ b = name' ++ rest' ∧
          PrepNameAt k' name' rest'
      · obtain ⟨a', b, k', name', rest', e1, h1, e2, h2⟩ := h
        exact ih a'.length (by omega) a' name' rest' k' (by rw [e1, e2]; simp) h2 rfl
      · refine ⟨k, a, name, rest, e, hk, ?_⟩
        intro a' b k' name' rest' e1 h1 e2 h2
        exact h ⟨a', b, k', name', rest', e1, h1, e2, h2⟩

/-- a text has a macro or it has none -/
theorem macro_or_none [Uni] (l : Str) : NoPrepMacro l ∨ ∃ k before name d o, PrepMacroIn l k before name d o := by
  rcases first_or_none l with h | ⟨k, before, name, rest, h⟩
  · exact .inl (.inl h)
  · cases rest with
    | nil => exact .inr ⟨k, before, name, [], [], h, by simp, by simp, fun _ => rfl⟩
    | cons c rest =>
      by_cases hc : isSpace c = true
      · right
        refine ⟨k, before, name, (c :: rest).takeWhile isSpace, (c :: rest).dropWhile isSpace, ?_,
          List.all_eq_true.mp List.all_takeWhile, ?_, ?_⟩
        · rw [List.takeWhile_append_dropWhile]; exact h
        · intro x hx
          cases hy : (c :: rest).dropWhile isSpace with
          | nil => rw [hy] at hx; simp at hx
          | cons d ds =>
            rw [hy] at hx; simp at hx; subst hx
            exact dropWhile_head hy
        · intro e; rw [List.takeWhile_cons, if_pos hc] at e; simp at e
      · exact .inl (.inr ⟨k, before, name, c, rest, h, by simpa using hc⟩)

theorem kindOf_name [Uni] {k : PrepKind} {name rest : Str} (h : PrepNameAt k name rest) : kindOf name = some k := by
  cases h with
  | setup => decide
  | autosetup => decide
  | autopatch => decide
  | patch _ _ => simp [kindOf, kinds, canonicalName, startsWith]

theorem lineMacro_none [Uni] {sp : Utils.Split} {buffer : List Str} (hn : '\n' ∉ sp.body)
    (h : NoPrepMacro sp.body) : lineMacro sp buffer = .ok none := by
  unfold lineMacro
  rcases h with h | ⟨k, before, name, c, rest, h, hc⟩
  · rw [search_noName h]
  · obtain ⟨f, hf, h1, h2, h3, h4, h5⟩ := search_first (d := []) (o := c :: rest) hn h (by simp)
      (by simp [hc])
    rw [hf]
    simp [h3, h4]

theorem lineMacro_some [Uni] {sp : Utils.Split} {buffer : List Str} (hn : '\n' ∉ sp.body)
    {k : PrepKind} {before name d o : Str} (h : PrepMacroIn sp.body k before name d o) :
    lineMacro sp buffer = (Options.tokenize o).map (fun ts =>
      some ⟨k, name, ⟨ts, optstring k, defaults k⟩, d, sp.pfx ++ before, sp.sfx, buffer⟩) := by
  unfold lineMacro
  obtain ⟨f, hf, h1, h2, h3, h4, h5⟩ := search_first hn h.first h.blank h.options
  rw [hf]
  simp only [h2, h3, h4, h5, h1, Option.getD_some, kindOf_name h.first.name, List.nil_append]
  rw [if_neg]
  · cases Options.tokenize o <;> rfl
  · simp only [Bool.and_eq_true, Bool.not_eq_true', List.isEmpty_iff, List.isEmpty_eq_false_iff]
    rintro ⟨e1, e2⟩
    exact e2 (h.apart e1)

theorem splitConditional_iff [Uni] {l : Str} {sp : Utils.Split} :
    Utils.splitConditional l = .ok sp ↔ Wrapped l sp.pfx sp.body sp.sfx := by
  unfold Utils.splitConditional
  constructor
  · intro h
    split at h
    · rename_i e
      simp only [Except.ok.injEq] at h; subst h
      exact .broken e
    · simp at h
    · rename_i p n b e
      simp only [Except.ok.injEq] at h; subst h
      have := Wrapped.cond e
      simpa using this
    · rename_i ns hns e
      simp only [Except.ok.injEq] at h; subst h
      refine .plain e ?_
      intro p n b e'
      exact hns p n b e'
  · intro h
    obtain ⟨body, pfx, sfx⟩ := sp
    simp only at h
    cases h with
    | cond e => rw [e]; simp
    | plain e hns =>
      rw [e]
      split
      · simp_all
      · simp_all
      · rename_i p n b e'
        simp only [Except.ok.injEq] at e'
        exact absurd e' (hns p n b)
      · rfl
    | broken e => rw [e]

end Specfile.Prep
