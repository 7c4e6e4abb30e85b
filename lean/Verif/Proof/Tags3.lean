import Verif.Proof.Tags2
/-
The meaning of the lines of a section, as far as tags are concerned.
-/
namespace Specfile.Tags
open Py Regex Spec
open MacroDefinitions (splitTrailing splitTrailing_line inlineSpace splitTrailing_append endsInBlank_append)

theorem inline_iff {w : Str} : w.all inlineSpace = true ↔ InlineSpaces w := by
  rw [List.all_eq_true]
  simp [inlineSpace, InlineSpaces]

theorem not_endsInBlank {a : Str} (hn : '\n' ∉ a) : ¬ EndsInBlank a ↔ ∀ c ∈ a.getLast?, isSpace c = false := by
  constructor
  · intro h c hc
    cases hs : isSpace c with
    | false => rfl
    | true => exact absurd ⟨c, hc, hs, by rintro rfl; exact hn (List.mem_of_getLast? hc)⟩ h
  · rintro h ⟨c, hc, hs, _⟩
    rw [h c hc] at hs; simp at hs

theorem splitTrailing_parts {text w : Str} (hn : '\n' ∉ text) (hw : InlineSpaces w) (ht : ¬ EndsInBlank text) :
    splitTrailing (text ++ w) = (text, w) :=
  splitTrailing_append ((not_endsInBlank hn).1 ht) (inline_iff.2 hw)

/-- text and trailing whitespace are determined -/
theorem trailing_unique {a w b v : Str} (hw : InlineSpaces w) (hv : InlineSpaces v) (ha : ¬ EndsInBlank a)
    (hb : ¬ EndsInBlank b) (h : a ++ w = b ++ v) : a = b ∧ w = v := by
  induction hl : w.length generalizing w v with
  | zero =>
    have : w = [] := by simpa using hl
    subst this
    rcases List.eq_nil_or_concat v with rfl | ⟨v, c, rfl⟩
    · simpa using h
    · exfalso
      apply ha
      rw [List.append_nil] at h
      rw [h]
      exact endsInBlank_append (inline_iff.2 hv) (by simp)
  | succ n ih =>
    rcases List.eq_nil_or_concat w with rfl | ⟨w, d, rfl⟩
    · simp at hl
    rcases List.eq_nil_or_concat v with rfl | ⟨v, c, rfl⟩
    · exfalso
      apply hb
      rw [List.append_nil] at h
      rw [← h]
      exact endsInBlank_append (inline_iff.2 hw) (by simp)
    · simp only [List.concat_eq_append] at *
      rw [← List.append_assoc, ← List.append_assoc] at h
      have h2 := List.append_inj' h rfl
      have := ih (w := w) (fun x hx => hw x (by simp [hx])) (v := v) (fun x hx => hv x (by simp [hx])) h2.1
        (by simpa using hl)
      exact ⟨this.1, by rw [this.2, h2.2]⟩

theorem getLast?_append_ne {α : Type} {a b : List α} (hb : b ≠ []) : (a ++ b).getLast? = b.getLast? := by
  rw [List.getLast?_append, List.getLast?_eq_some_getLast hb]
  rfl

theorem endsInBlank_iff_append {a : Str} {b : Str} (hb : b ≠ []) : EndsInBlank (a ++ b) ↔ EndsInBlank b := by
  unfold EndsInBlank
  rw [List.getLast?_append, List.getLast?_eq_some_getLast hb]
  rfl

theorem endsInBlank_line {a s : Str} : EndsInBlank (a ++ '\n' :: s) ↔ EndsInBlank s := by
  cases s with
  | nil =>
    constructor
    · rintro ⟨c, hc, _, h⟩
      rw [List.getLast?_append] at hc
      simp at hc; exact absurd hc.symm h
    · rintro ⟨c, hc, _⟩; simp at hc
  | cons d s =>
    rw [show a ++ '\n' :: d :: s = (a ++ ['\n']) ++ (d :: s) by simp]
    exact endsInBlank_iff_append (by simp)

/-- facts about the value that is read -/
theorem takeValue_facts (ls : List (Str × Bool)) (value ws : Str) (hws : ws.all inlineSpace = true)
    (hv : ¬ EndsInBlank value) (hn : ∀ l ∈ ls, '\n' ∉ l.1)
    (ho : ∀ x y, value = x ++ '\n' :: y → open_ x = true) :
    InlineSpaces (takeValue value ws ls).2.1 ∧ ¬ EndsInBlank (takeValue value ws ls).1 ∧
    (∀ x y, (takeValue value ws ls).1 = x ++ '\n' :: y → open_ x = true) ∧
    ((takeValue value ws ls).2.2 = ls.length ∨ open_ (takeValue value ws ls).1 = false) ∧
    (∃ z, (takeValue value ws ls).1 = value ++ z) := by
  induction ls generalizing value ws with
  | nil => exact ⟨inline_iff.1 hws, hv, ho, .inl rfl, [], by simp [takeValue]⟩
  | cons l ls ih =>
    unfold takeValue
    split
    · rename_i hopen
      obtain ⟨e1, e2, e3, e4⟩ := splitTrailing_line (hn l (by simp))
      generalize hs : splitTrailing l.1 = s at e1 e2 e3 e4
      obtain ⟨s1, s2⟩ := s
      simp only at e1 e2 e3 e4 ⊢
      have hs1 : '\n' ∉ s1 := fun hx => hn l (by simp) (by rw [e1]; simp [hx])
      have := ih (value ++ ws ++ '\n' :: s1) (if s2.isEmpty then ws else s2) (by split <;> assumption)
        (by rw [endsInBlank_line]; exact (not_endsInBlank hs1).2 e3) (fun x hx => hn x (by simp [hx])) (by
          intro x y e
          rw [List.append_eq_append_iff] at e
          rcases e with ⟨a, rfl, e⟩ | ⟨a, e, e'⟩
          · -- the newline is the new one
            cases a with
            | nil => simpa [open_spaces hws] using hopen
            | cons d a =>
              simp only [List.cons_append, List.cons.injEq] at e
              exact absurd (by rw [e.2]; simp) hs1
          · cases a with
            | nil =>
              simp only [List.append_nil] at e
              rw [← e, open_spaces hws]; exact hopen
            | cons d a =>
              simp only [List.cons_append, List.cons.injEq] at e'
              obtain ⟨rfl, _⟩ := e'
              rw [List.append_eq_append_iff] at e
              rcases e with ⟨b, rfl, e⟩ | ⟨b, e, e'⟩
              · have : '\n' ∈ ws := by rw [e]; simp
                exact absurd rfl ((inline_iff.1 hws) _ this).2
              · cases b with
                | nil =>
                  simp only [List.nil_append] at e'
                  have : '\n' ∈ ws := by rw [← e']; simp
                  exact absurd rfl ((inline_iff.1 hws) _ this).2
                | cons d b =>
                  simp only [List.cons_append, List.cons.injEq] at e'
                  obtain ⟨rfl, _⟩ := e'
                  exact ho x b e)
      refine ⟨this.1, this.2.1, this.2.2.1, ?_, ?_⟩
      · rcases this.2.2.2.1 with h | h
        · left; simpa using h
        · right; exact h
      · obtain ⟨z, hz⟩ := this.2.2.2.2
        exact ⟨ws ++ '\n' :: s1 ++ z, by rw [hz]; simp⟩
    · rename_i h
      exact ⟨inline_iff.1 hws, hv, ho, .inr (by simpa using h), [], by simp⟩

/-- a value that is complete is read in full -/
theorem takeValue_of (more rest : List (Str × Bool)) (v0 w0 value sfx : Str)
    (hj : joinC '\n' ((v0 ++ w0) :: more.map (·.1)) = value ++ sfx)
    (hw : InlineSpaces w0) (hv0 : ¬ EndsInBlank v0) (hsfx : InlineSpaces sfx) (hv : ¬ EndsInBlank value)
    (hn : ∀ l ∈ more, '\n' ∉ l.1)
    (hf : ∀ mid z post, more.map (·.1) = mid ++ z :: post →
      open_ (joinC '\n' ((v0 ++ w0) :: mid)) = true →
      EndsInBlank (joinC '\n' ((v0 ++ w0) :: mid)) → EndsInBlank z)
    (ho : ∀ x y, value = x ++ '\n' :: y → open_ x = true)
    (hr : rest = [] ∨ open_ value = false) :
    takeValue v0 w0 (more ++ rest) = (value, sfx, more.length) := by
  induction more generalizing v0 w0 with
  | nil =>
    simp only [List.map_nil, joinC_one] at hj
    obtain ⟨rfl, rfl⟩ := trailing_unique hw hsfx hv0 hv hj
    rcases hr with rfl | hr
    · rfl
    · cases rest with
      | nil => rfl
      | cons l ls => simp [takeValue, hr]
  | cons l more ih =>
    obtain ⟨e1, e2, e3, e4⟩ := splitTrailing_line (hn l (by simp))
    have hopen : open_ v0 = true := by
      rw [List.map_cons, joinC_cons _ _ (by simp)] at hj
      rw [← open_spaces (inline_iff.2 hw)]
      rw [List.append_eq_append_iff] at hj
      rcases hj with ⟨a, e, e'⟩ | ⟨a, e, e'⟩
      · cases a with
        | nil =>
          simp only [List.nil_append] at e'
          have : '\n' ∈ sfx := by rw [← e']; simp
          exact absurd rfl (hsfx _ this).2
        | cons d a =>
          simp only [List.cons_append, List.cons.injEq] at e'
          obtain ⟨rfl, _⟩ := e'
          exact ho _ _ e
      · have : '\n' ∈ sfx := by rw [e']; simp
        exact absurd rfl (hsfx _ this).2
    rw [List.cons_append]
    unfold takeValue
    rw [if_pos hopen]
    generalize hs : splitTrailing l.1 = s at e1 e2 e3 e4
    obtain ⟨s1, s2⟩ := s
    simp only at e1 e2 e3 e4 ⊢
    have hs1 : '\n' ∉ s1 := fun hx => hn l (by simp) (by rw [e1]; simp [hx])
    have hws' : (if s2.isEmpty then w0 else s2) = s2 := by
      cases s2 with
      | cons _ _ => rfl
      | nil =>
        simp only [List.isEmpty_nil, if_true]
        rcases Classical.em (w0 = []) with h | h
        · exact h
        · exfalso
          have := hf [] l.1 (more.map (·.1)) (by simp) (by simpa [open_spaces (inline_iff.2 hw)] using hopen)
            (by simpa using endsInBlank_append (a := v0) (inline_iff.2 hw) h)
          exact (e4.1 rfl) this
    rw [hws']
    have key : v0 ++ w0 ++ '\n' :: s1 ++ s2 = v0 ++ w0 ++ '\n' :: l.1 := by rw [e1]; simp
    rw [ih (v0 ++ w0 ++ '\n' :: s1) s2 (by rw [key, joinC_extend]; exact hj) (inline_iff.1 e2)
      (by rw [endsInBlank_line]; exact (not_endsInBlank hs1).2 e3) (fun x hx => hn x (by simp [hx])) (by
        intro mid z post h1 h2 h3
        rw [key, joinC_extend] at h2 h3
        exact hf (l.1 :: mid) z post (by simp [h1]) h2 h3)]
    rfl

theorem commentsOf_parse {above : List Str} (hn : ∀ l ∈ above, '\n' ∉ l) :
    CommentsOf above (Comments.parse above) := by
  obtain ⟨pre, cs, e, h1, h2⟩ := Comments.trailing_run above hn
  have hcs : ∀ c ∈ cs, '\n' ∉ c.str := by
    intro c hc
    apply hn
    rw [e]
    exact List.mem_append_right _ (List.mem_map.2 ⟨c, hc, rfl⟩)
  have := Comments.parse_of_parts hcs h1 h2
  rw [← e] at this
  rw [this]
  exact ⟨e, h1, h2⟩

theorem parse_commentsOf {above : List Str} (hn : ∀ l ∈ above, '\n' ∉ l) {c : Comments}
    (h : CommentsOf above c) : Comments.parse above = c := by
  obtain ⟨e, h1, h2⟩ := h
  have hcs : ∀ x ∈ c.data, '\n' ∉ x.str := by
    intro x hx
    apply hn
    rw [e]
    exact List.mem_append_right _ (List.mem_map.2 ⟨x, hx, rfl⟩)
  have := Comments.parse_of_parts hcs h1 h2
  rw [← e] at this
  exact this

theorem split_unwraps [Uni] {text : Str} {c : Utils.Split} (hs : SingleSpacedRefs text)
    (h : Utils.splitConditional text = .ok c) : Unwraps text c.pfx c.body c.sfx :=
  ⟨h, Props.C46_split_conditional_partial hs h⟩

/-- in a line without trailing whitespace, a tag's value does not start with whitespace -/
theorem value_start [Uni] {names : List Str} (hN : IsTagNames names) {line : Str} {t : St Nat}
    (h : tagMatch names line = some t) (hn : '\n' ∉ line)
    (hb : ∀ a w, line = a ++ ':' :: w → Spaces w → w = []) :
    ∃ n s v, line = n ++ s ++ v ∧ TagName n ∧ Separator s ∧ v ≠ [] ∧ (∀ c ∈ v.head?, isSpace c = false) ∧
      t.get 1 = some n ∧ t.get 2 = some s ∧ t.get 3 = some v := by
  obtain ⟨n, s, v, rfl, h1, h2, h3, g1, g2, g3⟩ := tagMatch_inv hN h hn
  obtain ⟨w, v', e, hw, hv'⟩ := Comments.split_spaces v
  have hne : v' ≠ [] := by
    rintro rfl
    obtain ⟨a, b, rfl, ha, hb'⟩ := h2
    have := hb (n ++ a) (b ++ v) (by simp) (by
      intro c hc
      rw [e] at hc
      simp only [List.append_nil, List.mem_append] at hc
      rcases hc with hc | hc
      · exact hb' c hc
      · exact hw c hc)
    simp at this
    exact h3 this.2
  have hs' : Separator (s ++ w) := by
    obtain ⟨a, b, rfl, ha, hb'⟩ := h2
    refine ⟨a, b ++ w, by simp, ha, ?_⟩
    intro c hc
    simp only [List.mem_append] at hc
    rcases hc with hc | hc
    · exact hb' c hc
    · exact hw c hc
  have el : n ++ s ++ v = n ++ (s ++ w) ++ v' := by rw [e]; simp
  obtain ⟨t', ht', g1', g2', g3'⟩ := tagMatch_of hN h1 hs' hne hv' (by rw [← el]; exact hn)
  rw [← el, h] at ht'
  simp only [Option.some.injEq] at ht'
  subst ht'
  exact ⟨n, s ++ w, v', el, h1, hs', hne, hv', g1', g2', g3'⟩

/-- what `parse` finds is what the lines mean -/
theorem parseLoop_reads [Uni] {names : List Str} (hN : IsTagNames names) (ls : List (Str × Bool))
    (buffer : List Str) (tags : Tags) (hb : ∀ l ∈ buffer, '\n' ∉ l)
    (hc : CleanTagLines (ls.map (·.1))) (hbv : NoBlankValue (ls.map (·.1)))
    (h : parseLoop names buffer 0 ls = .ok tags) : ReadTags buffer ls tags := by
  induction hn : ls.length using Nat.strongRecOn generalizing ls buffer tags with
  | ind n ih =>
    cases ls with
    | nil => simp [parseLoop] at h; subst h; exact .done
    | cons l ls =>
      obtain ⟨l, flag⟩ := l
      simp only [List.map_cons, List.length_cons] at hc hn hbv
      have hl : '\n' ∉ l := hc.noNl _ (by simp)
      obtain ⟨e1, e2, e3, e4⟩ := splitTrailing_line hl
      unfold parseLoop at h
      simp only at h
      generalize hs : splitTrailing l = s at e1 e2 e3 e4 h
      obtain ⟨s1, s2⟩ := s
      simp only at e1 e2 e3 e4 h
      have hss : SingleSpacedRefs s1 := singleSpaced_left (by rw [← e1]; exact hc.singleSpaced _ (by simp))
      have hs1 : '\n' ∉ s1 := fun hx => hl (by rw [e1]; simp [hx])
      have hs1b : ¬ EndsInBlank s1 := (not_endsInBlank hs1).2 e3
      have hcl : CleanTagLines (ls.map (·.1)) := cleanTagLines_drop hc 1
      have hbvl : NoBlankValue (ls.map (·.1)) := fun x hx => hbv x (by simp [hx])
      split at h
      · simp at h
      · rename_i c hcond
        have hun := split_unwraps hss hcond
        obtain ⟨hbody, hall⟩ := Utils.splitConditional_newline hcond hs1
        split at h
        · rename_i hm
          rw [hun.2, ← e1] at h
          have hnt : ¬ TagLine c.body := by
            rintro ⟨n, s, v, e, a1, a2, a3⟩
            obtain ⟨w, v', ev, hw, hv'⟩ := Comments.split_spaces v
            have hs' : Separator (s ++ w) := by
              obtain ⟨a, b, rfl, ha, hb'⟩ := a2
              refine ⟨a, b ++ w, by simp, ha, ?_⟩
              intro c hc
              simp only [List.mem_append] at hc
              rcases hc with hc | hc
              · exact hb' c hc
              · exact hw c hc
            have el : c.body = n ++ (s ++ w) ++ v' := by rw [e, ev]; simp
            have hne : v' ≠ [] := by
              rintro rfl
              obtain ⟨a, b, rfl, ha, hb'⟩ := a2
              have hbw : Spaces (b ++ w) := by
                intro c hc
                simp only [List.mem_append] at hc
                rcases hc with hc | hc
                · exact hb' c hc
                · exact hw c hc
              have hbwne : b ++ w ≠ [] := by
                intro h0
                simp only [List.append_eq_nil_iff] at h0
                exact a3 (by rw [ev, h0.2]; rfl)
              rcases Props.C46_split_conditional_shape hcond with ⟨p1, p2, p3⟩ | ⟨p, q, p1, p2, _⟩
              · have hx : (b ++ w).getLast? = s1.getLast? := by
                  rw [← p3, el, List.append_nil]
                  rw [show n ++ ((a ++ ':' :: b) ++ w) = (n ++ a ++ [':']) ++ (b ++ w) by simp,
                    getLast?_append_ne hbwne]
                have h1 := e3 ((b ++ w).getLast hbwne) (by rw [← hx, List.getLast?_eq_some_getLast hbwne]; rfl)
                have h2 := hbw _ (List.getLast_mem hbwne)
                rw [h1] at h2; simp at h2
              · apply hbwne
                refine hbv l (by simp) (c.pfx ++ n ++ a) (b ++ w) s2 ?_ hbw ?_
                · rw [e1, ← hun.2, p2, el]; simp
                · intro x hx
                  exact ((inline_iff.1 e2) x hx).1
            obtain ⟨t, ht, _⟩ := tagMatch_of hN a1 hs' hne hv' (by rw [← el]; exact hbody)
            rw [← el, hm] at ht
            simp at ht
          rw [e1]
          refine .other (inline_iff.1 e2) hs1b hun hnt ?_
          rw [← e1]
          exact ih ls.length (by omega) ls _ tags (by
            intro x hx
            simp only [List.mem_append, List.mem_singleton] at hx
            rcases hx with hx | rfl
            · exact hb x hx
            · exact hl) hcl hbvl h rfl
        · rename_i t ht
          obtain ⟨nm, sp, v, eb, hname, hsep, hv, hvs, g1, g2, g3⟩ := value_start hN ht hbody (by
            intro a w e hw
            rcases Props.C46_split_conditional_shape hcond with ⟨p1, p2, p3⟩ | ⟨p, q, p1, p2, _⟩
            · rcases Classical.em (w = []) with h0 | h0
              · exact h0
              · exfalso
                have hx : w.getLast? = s1.getLast? := by
                  rw [← p3, e, show a ++ ':' :: w = (a ++ [':']) ++ w by simp, getLast?_append_ne h0]
                have h1 := e3 (w.getLast h0) (by rw [← hx, List.getLast?_eq_some_getLast h0]; rfl)
                have h2 := hw _ (List.getLast_mem h0)
                rw [h1] at h2; simp at h2
            · refine hbv l (by simp) (c.pfx ++ a) w s2 ?_ hw ?_
              · rw [e1, ← hun.2, p2, e]; simp
              · intro x hx
                exact ((inline_iff.1 e2) x hx).1)
          rw [g1, g2, g3] at h
          simp only [Option.getD_some] at h
          have hnl1 : '\n' ∉ nm ++ sp := fun hx => hbody (by rw [eb]; simp only [List.mem_append] at hx ⊢; exact .inl hx)
          split at h
          · simp at h
          · rename_i rest hrest
            simp only [Except.ok.injEq] at h
            subst h
            rw [parseLoop_skip] at hrest
            rcases Props.C46_split_conditional_shape hcond with ⟨p1, p2, p3⟩ | ⟨p, q, p1, p2, _⟩
            · -- plain
              have hstale : ∀ mid z post, ls.map (·.1) = mid ++ z :: post →
                  open_ (joinC '\n' ((v ++ s2) :: mid)) = true →
                  EndsInBlank (joinC '\n' ((v ++ s2) :: mid)) → EndsInBlank z := by
                intro mid z post h1 h2 h3
                have ej : joinC '\n' (l :: mid) = nm ++ sp ++ joinC '\n' ((v ++ s2) :: mid) := by
                  rw [e1, ← p3, eb]
                  rw [List.append_assoc, joinC_prefix]
                refine hc.noStale [] l mid z post (by simp [h1]) ?_ ?_ ?_
                · obtain ⟨a, b, rfl, _⟩ := hsep
                  rw [e1, ← p3, eb]; simp
                · rw [← open_iff, ej]
                  exact open_suffix (notEscape_sep hsep) h2
                · rw [ej]
                  obtain ⟨x, hx, hx2⟩ := h3
                  refine ⟨x, ?_, hx2⟩
                  rw [List.getLast?_append, hx]; rfl
              have hnls : ∀ x ∈ ls, '\n' ∉ x.1 := fun x hx => hc.noNl _ (by
                      simp only [List.mem_cons, List.mem_map]; exact .inr ⟨x, hx, rfl⟩)
              have hvb : ¬ EndsInBlank v := by
                intro hx
                apply hs1b
                rw [← p3, eb, endsInBlank_iff_append hv]
                exact hx
              have hvn : '\n' ∉ v := fun hx => hbody (by rw [eb]; simp [hx])
              obtain ⟨t1, t2⟩ := takeValue_spec ls v s2 e2 hnls hstale
              obtain ⟨f1, f2, f3, f4, z, f5⟩ := takeValue_facts ls v s2 e2 hvb hnls (by
                intro x y e
                exact absurd (by rw [e]; simp) hvn)
              rw [p1, p2]
              rw [p2] at hrest
              simp only [List.isEmpty_nil, if_true, List.nil_append] at hrest ⊢
              generalize htv : takeValue v s2 ls = r at *
              obtain ⟨val, sfx, k⟩ := r
              simp only at *
              have hrd := ih (ls.drop k).length (by simp; omega) (ls.drop k) [] rest (by simp)
                (by rw [List.map_drop]; exact cleanTagLines_drop hcl k)
                (fun x hx => hbvl x (by rw [List.map_drop] at hx; exact List.mem_of_mem_drop hx)) hrest rfl
              have hlines : ∀ cm, tagLines ⟨nm, val, sp, cm, flag, [], sfx⟩ = l :: (ls.take k).map (·.1) := by
                intro cm
                unfold tagLines
                simp only [List.nil_append]
                rw [List.append_assoc, t2, ← joinC_prefix, ← List.append_assoc, ← eb, p3, ← e1]
                exact splitC_joinC (by simp) (by
                  intro x hx
                  simp only [List.mem_cons, List.mem_map] at hx
                  rcases hx with rfl | ⟨y, hy, rfl⟩
                  · exact hl
                  · exact hnls y (List.mem_of_mem_take hy))
              have := ReadTags.plain (above := buffer) (t := ⟨nm, val, sp, Comments.parse buffer, flag, [], sfx⟩)
                (first := l) (more := ls.take k) (rest := ls.drop k) (tags := rest)
                { name := hname, sep := hsep, oneLine := hnl1
                  value := by rw [f5]; simp [hv]
                  start := by
                    intro c hc
                    rw [f5] at hc
                    cases v with
                    | nil => simp at hv
                    | cons d v => exact hvs c (by simpa using hc)
                  pfx := rfl, sfx := f1, stop := f2
                  lines := fun x y e => (open_iff x).1 (f3 x y e)
                  first := by
                    rw [hlines]
                    refine ⟨s1, s2, by rw [← e1]; rfl, inline_iff.1 e2, hs1b, ?_⟩
                    rw [p1, p2, p3] at hun
                    exact hun }
                (commentsOf_parse hb) (hlines _) (by
                  rcases f4 with h | h
                  · left; rw [h]; simp
                  · right; rw [← open_iff, h]; simp) hrd
              simpa using this
            · have hsx : c.sfx.isEmpty = false := by rw [p2]; rfl
              rw [hsx] at hrest ⊢
              simp only [Bool.false_eq_true, if_false, List.drop_zero] at hrest ⊢
              have hrd := ih ls.length (by omega) ls [] rest (by simp) hcl hbvl hrest rfl
              have := ReadTags.wrapped (above := buffer)
                (t := ⟨nm, v, sp, Comments.parse buffer, flag, c.pfx, c.sfx ++ s2⟩) (rest := ls) (tags := rest)
                { name := hname, sep := hsep, oneLine := hnl1, value := hv, start := hvs
                  oneLineValue := by
                    intro hx
                    simp only [List.mem_append] at hx
                    apply hall
                    rcases hx with hx | hx
                    · simp [hx]
                    · rw [eb]; simp [hx]
                  wrapped := by
                    refine ⟨s2, by rw [p2]; rfl, inline_iff.1 e2, ?_⟩
                    rw [← eb]
                    rw [p2] at hun
                    rwa [hun.2] }
                (commentsOf_parse hb) hrd
              have el : c.pfx ++ nm ++ sp ++ v ++ (c.sfx ++ s2) = l := by
                rw [e1, ← hun.2, eb]; simp
              simp only [el] at this
              exact this

end Specfile.Tags
