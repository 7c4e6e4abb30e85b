import Verif.Proof.Sections
/-
Lemmas about the parts of section headers.
-/
namespace Specfile.Sections
open Py Regex Spec Tags

/-- the result of `split_id` describes these parts -/
structure HeaderIs [Uni] (p : HeaderParts) (h : Header) : Prop where
  name : h.name = p.name
  options : match p.options with
    | none => h.options = none ∧ h.delimiter = []
    | some (d, o) => ∃ ts, Options.tokenize o = .ok ts ∧
        h.options = some ⟨ts, optstring (Uni.lower p.name), []⟩ ∧ h.delimiter = d
  content : match p.moved with
    | none => h.separator = ['\n'] ∧ h.content = []
    | some (w, m) => h.separator = w ∧ h.content = [m]

theorem head_of_word {m : Str} (hm : Word m) : ∀ c ∈ m.head?, isSpace c = false :=
  fun c hc => hm c (List.mem_of_mem_head? hc)

theorem startsWith_iff_head {t : Str} {c : Char} : startsWith t [c] = true ↔ t.head? = some c := by
  cases t with
  | nil => simp [startsWith]
  | cons d ds =>
    simp only [startsWith, List.isPrefixOf, Bool.and_true, beq_iff_eq, List.head?_cons, Option.some.injEq]
    exact eq_comm

theorem getLast_pairs {ps : List (Str × Str)} {x : Str × Str} (h : ps.getLast? = some x) :
    ps = ps.dropLast ++ [x] := by
  rw [List.getLast?_eq_some_iff] at h
  obtain ⟨l, rfl⟩ := h
  simp

theorem joinPairs_append (a b : List (Str × Str)) : joinPairs (a ++ b) = joinPairs a ++ joinPairs b := by
  simp [joinPairs]

theorem joinPairs_one (w t : Str) : joinPairs [(w, t)] = w ++ t := by simp [joinPairs]
theorem joinPairs_cons (w t : Str) (ps) : joinPairs ((w, t) :: ps) = w ++ t ++ joinPairs ps := by
  simp [joinPairs]

/-- strip trailing whitespace -/
theorem split_trailing (a : Str) : ∃ b s, a = b ++ s ∧ Spaces s ∧
    (b = [] ∨ ∃ c ∈ b.getLast?, isSpace c = false) := by
  induction a with
  | nil => exact ⟨[], [], rfl, by intro c hc; simp at hc, Or.inl rfl⟩
  | cons c cs ih =>
    obtain ⟨b, s, rfl, hs, hb⟩ := ih
    cases b with
    | nil =>
      by_cases hc : isSpace c = true
      · refine ⟨[], c :: s, rfl, ?_, Or.inl rfl⟩
        intro x hx
        rcases List.mem_cons.mp hx with rfl | hx
        · exact hc
        · exact hs x hx
      · exact ⟨[c], s, rfl, hs, Or.inr ⟨c, by simp, by simpa using hc⟩⟩
    | cons d ds =>
      refine ⟨c :: d :: ds, s, rfl, hs, Or.inr ?_⟩
      rcases hb with h | ⟨x, hx, h⟩
      · simp at h
      · exact ⟨x, by simpa [List.getLast?_cons_cons] using hx, h⟩

/-- every way to split off a last word gives the last token -/
theorem last_token {a s m : Str} (hne : s ≠ []) (hs : Spaces s) (hm : Word m) :
    ∃ w, (splitWs (a ++ s ++ m)).2.getLast? = some (w, m) := by
  obtain ⟨b, s', rfl, hs', hb⟩ := split_trailing a
  have e : b ++ s' ++ s ++ m = b ++ (s' ++ s) ++ m := by simp
  rw [e, splitWs_append_word hb (by simp [hne]) (by
    intro c hc
    rcases List.mem_append.mp hc with hc | hc
    · exact hs' c hc
    · exact hs c hc) hm]
  exact ⟨s' ++ s, by simp⟩

/-- the tokens of a name followed by options -/
theorem splitWs_options {n d o : Str} (hn : Word n) (hd : d ≠ []) (hs : Spaces d)
    (ho : ∀ c ∈ o.head?, isSpace c = false) :
    splitWs (n ++ (d ++ o)) = (n, (d, (splitWs o).1) :: (splitWs o).2) := by
  rw [splitWs_word_append hn, splitWs_spaces_append hd hs ho]
  simp

theorem splitContent_moved {ex : Str → Except Err Str} {ps : List (Str × Str)} {s m : Str}
    (hm : m.head? = some '%') (hx : ExpandsToNewline ex m) :
    splitContent ex (ps ++ [(s, m)]) = .ok (ps, s, [m]) := by
  obtain ⟨y, hy⟩ := hx
  have h1 := startsWith_iff_head.mpr hm
  have h2 : startsWith ('\n' :: y) ['\n'] = true := by simp [startsWith]
  simp [splitContent, h1, hy, h2]

theorem splitContent_kept {ex : Str → Except Err Str} {ps : List (Str × Str)}
    (h : ∀ s m, ps.getLast? = some (s, m) → m.head? = some '%' → ExpandsInline ex m) :
    splitContent ex ps = .ok (ps, ['\n'], []) := by
  unfold splitContent
  cases hp : ps.getLast? with
  | none => rfl
  | some x =>
    obtain ⟨s, m⟩ := x
    simp only
    split
    · rename_i hm
      rcases h s m hp (startsWith_iff_head.mp hm) with e | ⟨y, e, hy⟩
      · rw [e]
      · rw [e]
        simp only
        rw [if_neg]
        rw [startsWith_iff_head]
        exact hy
    · rfl

theorem splitId_of_parts [Uni] {ex : Str → Except Err Str} {line : Str} {p : HeaderParts} {h : Header}
    (ht : HeaderText ex ('%' :: line) p) (hi : HeaderIs p h) : splitId ex line = .ok h := by
  obtain ⟨t1, t2, t3, t4, t5⟩ := ht
  obtain ⟨i1, i2, i3⟩ := hi
  obtain ⟨n, opts, moved⟩ := p
  obtain ⟨hn, ho, hd, hsep, hc⟩ := h
  simp only at t2 t3 t4 t5 i1 i2 i3
  simp only [List.cons.injEq, true_and] at t1
  subst i1
  have kept : moved = none → splitContent ex (splitWs line).2 = .ok ((splitWs line).2, ['\n'], []) := by
    intro hmv
    apply splitContent_kept
    intro s m hl hm
    have e := splitWs_text line
    rw [getLast_pairs hl, joinPairs_append, joinPairs_one] at e
    obtain ⟨b1, b2, b3⟩ := (splitWs_tidy line).ws (s, m) (List.mem_of_getLast? hl)
    exact t5 hmv ('%' :: ((splitWs line).1 ++ joinPairs (splitWs line).2.dropLast)) s m
      (by simpa using e.symm) b1 b2 b3 hm
  cases opts with
  | none =>
    simp only at i2
    obtain ⟨rfl, rfl⟩ := i2
    cases moved with
    | none =>
      simp only at i3
      obtain ⟨rfl, rfl⟩ := i3
      simp only [pairText, List.append_nil] at t1
      subst t1
      simp [splitId, splitWs_word t2, splitContent]
    | some x =>
      obtain ⟨s, m⟩ := x
      simp only at i3
      obtain ⟨rfl, rfl⟩ := i3
      obtain ⟨a1, a2, a3, a4, a5, _⟩ := t4 _ _ rfl
      simp only [pairText, List.append_nil] at t1
      subst t1
      have e : splitWs (hn ++ (hsep ++ m)) = (hn, [] ++ [(hsep, m)]) := by
        rw [splitWs_options t2 a1 a2 (head_of_word a3), splitWs_word a3]; rfl
      simp only [splitId, e, splitContent_moved a4 a5]
  | some x =>
    obtain ⟨d, o⟩ := x
    simp only at i2
    obtain ⟨ts, htok, rfl, rfl⟩ := i2
    obtain ⟨b1, b2, b3⟩ := t3 _ _ rfl
    cases moved with
    | none =>
      simp only at i3
      obtain ⟨rfl, rfl⟩ := i3
      simp only [pairText, List.append_nil] at t1
      have k := kept rfl
      subst t1
      rw [splitWs_options t2 b1 b2 b3] at k
      simp only [splitId, splitWs_options t2 b1 b2 b3, k, splitWs_text, htok]
    | some x =>
      obtain ⟨s, m⟩ := x
      simp only at i3
      obtain ⟨rfl, rfl⟩ := i3
      obtain ⟨a1, a2, a3, a4, a5, a6⟩ := t4 _ _ rfl
      obtain ⟨c, hc, hcs⟩ := a6 _ _ rfl
      simp only [pairText] at t1
      subst t1
      have e : splitWs (hn ++ (hd ++ o) ++ (hsep ++ m)) =
          (hn, (hd, (splitWs o).1) :: (splitWs o).2 ++ [(hsep, m)]) := by
        rw [← List.append_assoc, splitWs_append_word _ a1 a2 a3, splitWs_options t2 b1 b2 b3]
        right
        refine ⟨c, ?_, hcs⟩
        rw [← List.append_assoc, List.getLast?_append, Option.mem_def]
        rw [Option.mem_def] at hc
        rw [hc]
        rfl
      have k := splitContent_moved (ps := (hd, (splitWs o).1) :: (splitWs o).2) (s := hsep) a4 a5
      simp only [splitId, e, k, splitWs_text, htok]

/-- text made of nonempty tokens does not end in whitespace -/
theorem tokens_last {t : Str} {ps : List (Str × Str)} (ht : t ≠ [] ∧ Word t)
    (hp : ∀ p ∈ ps, p.2 ≠ [] ∧ Word p.2) : ∃ c ∈ (t ++ joinPairs ps).getLast?, isSpace c = false := by
  induction ps generalizing t with
  | nil =>
    simp only [joinPairs, List.map_nil, List.flatten_nil, List.append_nil]
    cases h : t.getLast? with
    | none => rw [List.getLast?_eq_none_iff] at h; exact absurd h ht.1
    | some c => exact ⟨c, rfl, ht.2 c (List.mem_of_getLast? h)⟩
  | cons p ps ih =>
    obtain ⟨w, t'⟩ := p
    obtain ⟨c, hc, h⟩ := ih (hp (w, t') (by simp)) (fun q hq => hp q (by simp [hq]))
    refine ⟨c, ?_, h⟩
    have e : t ++ joinPairs ((w, t') :: ps) = (t ++ w) ++ (t' ++ joinPairs ps) := by
      simp [joinPairs]
    rw [e, List.getLast?_append]
    rw [Option.mem_def] at hc ⊢
    rw [hc]; rfl

theorem kept_of [Uni] {ex : Str → Except Err Str} {line : Str}
    (h : ∀ s m, (splitWs line).2.getLast? = some (s, m) → m.head? = some '%' → ExpandsInline ex m) :
    ∀ a s m, '%' :: line = a ++ s ++ m → s ≠ [] → Spaces s → Word m →
      m.head? = some '%' → ExpandsInline ex m := by
  intro a s m he hne hs hm hh
  cases a with
  | nil =>
    exfalso
    cases s with
    | nil => exact hne rfl
    | cons c cs =>
      simp at he
      have := hs c (by simp)
      rw [← he.1] at this
      exact absurd this (by decide)
  | cons x a =>
    simp only [List.cons_append, List.cons.injEq] at he
    obtain ⟨w, hw⟩ := last_token (a := a) hne hs hm
    rw [← he.2] at hw
    exact h w m hw hh

theorem parts_of_splitId [Uni] {ex : Str → Except Err Str} {line : Str} {h : Header}
    (hs : splitId ex line = .ok h) : ∃ p, HeaderText ex ('%' :: line) p ∧ HeaderIs p h := by
  unfold splitId at hs
  have tidy := splitWs_tidy line
  have text := splitWs_text line
  have keep := kept_of (ex := ex) (line := line)
  revert tidy text keep hs
  generalize splitWs line = r
  obtain ⟨n, ps⟩ := r
  intro hs tidy text keep
  obtain ⟨y1, y2, y3⟩ := tidy
  simp only at y1 y2 y3 text keep hs
  have inline : (∀ s m, ps.getLast? = some (s, m) → m.head? = some '%' → ExpandsInline ex m) →
      ∀ d t qs, ps = (d, t) :: qs → HeaderText ex ('%' :: line) ⟨n, some (d, t ++ joinPairs qs), none⟩ := by
    rintro hk d t qs rfl
    refine ⟨?_, y1, ?_, ?_, fun _ => keep hk⟩
    · simp only [pairText, List.append_nil, ← text, joinPairs_cons, List.append_assoc]
    · intro d' o' he
      simp only [Option.some.injEq, Prod.mk.injEq] at he
      obtain ⟨rfl, rfl⟩ := he
      obtain ⟨z1, z2, z3⟩ := y2 (d, t) (by simp)
      refine ⟨z1, z2, ?_⟩
      cases t with
      | cons c cs => intro x hx; simp at hx; subst hx; exact z3 c (by simp)
      | nil =>
        cases qs with
        | nil => simp [joinPairs]
        | cons q qs => exact absurd rfl (y3 [] (d, []) q qs rfl)
    · simp
  cases hp : ps.getLast? with
  | none =>
    rw [List.getLast?_eq_none_iff] at hp
    subst hp
    simp [splitContent] at hs
    subst hs
    refine ⟨⟨n, none, none⟩, ⟨?_, y1, by simp, by simp, fun _ => keep (by simp)⟩, rfl, ⟨rfl, rfl⟩, ⟨rfl, rfl⟩⟩
    simp [pairText, ← text, joinPairs]
  | some x =>
    obtain ⟨ws, t⟩ := x
    have hsc : splitContent ex ps = if startsWith t ['%'] then
        match ex t with
        | .error .rpmException => .ok (ps, ['\n'], [])
        | .error e => .error e
        | .ok x => if startsWith x ['\n'] then .ok (ps.dropLast, ws, [t]) else .ok (ps, ['\n'], [])
      else .ok (ps, ['\n'], []) := by
      simp only [splitContent, hp]
      rfl
    -- the case in which nothing is moved
    have case1 : ExpandsInline ex t ∨ t.head? ≠ some '%' → splitContent ex ps = .ok (ps, ['\n'], []) →
        ∃ p, HeaderText ex ('%' :: line) p ∧ HeaderIs p h := by
      intro hk hsp
      rw [hsp] at hs
      cases ps with
      | nil => simp at hp
      | cons q qs =>
        obtain ⟨d, t0⟩ := q
        simp only at hs
        cases htok : Options.tokenize (t0 ++ joinPairs qs) with
        | error e => rw [htok] at hs; simp at hs
        | ok ts =>
          rw [htok] at hs
          simp only [Except.ok.injEq] at hs
          subst hs
          refine ⟨⟨n, some (d, t0 ++ joinPairs qs), none⟩, inline ?_ _ _ _ rfl, rfl, ⟨ts, htok, rfl, rfl⟩, ⟨rfl, rfl⟩⟩
          intro s m hl hm
          rw [hp] at hl
          simp only [Option.some.injEq, Prod.mk.injEq] at hl
          obtain ⟨rfl, rfl⟩ := hl
          rcases hk with hk | hk
          · exact hk
          · exact absurd hm hk
    by_cases hm : startsWith t ['%'] = true
    · rw [if_pos hm] at hsc
      cases hx : ex t with
      | error e =>
        rw [hx] at hsc
        by_cases he : e = .rpmException
        · subst he
          exact case1 (Or.inl (Or.inl hx)) hsc
        · exfalso
          have : splitContent ex ps = .error e := by rw [hsc]; cases e <;> simp_all
          rw [this] at hs
          simp at hs
      | ok x =>
        rw [hx] at hsc
        simp only at hsc
        by_cases hn : startsWith x ['\n'] = true
        · rw [if_pos hn] at hsc
          rw [hsc] at hs
          have hd := getLast_pairs hp
          obtain ⟨z1, z2, z3⟩ := y2 (ws, t) (List.mem_of_getLast? hp)
          have hexp : ExpandsToNewline ex t := by
            cases x with
            | nil => simp [startsWith] at hn
            | cons c cs =>
              have := startsWith_iff_head.mp hn
              simp at this; subst this
              exact ⟨cs, hx⟩
          revert hs hd
          generalize ps.dropLast = qs
          intro hs hd
          subst hd
          cases qs with
          | nil =>
            simp only [Except.ok.injEq] at hs
            subst hs
            refine ⟨⟨n, none, some (ws, t)⟩, ⟨?_, y1, by simp, ?_, by simp⟩, rfl, ⟨rfl, rfl⟩, ⟨rfl, rfl⟩⟩
            · simp [pairText, ← text, joinPairs]
            · intro s m he
              simp only [Option.some.injEq, Prod.mk.injEq] at he
              obtain ⟨rfl, rfl⟩ := he
              exact ⟨z1, z2, z3, startsWith_iff_head.mp hm, hexp, by simp⟩
          | cons q qs =>
            obtain ⟨d, t0⟩ := q
            simp only at hs
            have ne : ∀ p ∈ (d, t0) :: qs, p.2 ≠ [] := by
              intro p hp
              obtain ⟨u, v, huv⟩ := List.append_of_mem hp
              rw [huv] at y3
              cases v with
              | nil => exact y3 u p (ws, t) [] (by simp)
              | cons y v => exact y3 u p y (v ++ [(ws, t)]) (by simp)
            cases htok : Options.tokenize (t0 ++ joinPairs qs) with
            | error e => rw [htok] at hs; simp at hs
            | ok ts =>
              rw [htok] at hs
              simp only [Except.ok.injEq] at hs
              subst hs
              refine ⟨⟨n, some (d, t0 ++ joinPairs qs), some (ws, t)⟩, ⟨?_, y1, ?_, ?_, by simp⟩, rfl,
                ⟨ts, htok, rfl, rfl⟩, ⟨rfl, rfl⟩⟩
              · simp [pairText, ← text, joinPairs]
              · intro d' o' he
                simp only [Option.some.injEq, Prod.mk.injEq] at he
                obtain ⟨rfl, rfl⟩ := he
                obtain ⟨u1, u2, u3⟩ := y2 (d, t0) (by simp)
                refine ⟨u1, u2, ?_⟩
                have := ne (d, t0) (by simp)
                cases t0 with
                | nil => exact absurd rfl this
                | cons c cs => intro x hx; simp at hx; subst hx; exact u3 c (by simp)
              · intro s m he
                simp only [Option.some.injEq, Prod.mk.injEq] at he
                obtain ⟨rfl, rfl⟩ := he
                refine ⟨z1, z2, z3, startsWith_iff_head.mp hm, hexp, ?_⟩
                intro d' o' he
                simp only [Option.some.injEq, Prod.mk.injEq] at he
                obtain ⟨rfl, rfl⟩ := he
                apply tokens_last
                · exact ⟨ne (d, t0) (by simp), (y2 (d, t0) (by simp)).2.2⟩
                · intro q hq
                  exact ⟨ne q (by simp [hq]), (y2 q (by simp [hq])).2.2⟩
        · rw [if_neg hn] at hsc
          refine case1 (Or.inl (Or.inr ⟨x, hx, ?_⟩)) hsc
          rw [startsWith_iff_head] at hn
          exact hn
    · rw [if_neg hm] at hsc
      refine case1 (Or.inr ?_) hsc
      rw [startsWith_iff_head] at hm
      exact hm

theorem splitId_iff [Uni] {ex : Str → Except Err Str} {line : Str} {h : Header} :
    splitId ex line = .ok h ↔ ∃ p, HeaderText ex ('%' :: line) p ∧ HeaderIs p h :=
  ⟨parts_of_splitId, fun ⟨_, h1, h2⟩ => splitId_of_parts h1 h2⟩

end Specfile.Sections
