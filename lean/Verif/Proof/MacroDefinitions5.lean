import Verif.Proof.MacroDefinitions4
import Verif.Spec.DefinitionText
/-
Reading back a list of definitions that was written.
-/
namespace Specfile
open Py Regex Spec
namespace MacroDefinitions

theorem open_iff (t : Str) : open_ t = true ↔ Unfinished t := by
  unfold open_ Unfinished
  simp only [Bool.or_eq_true, decide_eq_true_eq, endsWith_singleton]
  have h := fun b p => Props.C48_count_brackets t b p
  have key := (h (Utils.countBrackets t).1 (Utils.countBrackets t).2).1 rfl
  constructor
  · rintro ((h1 | h1) | h1)
    · left
      refine ⟨(Utils.countBrackets t).1 - 1, ?_⟩
      rw [show (Utils.countBrackets t).1 - 1 + 1 = (Utils.countBrackets t).1 by omega]
      exact key.1
    · right; left
      refine ⟨(Utils.countBrackets t).2 - 1, ?_⟩
      rw [show (Utils.countBrackets t).2 - 1 + 1 = (Utils.countBrackets t).2 by omega]
      exact key.2
    · right; right; exact h1
  · rintro (⟨n, h1⟩ | ⟨n, h1⟩ | h1)
    · left; left
      have := (h (n + 1) (Utils.countBrackets t).2).2 ⟨h1, key.2⟩
      rw [this]; simp
    · left; right
      have := (h (Utils.countBrackets t).1 (n + 1)).2 ⟨key.1, h1⟩
      rw [this]; simp
    · right; exact h1

theorem all_dot {q : Str} (h : '\n' ∉ q) : q.all dot = true := by
  rw [List.all_eq_true]
  intro c hc
  simp only [dot, bne_iff_ne]
  rintro rfl
  exact h hc

theorem all_of_forall {p : Char → Bool} {q : Str} (h : ∀ c ∈ q, p c = true) : q.all p = true := by
  rw [List.all_eq_true]; exact h

theorem nameText_of [Uni] {name : Str} (h : MacroName name) : NameText name := by
  obtain ⟨w, a, e, h0, hw, ha⟩ := h
  refine ⟨w, a, e, h0, all_of_forall hw, ?_⟩
  rcases ha with h | ⟨x, h1, h2, h3⟩
  · exact .inl h
  · exact .inr ⟨x, h1, all_dot h2, h3⟩

/-- a line that mentions neither keyword is no definition -/
theorem no_match [Uni] {l : Str} (h1 : ¬ s% "global" <:+: l) (h2 : ¬ s% "define" <:+: l) :
    rmatch mdRe l = none := by
  cases h : rmatch mdRe l with
  | none => rfl
  | some t =>
    exfalso
    obtain ⟨p, e⟩ := mdRe_inv h
    rcases p.kw with hk | hk
    · exact h1 ⟨p.g1 ++ p.dnl ++ p.g3, p.g5 ++ p.g6 ++ p.g7 ++ p.g8 ++ p.g9 ++ p.r, by
        rw [e, ← hk]; simp⟩
    · exact h2 ⟨p.g1 ++ p.dnl ++ p.g3, p.g5 ++ p.g6 ++ p.g7 ++ p.g8 ++ p.g9 ++ p.r, by
        rw [e, ← hk]; simp⟩

/-- the caps found on the first line of a readable definition -/
theorem readable_head [Uni] {d : MacroDefinition} (hd : Readable d) {b e : Str} (he : EndText b e)
    (hh : d.style = .hash → d.commentedOut = true → d.body ++ d.ws3 = b ++ e) :
    ∃ t, rmatch mdRe (d.head ++ (b ++ e)) = some t ∧
      t.caps = [(9, e), (8, b), (7, d.ws2), (6, d.name), (5, d.ws1), (4, d.kwStr),
        (3, d.pfx ++ d.scStr)] ++ (if d.dnlStr = [] then [] else [(2, d.dnlStr)]) ++ [(1, d.ws0)] := by
  have hkw : d.kwStr = s% "global" ∨ d.kwStr = s% "define" := by
    unfold MacroDefinition.kwStr; split <;> simp
  have hw0 := all_of_forall hd.ws0
  have tail := fun pre caps => tail_head (pre := pre) (caps := caps) hkw (all_of_forall hd.ws1.2)
    hd.ws1.1 (nameText_of hd.name) (all_of_forall hd.ws2.2) hd.ws2.1 he
  cases hd.intro with
  | plain h1 h2 h3 =>
    obtain ⟨pre', ht⟩ := tail ('%' :: d.ws0.reverse) [(3, ['%']), (1, d.ws0)]
    rw [show d.head ++ (b ++ e) = d.ws0 ++ '%' :: (d.kwStr ++ (d.ws1 ++ (d.name ++ (d.ws2 ++ (b ++ e))))) by
      simp [MacroDefinition.head, MacroDefinition.dnlStr, MacroDefinition.scStr, h1, h3]]
    refine ⟨_, plain_head hw0 ht ?_, ?_⟩
    · rcases hkw with h | h <;> simp [h]
    · simp [MacroDefinition.scStr, MacroDefinition.dnlStr, h1, h3]
  | @inComment q h1 h2 h3 h4 h5 =>
    obtain ⟨pre', ht⟩ := tail ('%' :: (q.reverse ++ '#' :: d.ws0.reverse)) [(3, '#' :: (q ++ ['%'])), (1, d.ws0)]
    rw [show d.head ++ (b ++ e) = d.ws0 ++ '#' :: (q ++ '%' :: (d.kwStr ++ (d.ws1 ++ (d.name ++ (d.ws2 ++ (b ++ e)))))) by
      simp [MacroDefinition.head, MacroDefinition.dnlStr, MacroDefinition.scStr, h1, h3]]
    refine ⟨_, comment_head hw0 ⟨all_dot h4, .inl h5⟩ ht, ?_⟩
    · simp [MacroDefinition.scStr, MacroDefinition.dnlStr, h1, h3]
  | @escaped q h1 h2 h3 h4 h5 =>
    obtain ⟨pre', ht⟩ := tail ('%' :: ((q ++ ['%']).reverse ++ '#' :: d.ws0.reverse)) [(3, '#' :: (q ++ ['%'] ++ ['%'])), (1, d.ws0)]
    rw [show d.head ++ (b ++ e) = d.ws0 ++ '#' :: ((q ++ ['%']) ++ '%' :: (d.kwStr ++ (d.ws1 ++ (d.name ++ (d.ws2 ++ (b ++ e)))))) by
      simp [MacroDefinition.head, MacroDefinition.dnlStr, MacroDefinition.scStr, h2, h3]]
    refine ⟨_, comment_head hw0 ⟨?_, .inr ⟨q, rfl, h5⟩⟩ ht, ?_⟩
    · apply all_dot; simp [h4]
    · simp [MacroDefinition.scStr, MacroDefinition.dnlStr, h2, h3]
  | hash h1 h2 h3 h4 h5 =>
    obtain ⟨pre', ht⟩ := tail ('#' :: d.ws0.reverse) [(3, ['#']), (1, d.ws0)]
    have hbe := hh h2 h1
    have hinf : ∀ k : Str, k = s% "%global" ∨ k = s% "%define" → ¬ k <:+: d.name ++ d.ws2 ++ d.body →
        ¬ k <:+: d.kwStr ++ (d.ws1 ++ (d.name ++ (d.ws2 ++ (b ++ e)))) := by
      intro k hk hn hc
      have hsp : ∀ c ∈ d.ws3, isSpace c = true := fun c hc => (hd.ws3 c hc).1
      have k1 : ∃ k', k = '%' :: k' ∧ (∀ c ∈ k, isSpace c = false) ∧ '%' ∉ k' := by
        rcases hk with rfl | rfl
        · exact ⟨_, rfl, by decide, by decide⟩
        · exact ⟨_, rfl, by decide, by decide⟩
      obtain ⟨k', e', hks, _⟩ := k1
      obtain ⟨x, y, hxy⟩ := hc
      rw [← hbe] at hxy
      -- drop whitespace at the end
      have hxy : (x ++ k) ++ y = (d.kwStr ++ d.ws1 ++ d.name ++ d.ws2 ++ d.body) ++ d.ws3 := by
        simpa using hxy
      have hend : ∃ y', x ++ k ++ y' = d.kwStr ++ d.ws1 ++ d.name ++ d.ws2 ++ d.body := by
        rcases List.append_eq_append_iff.1 hxy with ⟨z, h1, h2⟩ | ⟨z, h1, h2⟩
        · exact ⟨z, h1.symm⟩
        · cases z with
          | nil => exact ⟨[], by simpa using h1⟩
          | cons z0 zs =>
            exfalso
            have hlast : k.getLast? = (z0 :: zs).getLast? := by
              have := congrArg List.getLast? h1
              rw [List.getLast?_append, List.getLast?_append] at this
              have hk0 : k.getLast? ≠ none := by rw [e']; simp
              cases hkl : k.getLast? with
              | none => exact absurd hkl hk0
              | some c =>
                cases hzl : (z0 :: zs).getLast? with
                | none => simp at hzl
                | some c' => rw [hkl, hzl] at this; simpa using this
            cases hzl : (z0 :: zs).getLast? with
            | none => simp at hzl
            | some c' =>
              rw [hzl] at hlast
              have m1 := List.mem_of_getLast? hlast
              have m2 := List.mem_of_getLast? hzl
              have := hsp c' (by rw [h2]; exact List.mem_append_left _ m2)
              rw [hks c' m1] at this
              simp at this
      obtain ⟨y', hy'⟩ := hend
      -- drop keyword and whitespace at the start
      have hpre : '%' ∉ d.kwStr ++ d.ws1 := by
        rw [List.mem_append]
        rintro (h | h)
        · rcases hkw with hk | hk <;> rw [hk] at h <;> revert h <;> decide
        · have := hd.ws1.2 _ h; revert this; decide
      rw [List.append_assoc] at hy'
      have hy'' : x ++ (k ++ y') = (d.kwStr ++ d.ws1) ++ (d.name ++ d.ws2 ++ d.body) := by
        rw [hy']; simp
      rcases List.append_eq_append_iff.1 hy'' with ⟨z, h1, h2⟩ | ⟨z, h1, h2⟩
      · cases z with
        | nil => exact hn ⟨[], y', by simpa using h2⟩
        | cons z0 zs =>
          rw [e'] at h2
          simp only [List.cons_append, List.cons.injEq] at h2
          apply hpre
          rw [h1, ← h2.1]; simp
      · exact hn ⟨z, y', by rw [h2]; simp⟩
    rw [show d.head ++ (b ++ e) = d.ws0 ++ '#' :: (d.kwStr ++ (d.ws1 ++ (d.name ++ (d.ws2 ++ (b ++ e))))) by
      simp [MacroDefinition.head, MacroDefinition.dnlStr, MacroDefinition.scStr, h1, h2, h3]]
    refine ⟨_, hash_head hw0 ⟨hinf _ (.inl rfl) h4, hinf _ (.inr rfl) h5⟩ ht, ?_⟩
    · simp [MacroDefinition.scStr, MacroDefinition.dnlStr, h1, h2, h3]
  | dnl h1 h2 h3 h4 =>
    obtain ⟨pre', ht⟩ := tail ('%' :: (d.pfx.reverse ++ ((s% "%dnl").reverse ++ d.ws0.reverse)))
      [(3, d.pfx ++ ['%']), (2, s% "%dnl"), (1, d.ws0)]
    rw [show d.head ++ (b ++ e) = d.ws0 ++ (s% "%dnl" ++ (d.pfx ++ '%' :: (d.kwStr ++ (d.ws1 ++ (d.name ++ (d.ws2 ++ (b ++ e))))))) by
      simp [MacroDefinition.head, MacroDefinition.dnlStr, MacroDefinition.scStr, h1, h2]]
    refine ⟨_, dnl_head hw0 ⟨all_dot h3, .inl h4⟩ ht, ?_⟩
    · simp [MacroDefinition.scStr, MacroDefinition.dnlStr, h1, h2]

theorem takeBody_exact {body : Str} {bs : List (Str × Bool)} (more : List (Str × Bool))
    (h1 : ∀ k, k < bs.length → open_ (joinC '\n' (body :: (bs.take k).map (·.1))) = true)
    (h2 : open_ (joinC '\n' (body :: bs.map (·.1))) = false) :
    takeBody body (bs ++ more) = (joinC '\n' (body :: bs.map (·.1)), bs.length) := by
  induction bs generalizing body with
  | nil =>
    simp only [List.map_nil, joinC_one] at h2
    cases more with
    | nil => simp [takeBody]
    | cons l ls => simp [takeBody, h2]
  | cons l ls ih =>
    have h0 := h1 0 (by simp)
    simp only [List.take_zero, List.map_nil, joinC_one] at h0
    simp only [List.cons_append, takeBody, h0, if_true]
    have hj : ∀ r : List Str, joinC '\n' ((body ++ '\n' :: l.1) :: r) = joinC '\n' (body :: l.1 :: r) := by
      intro r
      cases r with
      | nil => simp [joinC]
      | cons a as => simp [joinC]
    rw [ih (body := body ++ '\n' :: l.1)]
    · simp [hj]
    · intro k hk
      rw [hj]
      have := h1 (k + 1) (by simpa using hk)
      simpa using this
    · rw [hj]; simpa using h2

theorem splitC_lines {s : Str} {b : Str} {bs : List Str} (h : splitC '\n' s = b :: bs) :
    s = joinC '\n' (b :: bs) := by
  rw [← h, joinC_splitC]

/-- what is built from the first line of a readable definition and the lines that follow -/
theorem readable_build [Uni] {d : MacroDefinition} (hd : Readable d) (more : List (Str × Bool)) :
    ∃ b bs, d.raw = d.preceding ++ (d.head ++ b) :: bs ∧
      ∃ t, rmatch mdRe (d.head ++ b) = some t ∧
        build t true d.preceding (bs.map (fun l => (l, true)) ++ more) = (d, bs.length) := by
  obtain ⟨b, bs, hs, hraw⟩ := raw_eq d
  refine ⟨b, bs, hraw, ?_⟩
  have hjoin := splitC_lines hs
  have hnl3 : '\n' ∉ d.ws3 := fun h => (hd.ws3 _ h).2 rfl
  have hws3 : d.ws3.all inlineSpace = true := by
    rw [List.all_eq_true]; intro c hc
    simp [inlineSpace, hd.ws3 c hc]
  have hbnl : '\n' ∉ b := mem_splitC_not_mem (c := '\n') (s := d.body ++ d.ws3) (by rw [hs]; simp)
  -- text after a line break is in the body
  have hcut : ∀ x y, d.body ++ d.ws3 = x ++ '\n' :: y → ∃ y', d.body = x ++ '\n' :: y' := by
    intro x y hxy
    rcases List.append_eq_append_iff.1 hxy with ⟨z, h1, h2⟩ | ⟨z, h1, h2⟩
    · exfalso; apply hnl3; rw [h2]; simp
    · cases z with
      | nil => exfalso; apply hnl3; simp at h2; rw [← h2]; simp
      | cons z0 zs =>
        simp only [List.cons_append, List.cons.injEq] at h2
        exact ⟨zs, by rw [h1, ← h2.1]⟩
  -- the end of the first line
  obtain ⟨b', e, hbe, he, hcase⟩ : ∃ b' e, b = b' ++ e ∧ EndText b' e ∧
      ((bs = [] ∧ b' = d.body ∧ e = d.ws3) ∨
       (bs ≠ [] ∧ d.commentedOut = false ∧ (e = [] ∧ b'.getLast? ≠ some '\\' ∨ e = ['\\']))) := by
    cases hbs : bs with
    | nil =>
      rw [hbs] at hjoin
      simp only [joinC_one] at hjoin
      refine ⟨d.body, d.ws3, hjoin.symm, ⟨?_, ?_, .inl ⟨?_, hnl3, hd.stop, ?_⟩⟩, .inl ⟨rfl, rfl, rfl⟩⟩
      · apply all_dot
        intro h; apply hbnl; rw [← hjoin]; simp [h]
      · exact hd.start
      · exact all_of_forall (fun c hc => (hd.ws3 c hc).1)
      · intro _ hlast
        cases hc : d.commentedOut with
        | true => exact (hd.single hc).2 hlast
        | false => exact hd.finished hc (.inr (.inr hlast))
    | cons l ls =>
      rw [hbs] at hjoin
      have hsplit : d.body ++ d.ws3 = b ++ '\n' :: joinC '\n' (l :: ls) := by
        rw [hjoin]; rfl
      obtain ⟨y', hy'⟩ := hcut _ _ hsplit
      have hb0 : ∀ c ∈ b.getLast?, isSpace c = false := hd.firstLine b y' hy' hbnl
      have hbne : b ≠ [] := by
        rintro rfl
        have := hd.start '\n' (by rw [hsplit]; rfl)
        revert this; decide
      have hstart : NoMore isSpace b := by
        intro c hc
        apply hd.start
        rw [hsplit]
        cases b with
        | nil => simp at hc
        | cons x xs => simpa using hc
      have hcom : d.commentedOut = false := by
        cases hc : d.commentedOut with
        | false => rfl
        | true => exfalso; apply (hd.single hc).1; rw [hy']; simp
      by_cases hl : b.getLast? = some '\\'
      · obtain ⟨b', hb'⟩ := List.getLast?_eq_some_iff.1 hl
        refine ⟨b', ['\\'], hb', ⟨?_, ?_, .inr rfl⟩, .inr ⟨by simp, hcom, .inr rfl⟩⟩
        · apply all_dot; intro h; apply hbnl; rw [hb']; simp [h]
        · rw [← hb']; exact hstart
      · refine ⟨b, [], by simp, ⟨all_dot hbnl, by simpa using hstart, .inl ⟨rfl, by simp, hb0, fun _ => hl⟩⟩,
          .inr ⟨by simp, hcom, .inl ⟨rfl, hl⟩⟩⟩
  obtain ⟨t, ht, hcaps⟩ := readable_head hd he (by
    intro _ h2
    rcases hcase with ⟨_, h3, h4⟩ | ⟨_, h3, _⟩
    · rw [h3, h4]
    · rw [h3] at h2; simp at h2)
  refine ⟨t, by rw [hbe]; exact ht, ?_⟩
  -- the captured groups
  have g : ∀ k, t.get k = (([(9, e), (8, b'), (7, d.ws2), (6, d.name), (5, d.ws1), (4, d.kwStr),
        (3, d.pfx ++ d.scStr)] ++ (if d.dnlStr = [] then [] else [(2, d.dnlStr)]) ++ [(1, d.ws0)] :
        List (Nat × Str)).find? (fun x => decide (x.1 = k))).map (·.2) := by
    intro k; rw [St.get, hcaps]
  have g1 : t.get 1 = some d.ws0 := by rw [g]; split <;> simp
  have g2 : t.get 2 = if d.dnlStr = [] then none else some d.dnlStr := by rw [g]; split <;> simp
  have g3 : t.get 3 = some (d.pfx ++ d.scStr) := by rw [g]; split <;> simp
  have g4 : t.get 4 = some d.kwStr := by rw [g]; split <;> simp
  have g5 : t.get 5 = some d.ws1 := by rw [g]; split <;> simp
  have g6 : t.get 6 = some d.name := by rw [g]; split <;> simp
  have g7 : t.get 7 = some d.ws2 := by rw [g]; split <;> simp
  have g8 : t.get 8 = some b' := by rw [g]; split <;> simp
  have g9 : t.get 9 = some e := by rw [g]; split <;> simp
  have hkw : (d.kwStr == s% "global") = d.isGlobal := by
    unfold MacroDefinition.kwStr; cases d.isGlobal <;> simp
  -- does it continue?
  have hcont : continues t = !d.commentedOut := by
    simp only [continues, g2, g3, Option.getD_some]
    cases hd.intro with
    | plain h1 h2 h3 => simp [MacroDefinition.dnlStr, MacroDefinition.scStr, h1, h3, endsWith, List.isSuffixOf, List.isPrefixOf]
    | @inComment q h1 h2 h3 h4 h5 =>
      have a1 : endsWith (d.pfx ++ d.scStr) ['#'] = false := by
        rw [Bool.eq_false_iff, ne_eq, endsWith_singleton]
        simp [MacroDefinition.scStr, h1]
      have a2 : endsWith (d.pfx ++ d.scStr) (s% "%%") = false := by
        rw [Bool.eq_false_iff]
        intro h
        unfold endsWith at h
        rw [List.isSuffixOf_iff_suffix] at h
        obtain ⟨z, hz⟩ := h
        rw [h3] at hz
        simp only [MacroDefinition.scStr, h1, Bool.false_and, Bool.false_eq_true, if_false] at hz
        have : z ++ ['%'] = '#' :: q := by
          have := congrArg List.dropLast hz
          rw [List.dropLast_concat] at this
          rw [← this, List.dropLast_append_of_ne_nil (by simp)]
          rfl
        cases z with
        | nil => simp at this
        | cons z0 zs =>
          simp at this
          apply h5; rw [← this.2]; simp
      simp [MacroDefinition.dnlStr, h1, a1, a2]
    | @escaped q h1 h2 h3 h4 h5 =>
      have a2 : endsWith (d.pfx ++ d.scStr) (s% "%%") = true := by
        unfold endsWith
        rw [List.isSuffixOf_iff_suffix]
        exact ⟨'#' :: q, by simp [h3, MacroDefinition.scStr, h2]⟩
      have a3 : 1 < (d.pfx ++ d.scStr).length := by
        simp [h3, MacroDefinition.scStr, h2]
      simp only [a2, h1, decide_eq_true a3]
      simp
    | hash h1 h2 h3 h4 h5 =>
      simp [MacroDefinition.scStr, h1, h2, h3, endsWith, List.isSuffixOf, List.isPrefixOf]
    | dnl h1 h2 h3 h4 => simp [MacroDefinition.dnlStr, h1, h2]
  have hb0 : body0 t = if !d.commentedOut && e == ['\\'] then b' ++ e else b' := by
    simp only [body0, hcont, g8, g9, Option.getD_some]
  have hw0 : ws0 t = if !d.commentedOut && e == ['\\'] then [] else e := by
    simp only [ws0, hcont, g9, Option.getD_some]
  -- the body
  have hfull : ∃ w, (full t (bs.map (fun l => (l, true)) ++ more)) = (d.body ++ w, bs.length) ∧
      w.all inlineSpace = true ∧ w ++ ws0 t = d.ws3 := by
    rcases hcase with ⟨hbs, rfl, rfl⟩ | ⟨hbs, hcom, hee⟩
    · refine ⟨[], ?_, rfl, ?_⟩
      · have hne : (d.ws3 == ['\\']) = false := by
          rw [beq_eq_false_iff_ne]
          intro h
          have := (hd.ws3 '\\' (by rw [h]; simp)).1
          revert this; decide
        rw [full, hcont, hb0, hne, hbs]
        cases hc : d.commentedOut with
        | true => simp
        | false =>
          simp only [Bool.not_false, if_true, Bool.and_false, Bool.false_eq_true, if_false, List.map_nil,
            List.nil_append, List.length_nil, List.append_nil]
          rw [show more = [] ++ more from rfl, takeBody_exact]
          · simp
          · simp
          · simp only [List.map_nil, joinC_one]
            rw [Bool.eq_false_iff, ne_eq, open_iff]
            exact hd.finished hc
      · have hne : (d.ws3 == ['\\']) = false := by
          rw [beq_eq_false_iff_ne]
          intro h
          have := (hd.ws3 '\\' (by rw [h]; simp)).1
          revert this; decide
        rw [hw0, hne]; simp
    · have hb0' : body0 t = b := by
        rw [hb0, hcom, hbe]
        rcases hee with ⟨rfl, _⟩ | rfl <;> simp
      have hw0' : ws0 t = [] := by
        rw [hw0, hcom]
        rcases hee with ⟨rfl, _⟩ | rfl <;> simp
      refine ⟨d.ws3, ?_, hws3, by rw [hw0']; simp⟩
      rw [full, hcont, hcom, hb0']
      simp only [Bool.not_false, if_true]
      rw [takeBody_exact]
      · simp only [List.map_map, List.length_map]
        rw [show ((fun x => x.1) ∘ fun l => (l, true) : Str → Str) = id from rfl, List.map_id, ← hjoin]
      · intro k hk
        rw [open_iff]
        simp only [List.length_map] at hk
        rw [← List.map_take, List.map_map, show ((fun x => x.1) ∘ fun l => (l, true) : Str → Str) = id from rfl, List.map_id]
        have hsp : d.body ++ d.ws3 = joinC '\n' (b :: bs.take k) ++ '\n' :: joinC '\n' (bs.drop k) := by
          rw [hjoin, ← joinC_append _ (by simp) (by simp; omega)]
          simp
        obtain ⟨y', hy'⟩ := hcut _ _ hsp
        exact hd.unfinished _ _ hy'
      · rw [List.map_map, show ((fun x => x.1) ∘ fun l => (l, true) : Str → Str) = id from rfl, List.map_id, ← hjoin,
          Bool.eq_false_iff, ne_eq]
        intro ho
        apply hd.finished hcom
        have hsp3 : d.ws3.all isSpace = true := all_of_forall (fun c hc => (hd.ws3 c hc).1)
        rw [← open_iff]
        unfold open_ at ho ⊢
        rw [countBrackets_spaces _ _ hsp3] at ho
        simp only [Bool.or_eq_true, endsWith_singleton] at ho ⊢
        rcases ho with ho | ho
        · exact .inl ho
        · cases h3 : d.ws3 with
          | nil => rw [h3] at ho; right; simpa using ho
          | cons c cs =>
            exfalso
            exact (getLast_notEscape (a := d.body) (b := d.ws3) (by simp [h3]) hsp3 '\\' ho).1 rfl
  obtain ⟨w, hf, hw, hww⟩ := hfull
  obtain ⟨k1, k2, k3, k4⟩ := build_body t true d.preceding (bs.map (fun l => (l, true)) ++ more)
  have hst : splitTrailing (full t (bs.map (fun l => (l, true)) ++ more)).1 = (d.body, w) := by
    rw [hf]; exact splitTrailing_append hd.stop hw
  -- comment style
  have hstyle : (build t true d.preceding (bs.map (fun l => (l, true)) ++ more)).1.commentedOut = d.commentedOut ∧
      (build t true d.preceding (bs.map (fun l => (l, true)) ++ more)).1.style = d.style ∧
      (build t true d.preceding (bs.map (fun l => (l, true)) ++ more)).1.pfx = d.pfx := by
    simp only [build, g2, g3, Option.getD_some]
    cases hd.intro with
    | plain h1 h2 h3 => simp [MacroDefinition.dnlStr, MacroDefinition.scStr, h1, h2, h3, endsWith, List.isSuffixOf, List.isPrefixOf]
    | @inComment q h1 h2 h3 h4 h5 =>
      have a1 : endsWith (d.pfx ++ d.scStr) ['#'] = false := by
        rw [Bool.eq_false_iff, ne_eq, endsWith_singleton]
        simp [MacroDefinition.scStr, h1]
      have a2 : endsWith (d.pfx ++ d.scStr) (s% "%%") = false := by
        rw [Bool.eq_false_iff]
        intro h
        unfold endsWith at h
        rw [List.isSuffixOf_iff_suffix] at h
        obtain ⟨z, hz⟩ := h
        rw [h3] at hz
        simp only [MacroDefinition.scStr, h1, Bool.false_and, Bool.false_eq_true, if_false] at hz
        have : z ++ ['%'] = '#' :: q := by
          have := congrArg List.dropLast hz
          rw [List.dropLast_concat] at this
          rw [← this, List.dropLast_append_of_ne_nil (by simp)]
          rfl
        cases z with
        | nil => simp at this
        | cons z0 zs =>
          simp at this
          apply h5; rw [← this.2]; simp
      have a4 : d.scStr = ['%'] := by simp [MacroDefinition.scStr, h1]
      have a5 : d.dnlStr = [] := by simp [MacroDefinition.dnlStr, h1]
      simp only [a1, a2, a5, h1, h2]
      simp only [a4, List.dropLast_concat]
      simp [h3]
    | @escaped q h1 h2 h3 h4 h5 =>
      have a2 : endsWith (d.pfx ++ d.scStr) (s% "%%") = true := by
        unfold endsWith
        rw [List.isSuffixOf_iff_suffix]
        exact ⟨'#' :: q, by simp [h3, MacroDefinition.scStr, h2]⟩
      have a3 : decide ((d.pfx ++ d.scStr).length > 1) = true := by
        simp [h3, MacroDefinition.scStr, h2]
      have a1 : endsWith (d.pfx ++ d.scStr) ['#'] = false := by
        rw [Bool.eq_false_iff, ne_eq, endsWith_singleton]
        simp [MacroDefinition.scStr, h2]
      have a4 : d.scStr = ['%'] := by simp [MacroDefinition.scStr, h2]
      have a5 : d.dnlStr = [] := by simp [MacroDefinition.dnlStr, h2]
      have a6 : (d.pfx ++ d.scStr).contains '#' = true := by simp [h3]
      simp only [a1, a2, a3, a5, a6, h1, h2]
      simp only [a4, List.dropLast_concat]
      simp [h3]
    | hash h1 h2 h3 h4 h5 =>
      simp [MacroDefinition.scStr, MacroDefinition.dnlStr, h1, h2, h3, endsWith, List.isSuffixOf, List.isPrefixOf]
    | dnl h1 h2 h3 h4 =>
      have a1 : endsWith (d.pfx ++ d.scStr) ['#'] = false := by
        rw [Bool.eq_false_iff, ne_eq, endsWith_singleton]
        simp [MacroDefinition.scStr, h2]
      have a2 : (decide ((d.pfx ++ d.scStr).length > 1) && endsWith (d.pfx ++ d.scStr) (s% "%%")) = false := by
        rw [Bool.eq_false_iff]
        intro h
        rw [Bool.and_eq_true] at h
        have h := h.2
        unfold endsWith at h
        rw [List.isSuffixOf_iff_suffix] at h
        obtain ⟨z, hz⟩ := h
        simp only [MacroDefinition.scStr, h2, reduceCtorEq, decide_false, Bool.and_false, Bool.false_eq_true, if_false] at hz
        have : z ++ ['%'] = d.pfx := by
          have := congrArg List.dropLast hz
          rw [List.dropLast_concat] at this
          rw [← this, List.dropLast_append_of_ne_nil (by simp)]
          rfl
        apply h4; rw [← this]; simp
      have a4 : d.scStr = ['%'] := by simp [MacroDefinition.scStr, h2]
      have a5 : d.dnlStr = s% "%dnl" := by simp [MacroDefinition.dnlStr, h1, h2]
      simp only [a1, a2, a5, h1, h2]
      simp only [a4, List.dropLast_concat]
      cases d.pfx <;> simp
  apply Prod.ext
  · obtain ⟨m1, m2, m3⟩ := hstyle
    generalize hB : (build t true d.preceding (bs.map (fun l => (l, true)) ++ more)).1 = B at *
    have n1 : B.name = d.name := by rw [← hB]; simp [build, g6]
    have n2 : B.isGlobal = d.isGlobal := by rw [← hB]; simp only [build, g4, Option.getD_some]; exact hkw
    have n3 : B.ws0 = d.ws0 := by rw [← hB]; simp [build, g1]
    have n4 : B.ws1 = d.ws1 := by rw [← hB]; simp [build, g5]
    have n5 : B.ws2 = d.ws2 := by rw [← hB]; simp [build, g7]
    have n6 : B.valid = d.valid := by rw [← hB, hd.valid]; rfl
    rw [hst] at k1 k2
    rw [hww] at k2
    cases B; cases d
    simp only at *
    simp [*]
  · rw [k4, hf]

/-- lines without definitions are collected -/
theorem parseLoop_plain [Uni] (ls more : List (Str × Bool)) (buffer : List Str)
    (h : ∀ l ∈ ls, rmatch mdRe l.1 = none) :
    parseLoop buffer 0 (ls ++ more) = parseLoop (buffer ++ ls.map (·.1)) 0 more := by
  induction ls generalizing buffer with
  | nil => simp
  | cons l ls ih =>
    simp only [List.cons_append, parseLoop, h l (by simp)]
    rw [ih _ (fun x hx => h x (by simp [hx]))]
    simp

theorem parse_readable [Uni] (data : List MacroDefinition) (remainder : List Str)
    (hd : ∀ d ∈ data, Readable d)
    (hr : ∀ l ∈ remainder, ¬ s% "global" <:+: l ∧ ¬ s% "define" <:+: l) :
    parseLines (raw ⟨data, remainder⟩) = ⟨data, remainder⟩ := by
  unfold parseLines parseFlagged
  induction data with
  | nil =>
    simp only [raw, List.map_nil, List.flatten_nil, List.nil_append]
    have := parseLoop_plain (remainder.map (fun l => (l, true))) [] [] (by
      intro l hl
      simp only [List.mem_map] at hl
      obtain ⟨x, hx, rfl⟩ := hl
      exact no_match (hr x hx).1 (hr x hx).2)
    rw [List.append_nil] at this
    rw [this]
    simp [parseLoop, Function.comp_def]
  | cons d ds ih =>
    have ih := ih (fun x hx => hd x (by simp [hx]))
    rw [show raw ⟨d :: ds, remainder⟩ = d.raw ++ raw ⟨ds, remainder⟩ by simp [raw]]
    obtain ⟨b, bs, hraw, t, ht, hb⟩ := readable_build (hd d (by simp))
      ((raw ⟨ds, remainder⟩).map (fun l => (l, true)))
    rw [hraw]
    simp only [List.append_assoc, List.map_append, List.cons_append, List.map_cons]
    rw [parseLoop_plain]
    · simp only [List.nil_append, List.map_map]
      rw [show ((fun x => x.1) ∘ fun l => (l, true) : Str → Str) = id from rfl, List.map_id]
      simp only [parseLoop, ht, hb]
      rw [parseLoop_skip, List.drop_left' (by simp), ih]
    · intro l hl
      simp only [List.mem_map] at hl
      obtain ⟨x, hx, rfl⟩ := hl
      have := (hd d (by simp)).preceding x hx
      exact no_match this.1 this.2

end MacroDefinitions
end Specfile
