import Verif.Props.Release
/-
C103: bumping a release several times.
-/
namespace Specfile.Props
open Py Spec Release

section
variable [Uni]

/-- `n` bumps -/
def bumps : Nat → Str → Str
  | 0, s => s
  | n + 1, s => bumps n (bump s)

theorem leading_next {s f p ds post : Str} (h : Leading s f p ds post) (n : Nat) (hn : n ≠ 0) :
    Leading (f ++ (p ++ (natStr n ++ post))) f p (natStr n) post := by
  have hd : Digits (natStr n) := ⟨natStr_ne_nil _, natStr_decimal _⟩
  refine ⟨⟨[], by simp [finalNewline], by simp⟩, h.func, h.pre, hd, h.whole, ?_, h.line⟩
  rintro - ⟨c, t, e, -⟩
  have hv := decVal_natStr n
  obtain ⟨x, y, ex, hx⟩ := digits_cons hd
  have hall := natStr_digits n
  rw [ex] at e hall hv
  simp only [List.cons_append, List.cons.injEq] at e
  obtain ⟨rfl, e⟩ := e
  cases y with
  | nil =>
    simp [decVal, Uni.decimalVal_ascii '0' (by decide)] at hv
    exact hn hv.symm
  | cons z y =>
    simp only [List.cons_append, List.cons.injEq] at e
    have := hall z (by simp)
    rw [e.1] at this
    exact absurd this (by decide)

/-- C103: the leading number is incremented by the number of bumps, nothing else changes. -/
theorem C103_leading {s f p ds post : Str} (h : Leading s f p ds post) (hb : MayBumpLeading p post) (n : Nat) (hn : n ≠ 0) :
    bumps n s = f ++ (p ++ (natStr (decVal ds + n) ++ post)) := by
  induction n generalizing s ds with
  | zero => exact absurd rfl hn
  | succ n ih =>
    rw [bumps, bump_leading h hb]
    by_cases h0 : n = 0
    · subst h0; rfl
    · rw [ih (leading_next h _ (by omega)) h0, decVal_natStr]
      congr 4
      omega

omit [Uni] in
theorem infix_split {x u v : Str} {d : Char} (hx : d ∉ x) (h : x <:+: u ++ d :: v) : x <:+: u ∨ x <:+: v := by
  obtain ⟨a, b, e⟩ := h
  rw [List.append_assoc] at e
  rcases List.append_eq_append_iff.1 e with ⟨k, h1, h2⟩ | ⟨k, h1, h2⟩
  · rcases List.append_eq_append_iff.1 h2 with ⟨m, h3, h4⟩ | ⟨m, h3, h4⟩
    · left
      exact ⟨a, m, by rw [h1, h3]; simp⟩
    · cases m with
      | nil => left; simp at h3; subst h3; exact ⟨a, [], by rw [h1]; simp⟩
      | cons z m =>
        simp only [List.cons_append, List.cons.injEq] at h4
        exact absurd (by rw [h3, ← h4.1]; simp) hx
  · cases k with
    | nil =>
      simp only [List.nil_append] at h2
      cases x with
      | nil => left; exact ⟨[], u, by simp⟩
      | cons z x =>
        simp only [List.cons_append, List.cons.injEq] at h2
        exact absurd (by rw [h2.1]; simp) hx
    | cons z k =>
      simp only [List.cons_append, List.cons.injEq] at h2
      right
      exact ⟨k, b, by rw [h2.2]; simp⟩

theorem dot_not_decimal : Uni.isDecimal '.' = false := by
  rw [Uni.decimal_ascii _ (by decide)]; decide

theorem word_in {x u v : Str} (hx : x ∈ prereleaseWords) (hv : v.all Uni.isDecimal = true) (h : x <:+: u ++ '.' :: v) :
    x <:+: u := by
  have hw : ∀ x ∈ prereleaseWords, '.' ∉ x ∧ ∃ c ∈ x, isAscii c = true ∧ isAsciiDigit c = false := by
    intro x hx
    simp only [prereleaseWords, List.mem_cons, List.not_mem_nil, or_false] at hx
    obtain rfl | rfl | rfl := hx
    · exact ⟨by decide, 'a', by decide, by decide, by decide⟩
    · exact ⟨by decide, 'b', by decide, by decide, by decide⟩
    · exact ⟨by decide, 'r', by decide, by decide, by decide⟩
  obtain ⟨hd, c, hc, h1, h2⟩ := hw x hx
  rcases infix_split hd h with h | h
  · exact h
  · have := List.all_eq_true.1 hv c (h.subset hc)
    rw [Uni.decimal_ascii c h1, h2] at this
    cases this

omit [Uni] in
theorem func_no_dot {f : Str} (h : ReleaseFunc f) : '.' ∉ f := by
  rcases h with rfl | ⟨w, rfl, -, hw⟩
  · simp
  · intro hm
    rw [List.mem_append] at hm
    rcases hm with hm | hm
    · revert hm; decide
    · exact absurd (List.all_eq_true.1 hw _ hm) (by decide)

/-- where the leading number of a text with a trailing number is -/
theorem leading_cases {a N f p d post : Str} (hN : Digits N) (h : Leading (a ++ '.' :: N) f p d post) :
    (∃ k, a = f ++ (p ++ (d ++ k)) ∧ post = k ++ '.' :: N) ∨ (p = s% "0." ∧ a = f ++ ['0'] ∧ d = N ∧ post = []) := by
  obtain ⟨nl, hnl, e⟩ := h.text
  have hlast : ∀ c ∈ (a ++ '.' :: N).getLast?, Uni.isDecimal c = true := by
    intro c hc
    rcases List.eq_nil_or_concat N with rfl | ⟨q, z, rfl⟩
    · exact absurd rfl hN.1
    · rw [List.concat_eq_append, ← List.cons_append, ← List.append_assoc, List.getLast?_append] at hc
      simp at hc
      subst hc
      exact List.all_eq_true.1 hN.2 z (by simp)
  have hnl0 : nl = [] := by
    simp only [finalNewline, List.mem_cons, List.not_mem_nil, or_false] at hnl
    rcases hnl with rfl | rfl
    · rfl
    · rw [e] at hlast
      have := hlast '\n' (by simp [← List.append_assoc])
      rw [Uni.decimal_ascii _ (by decide)] at this
      exact absurd this (by decide)
  subst hnl0
  have e' : a ++ '.' :: N = (f ++ (p ++ d)) ++ post := by rw [e]; simp
  rcases List.append_eq_append_iff.1 e' with ⟨k, h1, h2⟩ | ⟨k, h1, h2⟩
  · cases k with
    | nil =>
      left
      exact ⟨[], by simpa using h1.symm, by simpa using h2.symm⟩
    | cons z k =>
      right
      simp only [List.cons_append, List.cons.injEq] at h2
      obtain ⟨rfl, h2⟩ := h2
      have hdd : '.' ∉ d := by
        intro hm
        have := List.all_eq_true.1 h.digits.2 _ hm
        rw [dot_not_decimal] at this
        cases this
      rcases h.pre with rfl | rfl
      · exfalso
        have : '.' ∈ f ++ ([] ++ d) := by rw [h1]; simp
        simp only [List.nil_append, List.mem_append] at this
        rcases this with hm | hm
        · exact func_no_dot h.func hm
        · exact hdd hm
      · have hf := func_no_dot h.func
        have h1' : (f ++ ['0']) ++ '.' :: d = a ++ '.' :: k := by rw [← h1]; simp
        have hk : '.' ∉ k := by
          intro hm
          have := List.all_eq_true.1 hN.2 '.' (by rw [h2]; simp [hm])
          rw [dot_not_decimal] at this
          cases this
        have key : ∀ {u v x y : Str}, '.' ∉ v → '.' ∉ y → u ++ '.' :: v = x ++ '.' :: y → u = x ∧ v = y := by
          intro u v x y hv hy e
          rcases List.append_eq_append_iff.1 e with ⟨m, e1, e2⟩ | ⟨m, e1, e2⟩
          · cases m with
            | nil => simp at e1 e2; exact ⟨e1.symm, e2⟩
            | cons z m =>
              simp only [List.cons_append, List.cons.injEq] at e2
              exact absurd (by rw [e2.2]; simp) hv
          · cases m with
            | nil => simp at e1 e2; exact ⟨e1, e2.symm⟩
            | cons z m =>
              simp only [List.cons_append, List.cons.injEq] at e2
              exact absurd (by rw [e2.2]; simp) hy
        obtain ⟨ha, rfl⟩ := key hdd hk h1'
        have hp : post = [] := by
          cases post with
          | nil => rfl
          | cons c post =>
            have h3 := h.whole c (by simp)
            have h4 := List.all_eq_true.1 hN.2 c (by rw [h2]; simp)
            rw [h3] at h4
            cases h4
        subst hp
        exact ⟨rfl, ha.symm, by simpa using h2.symm, rfl⟩
  · left
    exact ⟨k, by rw [h1]; simp, h2⟩

/-- the number is still found if something else follows -/
theorem leading_keep {a N f p d k T nl : Str} (hN : Digits N) (h : Leading (a ++ '.' :: N) f p d (k ++ '.' :: N))
    (ha : a = f ++ (p ++ (d ++ k))) (hT : T = [] ∨ ∃ M, T = '.' :: M ∧ '\n' ∉ M) (hnl : nl ∈ finalNewline) :
    Leading (a ++ (T ++ nl)) f p d (k ++ T) := by
  refine ⟨⟨nl, hnl, by rw [ha]; simp⟩, h.func, h.pre, h.digits, ?_, ?_, ?_⟩
  · intro c hc
    cases k with
    | nil =>
      rcases hT with rfl | ⟨M, rfl, -⟩
      · simp at hc
      · simp at hc; subst hc; exact dot_not_decimal
    | cons z k => exact h.whole c (by simpa using hc)
  · rintro hp ⟨c, t, e, hc⟩
    apply h.pre_first hp
    obtain ⟨x, y, rfl, hx⟩ := digits_cons h.digits
    simp only [List.cons_append, List.cons.injEq] at e
    obtain ⟨rfl, e⟩ := e
    cases y with
    | cons z y =>
      simp only [List.cons_append, List.cons.injEq] at e
      have := List.all_eq_true.1 h.digits.2 z (by simp)
      rw [e.1, dot_not_decimal] at this
      cases this
    | nil =>
      simp only [List.nil_append] at e
      cases k with
      | nil =>
        obtain ⟨n, N', rfl, hn⟩ := digits_cons hN
        exact ⟨n, N', rfl, hn⟩
      | cons z k =>
        simp only [List.cons_append, List.cons.injEq] at e
        obtain ⟨rfl, e⟩ := e
        cases k with
        | nil =>
          rcases hT with rfl | ⟨M, rfl, -⟩
          · simp at e
          · simp only [List.nil_append, List.cons.injEq] at e
            rw [← e.1, dot_not_decimal] at hc
            cases hc
        | cons z k =>
          simp only [List.cons_append, List.cons.injEq] at e
          exact ⟨z, k ++ '.' :: N, by simp, by rw [e.1]; exact hc⟩
  · intro hm
    rw [List.mem_append] at hm
    rcases hm with hm | hm
    · exact h.line (by simp [hm])
    · rcases hT with rfl | ⟨M, rfl, hM⟩
      · simp at hm
      · simp only [List.mem_cons] at hm
        rcases hm with hm | hm
        · revert hm; decide
        · exact hM hm

omit [Uni] in
theorem newline_not_in_number {M : Str} [Uni] (h : M.all Uni.isDecimal = true) : '\n' ∉ M := by
  intro hm
  have := List.all_eq_true.1 h _ hm
  rw [Uni.decimal_ascii _ (by decide)] at this
  exact absurd this (by decide)

/-- a trailing number stays the one to bump -/
theorem trailing_next {a ds nl N : Str} (hd : Digits ds) (hN : Digits N) (hnl : nl ∈ finalNewline)
    (hn : ∀ f p d post, Leading (a ++ '.' :: (ds ++ nl)) f p d post → ¬ MayBumpLeading p post) :
    ∀ f p d post, Leading (a ++ '.' :: N) f p d post → ¬ MayBumpLeading p post := by
  intro f p d post h hb
  rcases leading_cases hN h with ⟨k, ha, rfl⟩ | ⟨rfl, rfl, rfl, rfl⟩
  · have hl := leading_keep (T := '.' :: ds) hN h ha (.inr ⟨ds, rfl, newline_not_in_number hd.2⟩) hnl
    refine hn f p d _ (by simpa using hl) ?_
    rcases hb with hb | hb
    · exact .inl hb
    · refine .inr fun x hx hi => hb x hx ?_
      obtain ⟨u, v, e⟩ := word_in hx hd.2 hi
      exact ⟨u, v ++ '.' :: N, by rw [← e]; simp⟩
  · refine hn f (s% "0.") ds [] ⟨⟨nl, hnl, by simp⟩, h.func, .inr rfl, hd, by simp, by simp, by simp⟩ (.inl rfl)

/-- C103: the trailing number is incremented by the number of bumps, nothing else changes. -/
theorem C103_trailing {s a ds : Str} (hn : ∀ f p d post, Leading s f p d post → ¬ MayBumpLeading p post) (h : Trailing s a ds)
    (n : Nat) (h0 : n ≠ 0) : bumps n s = a ++ '.' :: natStr (decVal ds + n) := by
  induction n generalizing s ds with
  | zero => exact absurd rfl h0
  | succ n ih =>
    rw [bumps, (C36_bump _ _).2 (.trailing hn h)]
    obtain ⟨h1, h2, h3, nl, hnl, rfl⟩ := h
    by_cases hz : n = 0
    · subst hz; rfl
    · have hd : Digits (natStr (decVal ds + 1)) := ⟨natStr_ne_nil _, natStr_decimal _⟩
      rw [ih (trailing_next h3 hd hnl hn) ⟨h1, h2, hd, [], by simp [finalNewline], by simp⟩ hz, decVal_natStr]
      congr 3
      omega

/-- C103: if there is no number to bump, the number of bumps is appended; the release must not be empty or contain a line
feed. -/
theorem C103_append_partial {s : Str} (hn : ∀ f p d post, Leading s f p d post → ¬ MayBumpLeading p post)
    (ht : ∀ a ds, ¬ Trailing s a ds) (hs : s ≠ []) (hl : '\n' ∉ s) (n : Nat) (h0 : n ≠ 0) :
    bumps n s = s ++ '.' :: natStr n := by
  cases n with
  | zero => exact absurd rfl h0
  | succ n =>
    rw [bumps, (C36_bump _ _).2 (.append hn ht)]
    by_cases hz : n = 0
    · subst hz; rfl
    · have h1 : Digits (s% "1") := ⟨by simp, natStr_decimal 1⟩
      rw [C103_trailing (a := s) (ds := s% "1") ?_ ⟨hs, hl, h1, [], by simp [finalNewline], by simp⟩ n hz,
        show decVal (s% "1") = 1 from decVal_natStr 1]
      · congr 3
        omega
      · intro f p d post h hb
        rcases leading_cases h1 h with ⟨k, ha, rfl⟩ | ⟨rfl, rfl, rfl, rfl⟩
        · have hl := leading_keep (T := []) (nl := []) h1 h ha (.inl rfl) (by simp [finalNewline])
          refine hn f p d k (by simpa using hl) ?_
          rcases hb with hb | hb
          · exact .inl hb
          · refine .inr fun x hx hi => hb x hx ?_
            obtain ⟨u, v, e⟩ := hi
            exact ⟨u, v ++ '.' :: s% "1", by rw [← e]; simp⟩
        · refine hn f [] (s% "0") [] ⟨⟨[], by simp [finalNewline], by simp⟩, h.func, .inl rfl,
            ⟨by simp, natStr_decimal 0⟩, by simp, by simp, by simp⟩ (.inr ?_)
          intro x hx hi
          rw [List.infix_nil] at hi
          subst hi
          revert hx; decide

/-- C103 (full claim: any number of bumps changes one whole number only, always the same, by the number of bumps, or
appends it): releases that are
not empty and consist of one line. Missing: the others, for which it fails (`C103_violation_empty`,
`C103_violation_newline`). -/
theorem C103_once_more_partial (s : Str) (hs : s ≠ []) (hl : '\n' ∉ s) :
    (∀ n, n ≠ 0 → bumps n s = s ++ '.' :: natStr n) ∨ ∃ a ds b, s = a ++ (ds ++ b) ∧ Digits ds ∧
      (∀ c ∈ a.getLast?, Uni.isDecimal c = false) ∧ (∀ c ∈ b.head?, Uni.isDecimal c = false) ∧
      ∀ n, n ≠ 0 → bumps n s = a ++ (natStr (decVal ds + n) ++ b) := by
  have strip : ∀ {x nl : Str}, nl ∈ finalNewline → s = x ++ nl → nl = [] := by
    intro x nl hnl e
    simp only [finalNewline, List.mem_cons, List.not_mem_nil, or_false] at hnl
    rcases hnl with rfl | rfl
    · rfl
    · exact absurd (by rw [e]; simp) hl
  have h := (C36_bump s (bump s)).1 rfl
  generalize bump s = s' at h
  cases h with
  | append hn ht => exact .inl (C103_append_partial hn ht hs hl)
  | @leading f p ds post h hb =>
    right
    obtain ⟨nl, hnl, e⟩ := h.text
    have := strip (x := f ++ (p ++ (ds ++ post))) hnl (by rw [e]; simp)
    subst this
    refine ⟨f ++ p, ds, post, by rw [e]; simp, h.digits, ?_, h.whole, fun n h0 => by rw [C103_leading h hb n h0]; simp⟩
    intro c hc
    rw [List.getLast?_append] at hc
    rcases h.pre with rfl | rfl
    · rcases h.func with rfl | ⟨w, rfl, hw, hs⟩
      · simp at hc
      · simp only [List.getLast?_nil, Option.none_or, List.getLast?_append] at hc
        rcases List.eq_nil_or_concat w with rfl | ⟨q, z, rfl⟩
        · exact absurd rfl hw
        · simp at hc
          subst hc
          have := List.all_eq_true.1 hs z (by simp)
          cases hz : Uni.isDecimal z with
          | false => rfl
          | true => rw [decimal_not_space hz] at this; cases this
    · simp at hc
      subst hc
      exact dot_not_decimal
  | @trailing a ds hn h =>
    right
    obtain ⟨h1, h2, h3, nl, hnl, e⟩ := id h
    have := strip (x := a ++ '.' :: ds) hnl (by rw [e]; simp)
    subst this
    refine ⟨a ++ ['.'], ds, [], by rw [e]; simp, h3, ?_, by simp, fun n h0 => by rw [C103_trailing hn h n h0]; simp⟩
    intro c hc
    simp at hc
    subst hc
    exact dot_not_decimal

end

section
attribute [local instance] asciiUni
example : bumps 12 (s% "%release_func 9.el8") = s% "%release_func 21.el8" := by decide +kernel
example : bumps 3 (s% "1.rc.09") = s% "1.rc.12" := by decide +kernel
example : bumps 11 (s% "rc1") = s% "rc1.11" := by decide +kernel

/-- no leading number in a text that starts with another letter -/
theorem no_leading {t f p d post : Str} (h : Leading ('r' :: t) f p d post) : False := by
  obtain ⟨nl, -, e⟩ := h.text
  rcases h.func with rfl | ⟨w, rfl, -, -⟩
  · rcases h.pre with rfl | rfl
    · obtain ⟨x, y, rfl, hx⟩ := digits_cons h.digits
      simp only [List.nil_append, List.cons_append, List.cons.injEq] at e
      rw [← e.1] at hx
      exact absurd hx (by decide)
    · simp at e
  · simp at e

/-- the hypotheses of `C103_trailing` -/
example : (∀ f p d post, Leading (s% "rc.09") f p d post → ¬ MayBumpLeading p post) ∧ Trailing (s% "rc.09") (s% "rc") (s% "09") :=
  ⟨fun _ _ _ _ h => (no_leading h).elim, by decide, by decide, ⟨by decide, by decide⟩, [], by decide, by decide⟩

/-- the hypotheses of `C103_append_partial` -/
example : (∀ f p d post, Leading (s% "rc1") f p d post → ¬ MayBumpLeading p post) ∧ (∀ a ds, ¬ Trailing (s% "rc1") a ds) := by
  refine ⟨fun _ _ _ _ h => (no_leading h).elim, ?_⟩
  rintro a ds ⟨-, -, -, nl, -, e⟩
  have : '.' ∈ s% "rc1" := by rw [e]; simp
  revert this; decide

/-- C103 fails for the empty release: the second bump appends another number. -/
theorem C103_violation_empty : bumps 3 [] = s% ".1.2" := by decide +kernel

/-- C103 fails for a release with a line feed: each bump appends a number. -/
theorem C103_violation_newline : bumps 3 (s% "a\nb") = s% "a\nb.1.1.1" := by decide +kernel
end

end Specfile.Props
