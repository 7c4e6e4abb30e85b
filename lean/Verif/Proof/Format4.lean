import Verif.Proof.Format3
import Verif.Proof.Text
import Verif.Spec.FormatText
/-
Objects are replaced by literals.
-/
namespace Specfile.Formatter
open Py Spec

theorem splitlines_eq_splitC {t : Str} (h : OnlyLF t) (hne : t ≠ []) (hl : t.getLast? ≠ some '\n') :
    splitlines t = splitC '\n' t := by
  induction t with
  | nil => exact absurd rfl hne
  | cons c cs ih =>
    have hc : c ≠ '\r' := by rintro rfl; exact absurd (h '\r' (by simp) (by decide)) (by decide)
    rw [Text.splitlines_cons hc]
    cases cs with
    | nil =>
      have hn : c ≠ '\n' := by rintro rfl; simp at hl
      have hb : isLineBreak c = false := by
        cases hb : isLineBreak c with
        | false => rfl
        | true => exact absurd (h c (by simp) hb) hn
      simp [hb, splitlines, splitC, splitP, hn]
    | cons d ds =>
      have ih := ih (Text.onlyLF_cons h) (by simp) (by rwa [List.getLast?_cons_cons] at hl)
      rw [ih]
      by_cases hn : c = '\n'
      · subst hn
        rw [if_pos (by decide)]
        simp [splitC, splitP]
      · have hb : isLineBreak c = false := by
          cases hb : isLineBreak c with
          | false => rfl
          | true => exact absurd (h c (by simp) hb) hn
        rw [hb]
        simp only [Bool.false_eq_true, if_false]
        conv => rhs; rw [splitC, splitP]
        rw [if_neg (by simpa using hn)]
        cases hs : splitC '\n' (d :: ds) with
        | nil => exact absurd hs (splitC_ne_nil _ _)
        | cons l ls => rw [splitC] at hs; simp [hs]

theorem takeWhile_all {p : Char → Bool} {l : Str} (h : ∀ x ∈ l, p x = true) : l.takeWhile p = l := by
  induction l with
  | nil => rfl
  | cons c l ih => rw [List.takeWhile_cons_of_pos (h c (by simp)), ih (fun x hx => h x (by simp [hx]))]

theorem all_of_takeWhile {p : Char → Bool} {l : Str} (h : (l.takeWhile p).length = l.length) : ∀ x ∈ l, p x = true := by
  induction l with
  | nil => simp
  | cons c l ih =>
    cases hc : p c with
    | false => rw [List.takeWhile_cons_of_neg (by simp [hc])] at h; simp at h
    | true =>
      rw [List.takeWhile_cons_of_pos hc] at h
      intro x hx
      rcases List.mem_cons.1 hx with rfl | hx
      · exact hc
      · exact ih (by simpa using h) x hx

theorem splitC_append (c : Char) (a b : Str) : ∃ A l l' B, splitC c a = A ++ [l] ∧ splitC c b = l' :: B ∧
    splitC c (a ++ b) = A ++ (l ++ l') :: B ∧ A.length = a.count c ∧
    l.length = (a.reverse.takeWhile (· != c)).length := by
  induction a with
  | nil =>
    cases hb : splitC c b with
    | nil => exact absurd hb (splitC_ne_nil _ _)
    | cons l' B => exact ⟨[], [], l', B, rfl, rfl, by simpa using hb, by simp, by simp⟩
  | cons d a ih =>
    obtain ⟨A, l, l', B, h1, h2, h3, h4, h5⟩ := ih
    by_cases hd : d = c
    · subst hd
      refine ⟨[] :: A, l, l', B, ?_, h2, ?_, by simp [h4], ?_⟩
      · rw [splitC, splitP_cons_pos (by simp)]; rw [splitC] at h1; rw [h1]; rfl
      · rw [splitC, List.cons_append, splitP_cons_pos (by simp)]; rw [splitC] at h3; rw [h3]; rfl
      · rw [h5, List.reverse_cons, List.takeWhile_append]
        split
        · rename_i hh; rw [hh]; simp
        · rfl
    · cases A with
      | nil =>
        refine ⟨[], d :: l, l', B, ?_, h2, ?_, ?_, ?_⟩
        · rw [splitC, splitP, if_neg (by simpa using hd)]; rw [splitC] at h1; rw [h1]; rfl
        · rw [splitC, List.cons_append, splitP, if_neg (by simpa using hd)]; rw [splitC] at h3; rw [h3]; rfl
        · rw [List.count_cons_of_ne (by simpa using hd)]; exact h4
        · have hall : ∀ x ∈ a.reverse, (x != c) = true := by
            intro x hx
            have : c ∉ a := by rw [← List.count_eq_zero]; simpa using h4.symm
            simp only [bne_iff_ne, ne_eq]
            rintro rfl
            exact this (by simpa using hx)
          rw [List.reverse_cons, List.takeWhile_append_of_pos hall]
          simp [hd]
          rw [h5, takeWhile_all hall]
          simp
      | cons x A =>
        refine ⟨(d :: x) :: A, l, l', B, ?_, h2, ?_, ?_, ?_⟩
        · rw [splitC, splitP, if_neg (by simpa using hd)]; rw [splitC] at h1; rw [h1]; rfl
        · rw [splitC, List.cons_append, splitP, if_neg (by simpa using hd)]; rw [splitC] at h3; rw [h3]; rfl
        · rw [List.count_cons_of_ne (by simpa using hd)]; simpa using h4
        · rw [h5, List.reverse_cons, List.takeWhile_append]
          split
          · rename_i hh
            have : c ∈ a := by
              rw [← List.count_pos_iff, ← h4]; simp
            have := all_of_takeWhile hh c (by simpa using this)
            simp at this
          · rfl

theorem matchBracket_eq (s m : Str) : ∀ (lvl : Int) (i : Nat),
    (∀ a b, s = a ++ b → b ≠ [] → 1 ≤ lvl + a.count '<' - a.count '>') → lvl + s.count '<' - s.count '>' = 0 →
    s ≠ [] → matchBracket lvl i (s ++ m) = some (i + s.length) := by
  induction s with
  | nil => intro _ _ _ _ h; exact absurd rfl h
  | cons c s ih =>
    intro lvl i h h0 _
    have h1 : 1 ≤ lvl := by simpa using h [] (c :: s) rfl (by simp)
    rw [List.cons_append, matchBracket]
    by_cases hg : c = '>'
    · subst hg
      simp only [beq_self_eq_true, if_true]
      simp at h0
      by_cases hs : s = []
      · subst hs
        simp at h0
        rw [if_pos (by omega)]; simp
      · have h2 := h ['>'] s rfl hs
        simp at h2
        rw [if_neg (by omega), ih (lvl - 1) (i + 1) ?_ (by omega) hs]
        · simp; omega
        · intro a b he hb
          have := h ('>' :: a) b (by simp [he]) hb
          simp at this
          omega
    · rw [if_neg (by simpa using hg)]
      by_cases hl : c = '<'
      · subst hl
        simp only [beq_self_eq_true, if_true]
        simp at h0
        have hs : s ≠ [] := by rintro rfl; simp at h0; omega
        rw [ih (lvl + 1) (i + 1) ?_ (by omega) hs]
        · simp; omega
        · intro a b he hb
          have := h ('<' :: a) b (by simp [he]) hb
          simp at this
          omega
      · rw [if_neg (by simpa using hl)]
        rw [List.count_cons_of_ne (by simpa using hl), List.count_cons_of_ne (by simpa using hg)] at h0
        have hs : s ≠ [] := by rintro rfl; simp at h0; omega
        rw [ih lvl (i + 1) ?_ h0 hs]
        · simp; omega
        · intro a b he hb
          have := h (c :: a) b (by simp [he]) hb
          rwa [List.count_cons_of_ne (by simpa using hl), List.count_cons_of_ne (by simpa using hg)] at this

theorem matchBracket_object {v : Str} (ho : isObject v = true) (h : Enclosed v) (m : Str) (i : Nat) :
    matchBracket 0 i (v ++ m) = some (i + v.length) := by
  cases v with
  | nil => simp [isObject] at ho
  | cons c s =>
    have hc : c = '<' := by simpa [isObject] using ho
    subst hc
    have h0 := h.closed
    simp at h0
    have hs : s ≠ [] := by rintro rfl; simp at h0
    rw [List.cons_append, matchBracket]
    simp only [show ('<' == '>') = false from rfl, Bool.false_eq_true, if_false, beq_self_eq_true, if_true]
    rw [matchBracket_eq s m (0 + 1) (i + 1) ?_ (by omega) hs]
    · simp; omega
    · intro a b he hb
      have := h.open_inside ('<' :: a) b (by simp [he]) (by simp) hb
      simp at this
      omega

/-- formatter.py:98-119 at the position of an object -/
theorem substitute_object {repr : Str → Str} {pre v post : Str} (h : OnlyLF (pre ++ v ++ post))
    (hl : (pre ++ v ++ post).getLast? ≠ some '\n') (ho : isObject v = true) (he : Enclosed v) :
    substitute repr (pre ++ v ++ post) (some (lineAfter pre)) (some (columnAfter pre)) =
      .ok (v, pre ++ repr v ++ post) := by
  have hv : v ≠ [] := by rintro rfl; simp [isObject] at ho
  have hs := splitlines_eq_splitC h (by simp [hv]) hl
  obtain ⟨A, l, l', B, h1, h2, h3, h4, h5⟩ := splitC_append '\n' pre (v ++ post)
  obtain ⟨A', w, m, B', g1, g2, g3, g4, _⟩ := splitC_append '\n' v post
  have hnv : '\n' ∉ v := fun hm => absurd (he.oneLine '\n' hm) (by decide)
  rw [splitC_of_not_mem hnv] at g1
  have hA' : A' = [] := by
    rw [List.count_eq_zero.2 hnv] at g4
    exact List.length_eq_zero_iff.1 g4
  subst hA'
  have hw : v = w := by simpa using g1
  subst hw
  rw [List.nil_append] at g3
  rw [g3] at h2
  cases h2
  rw [List.append_assoc] at hs
  rw [h3] at hs
  rw [List.append_assoc, lineAfter, columnAfter, ← h4, ← h5]
  simp only [substitute, hs]
  have hget : (A ++ (l ++ (v ++ m)) :: B)[A.length]? = some (l ++ (v ++ m)) := by simp
  simp only [hget]
  have hc : (l ++ (v ++ m))[l.length]? = some '<' := by
    cases v with
    | nil => exact absurd rfl hv
    | cons c s => simp [isObject] at ho; simp [ho]
  simp only [hc]
  have hf : findMatchingBracket (l ++ (v ++ m)) l.length = some (l.length + v.length) := by
    rw [findMatchingBracket, List.drop_left]
    exact matchBracket_object ho he m _
  simp only [hf, show ('<' != '<') = false from rfl, Bool.false_eq_true, if_false]
  have ht : (l ++ (v ++ m)).take (l.length + v.length) = l ++ v := by
    rw [← List.append_assoc, ← List.length_append, List.take_left]
  have hd : (l ++ (v ++ m)).drop (l.length + v.length) = m := by
    rw [← List.append_assoc, ← List.length_append, List.drop_left]
  rw [ht, hd, List.drop_left, List.take_left]
  have hset : (A ++ (l ++ (v ++ m)) :: B).set A.length (l ++ repr v ++ m) = A ++ (l ++ repr v ++ m) :: B := by
    simp
  rw [hset]
  simp only [Except.ok.injEq, Prod.mk.injEq, true_and]
  -- joining
  have hp : joinC '\n' (A ++ [l]) = pre := by rw [← h1, joinC_splitC]
  have hq : joinC '\n' (m :: B) = post := by rw [← g2, joinC_splitC]
  rw [← hp, ← hq]
  clear h hl hs hget hc hf ht hd hset h1 h3 h4 g2 g3 hp hq
  induction A with
  | nil =>
    cases B <;> simp [joinC]
  | cons x A ih =>
    rw [List.cons_append, List.cons_append, joinC_cons _ _ (by simp), joinC_cons _ _ (by simp), ih]
    simp

end Specfile.Formatter
