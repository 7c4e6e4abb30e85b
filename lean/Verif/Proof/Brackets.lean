import Verif.Model.Utils
import Verif.Spec.Brackets
/-
`count_brackets` counts each kind of bracket independently.
-/
namespace Specfile
open Py Spec
namespace Utils

/-- one ordinary character, one kind of bracket -/
def stepOne (o c : Char) (b : Nat) (x : Char) : Nat :=
  if x == o && decide (b > 0) then b + 1
  else if x == c && decide (b > 0) then b - 1
  else b

/-- the loop for one kind of bracket -/
def cnt (o c : Char) (b : Nat) : Str → Nat
  | [] => b
  | [x] => stepOne o c b x
  | x :: y :: s =>
    if x == '\\' then cnt o c b s
    else if x == '%' then if y == o then cnt o c (b + 1) s else cnt o c b s
    else cnt o c (stepOne o c b x) (y :: s)

theorem countStep_eq (bc pc : Nat) (x : Char) :
    countStep bc pc x = (stepOne '{' '}' bc x, stepOne '(' ')' pc x) := by
  unfold countStep stepOne
  by_cases h1 : x = '{'
  · subst h1; by_cases hb : bc > 0 <;> simp [hb]
  · by_cases h2 : x = '}'
    · subst h2; by_cases hb : bc > 0 <;> simp [hb]
    · by_cases h3 : x = '('
      · subst h3; by_cases hb : pc > 0 <;> simp [hb]
      · by_cases h4 : x = ')'
        · subst h4; by_cases hb : pc > 0 <;> simp [hb]
        · simp [h1, h2, h3, h4]

theorem countFrom_eq (bc pc : Nat) (s : Str) :
    countFrom bc pc s = (cnt '{' '}' bc s, cnt '(' ')' pc s) := by
  fun_induction countFrom bc pc s with
  | case1 => rfl
  | case2 => simp [cnt, countStep_eq]
  | case3 bc pc c d cs h ih => simp [cnt, h, ih]
  | case4 bc pc c d cs h1 h2 h3 ih => simp_all [cnt]
  | case5 bc pc c d cs h1 h2 h3 h4 ih => simp_all [cnt]
  | case6 bc pc c d cs h1 h2 h3 h4 ih => simp_all [cnt]
  | case7 bc pc c d cs h1 h2 ih => simp_all [cnt, countStep_eq]

section
variable {o c : Char}

theorem cnt_escaped (b : Nat) (x : Char) (s : Str) : cnt o c b ('\\' :: x :: s) = cnt o c b s := by
  simp [cnt]

theorem cnt_percent {x : Char} (h : x ≠ o) (b : Nat) (s : Str) :
    cnt o c b ('%' :: x :: s) = cnt o c b s := by
  simp [cnt, h]

theorem cnt_macro (b : Nat) (s : Str) : cnt o c b ('%' :: o :: s) = cnt o c (b + 1) s := by
  simp [cnt]

theorem cnt_pair {p : Str} (h : Pair o p) (b : Nat) (s : Str) : cnt o c b (p ++ s) = cnt o c b s := by
  cases h with
  | escaped x => exact cnt_escaped b x s
  | percent x h => exact cnt_percent h b s

theorem cnt_char {x : Char} (h1 : x ≠ '\\') (h2 : x ≠ '%') (b : Nat) (s : Str) :
    cnt o c b (x :: s) = cnt o c (stepOne o c b x) s := by
  cases s with
  | nil => rfl
  | cons y s => simp [cnt, h1, h2]

/-- brackets that do not interfere with escapes -/
structure Kind (o c : Char) : Prop where
  ne : o ≠ c
  o1 : o ≠ '\\'
  o2 : o ≠ '%'
  c1 : c ≠ '\\'
  c2 : c ≠ '%'

theorem cnt_open (hk : Kind o c) (b : Nat) (s : Str) :
    cnt o c (b + 1) (o :: s) = cnt o c (b + 2) s := by
  rw [cnt_char hk.o1 hk.o2]; simp [stepOne]

theorem cnt_close (hk : Kind o c) (b : Nat) (s : Str) :
    cnt o c (b + 1) (c :: s) = cnt o c b s := by
  rw [cnt_char hk.c1 hk.c2]; simp [stepOne, hk.ne.symm]

theorem cnt_inside (hk : Kind o c) {a : Str} (h : Inside o c a) (b : Nat) (s : Str) :
    cnt o c (b + 1) (a ++ s) = cnt o c (b + 1) s := by
  induction h generalizing b s with
  | nil => rfl
  | pair hp _ ih => rw [List.append_assoc, cnt_pair hp, ih]
  | char h1 h2 h3 h4 _ ih =>
    rw [List.cons_append, cnt_char h1 h2]
    simp only [stepOne, Bool.false_and, beq_eq_false_iff_ne.mpr h3,
      beq_eq_false_iff_ne.mpr h4, Bool.false_eq_true, if_false]
    exact ih b s
  | «macro» _ _ ih1 ih2 =>
    simp only [List.cons_append, List.append_assoc]
    rw [cnt_macro, ih1, cnt_close hk, ih2]
  | bracket _ _ ih1 ih2 =>
    simp only [List.cons_append, List.append_assoc]
    rw [cnt_open hk, ih1 (b + 1), cnt_close hk, ih2]

theorem cnt_closed (hk : Kind o c) {a : Str} (h : Closed o c a) (s : Str) :
    cnt o c 0 (a ++ s) = cnt o c 0 s := by
  induction h generalizing s with
  | nil => rfl
  | pair hp _ ih => rw [List.append_assoc, cnt_pair hp, ih]
  | char h1 h2 _ ih =>
    rw [List.cons_append, cnt_char h1 h2]
    simpa [stepOne] using ih s
  | «macro» h1 _ ih =>
    simp only [List.cons_append, List.append_assoc]
    rw [cnt_macro, cnt_inside hk h1, cnt_close hk, ih]

theorem cnt_Open (hk : Kind o c) {n : Nat} {a : Str} (h : Open o c n a) (s : Str) :
    cnt o c 0 (a ++ s) = cnt o c n s := by
  induction h generalizing s with
  | closed h => exact cnt_closed hk h s
  | «macro» _ h2 ih => rw [List.append_assoc, ih, List.cons_append, List.cons_append, cnt_macro, cnt_inside hk h2]
  | bracket _ h2 ih => rw [List.append_assoc, ih, List.cons_append, cnt_open hk, cnt_inside hk h2 (_ + 1)]

theorem cnt_leavesOpen (hk : Kind o c) {n : Nat} {s : Str} (h : LeavesOpen o c n s) :
    cnt o c 0 s = n := by
  obtain ⟨t, ht, hs⟩ := h
  have h1 : stepOne o c n '\\' = n := by
    simp [stepOne, hk.o1.symm, hk.c1.symm]
  have h2 : stepOne o c n '%' = n := by
    simp [stepOne, hk.o2.symm, hk.c2.symm]
  rcases hs with rfl | rfl | rfl
  · have := cnt_Open hk ht []
    simpa [cnt] using this
  · rw [cnt_Open hk ht, cnt, h1]
  · rw [cnt_Open hk ht, cnt, h2]

/-! completeness -/

theorem inside_append {a b : Str} (ha : Inside o c a) (hb : Inside o c b) : Inside o c (a ++ b) := by
  induction ha with
  | nil => exact hb
  | pair hp _ ih => rw [List.append_assoc]; exact .pair hp ih
  | char h1 h2 h3 h4 _ ih => exact .char h1 h2 h3 h4 ih
  | «macro» h1 _ _ ih =>
    simp only [List.cons_append, List.append_assoc]
    exact .macro h1 ih
  | bracket h1 _ _ ih =>
    simp only [List.cons_append, List.append_assoc]
    exact .bracket h1 ih

theorem closed_append {a b : Str} (ha : Closed o c a) (hb : Closed o c b) : Closed o c (a ++ b) := by
  induction ha with
  | nil => exact hb
  | pair hp _ ih => rw [List.append_assoc]; exact .pair hp ih
  | char h1 h2 _ ih => exact .char h1 h2 ih
  | «macro» h1 _ ih =>
    simp only [List.cons_append, List.append_assoc]
    exact .macro h1 ih

/-- append balanced text to an open text -/
theorem open_append {n : Nat} {a b : Str} (h : Open o c n a) (hc : Closed o c b)
    (hi : n ≠ 0 → Inside o c b) : Open o c n (a ++ b) := by
  cases h with
  | closed h => exact .closed (closed_append h hc)
  | «macro» h1 h2 =>
    rw [List.append_assoc]
    exact .macro h1 (inside_append h2 (hi (by simp)))
  | bracket h1 h2 =>
    rw [List.append_assoc]
    exact .bracket h1 (inside_append h2 (hi (by simp)))

theorem open_close {n : Nat} {a : Str} (h : Open o c (n + 1) a) : Open o c n (a ++ [c]) := by
  generalize hm : n + 1 = m at h
  cases h with
  | closed => simp at hm
  | @«macro» k s a h1 h2 =>
    have : n = k := by omega
    subst this
    rw [List.append_assoc]
    refine open_append h1 (.macro h2 .nil) (fun _ => .macro h2 .nil)
  | @bracket k s a h1 h2 =>
    have : n = k + 1 := by omega
    subst this
    rw [List.append_assoc]
    generalize hj : k + 1 = j at h1 ⊢
    cases h1 with
    | closed => simp at hj
    | «macro» h3 h4 =>
      rw [List.append_assoc]
      exact .macro h3 (inside_append h4 (.bracket h2 .nil))
    | bracket h3 h4 =>
      rw [List.append_assoc]
      exact .bracket h3 (inside_append h4 (.bracket h2 .nil))

theorem leavesOpen_cnt (hk : Kind o c) (s : Str) : ∀ {n : Nat} {p : Str}, Open o c n p →
    LeavesOpen o c (cnt o c n s) (p ++ s) := by
  have key : ∀ (k : Nat) (s : Str), s.length ≤ k → ∀ {n : Nat} {p : Str}, Open o c n p →
      LeavesOpen o c (cnt o c n s) (p ++ s) := by
    intro k
    induction k with
    | zero =>
      intro s hs n p hp
      cases s with
      | nil => exact ⟨p, by simpa [cnt] using hp, by simp⟩
      | cons _ _ => simp at hs
    | succ k ih =>
      intro s hs n p hp
      have hpair : ∀ {q t : Str}, Pair o q → s = q ++ t →
          LeavesOpen o c (cnt o c n s) (p ++ s) := by
        intro q t hq e
        have hlen : t.length ≤ k := by
          cases hq <;> simp [e] at hs <;> omega
        have := ih t hlen (open_append hp
          (b := q) (by simpa using Closed.pair (c := c) hq .nil)
          (fun _ => by simpa using Inside.pair (c := c) hq .nil))
        rw [e, cnt_pair hq, ← List.append_assoc]
        exact this
      cases s with
      | nil => exact ⟨p, by simpa [cnt] using hp, by simp⟩
      | cons x s =>
        by_cases h1 : x = '\\'
        · subst h1
          cases s with
          | nil =>
            have : cnt o c n ['\\'] = n := by simp [cnt, stepOne, hk.o1.symm, hk.c1.symm]
            rw [this]
            exact ⟨p, hp, by simp⟩
          | cons y s => exact hpair (.escaped y) rfl
        · by_cases h2 : x = '%'
          · subst h2
            cases s with
            | nil =>
              have : cnt o c n ['%'] = n := by simp [cnt, stepOne, hk.o2.symm, hk.c2.symm]
              rw [this]
              exact ⟨p, hp, by simp⟩
            | cons y s =>
              by_cases h3 : y = o
              · subst h3
                rw [cnt_macro]
                have := ih s (by simp at hs; omega) (Open.macro hp (.nil))
                rw [List.append_assoc] at this
                exact this
              · exact hpair (.percent y h3) rfl
          · rw [cnt_char h1 h2]
            have hlen : s.length ≤ k := by simp at hs; omega
            cases n with
            | zero =>
              have e : stepOne o c 0 x = 0 := by simp [stepOne]
              rw [e]
              have := ih s hlen (open_append hp (b := [x]) (.char h1 h2 .nil) (by simp))
              simpa using this
            | succ n =>
              by_cases h3 : x = o
              · subst h3
                have e : stepOne x c (n + 1) x = n + 2 := by simp [stepOne]
                rw [e]
                have := ih s hlen (Open.bracket hp (.nil))
                simpa using this
              · by_cases h4 : x = c
                · subst h4
                  have e : stepOne o x (n + 1) x = n := by simp [stepOne, h3]
                  rw [e]
                  have := ih s hlen (open_close hp)
                  simpa using this
                · have e : stepOne o c (n + 1) x = n + 1 := by simp [stepOne, h3, h4]
                  rw [e]
                  have := ih s hlen (open_append hp (b := [x]) (.char h1 h2 .nil)
                    (fun _ => .char h1 h2 h3 h4 .nil))
                  simpa using this
  exact fun {n p} hp => key s.length s (Nat.le_refl _) hp

end
end Utils
end Specfile
