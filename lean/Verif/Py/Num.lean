import Verif.Py.Lemmas
/-
Decimal representation of numbers.
-/
namespace Py

theorem digitChar_toNat {d : Nat} (h : d < 10) : (digitChar d).toNat = 48 + d := by
  unfold digitChar
  have hv : (48 + d).isValidChar := Or.inl (by omega)
  simp only [Char.ofNat]
  rw [dif_pos hv]; rfl

theorem digitChar_isDigit {d : Nat} (h : d < 10) : isAsciiDigit (digitChar d) = true := by
  simp [isAsciiDigit, digitChar_toNat h]; omega

theorem isAscii_of_digit {c : Char} (h : isAsciiDigit c = true) : isAscii c = true := by
  simp [isAsciiDigit, isAscii] at *; omega

theorem isDecimal_of_asciiDigit [Uni] {c : Char} (h : isAsciiDigit c = true) :
    Uni.isDecimal c = true := by
  rw [Uni.decimal_ascii c (isAscii_of_digit h), h]

theorem decimalVal_digitChar [Uni] {d : Nat} (h : d < 10) : Uni.decimalVal (digitChar d) = d := by
  rw [Uni.decimalVal_ascii _ (digitChar_isDigit h), digitChar_toNat h]; omega

theorem natStrF_acc (fuel n : Nat) (acc : Str) : natStrF fuel n acc = natStrF fuel n [] ++ acc := by
  induction fuel generalizing n acc with
  | zero => rfl
  | succ fuel ih =>
    simp only [natStrF]
    split
    · rfl
    · rw [ih, ih (acc := [_])]; simp

theorem natStrF_all (fuel n : Nat) : ∀ c ∈ natStrF fuel n [], isAsciiDigit c = true := by
  induction fuel generalizing n with
  | zero => simp [natStrF]
  | succ fuel ih =>
    intro c hc
    simp only [natStrF] at hc
    split at hc
    · simp at hc; subst hc; exact digitChar_isDigit (by omega)
    · rw [natStrF_acc] at hc
      simp at hc
      rcases hc with hc | rfl
      · exact ih _ c hc
      · exact digitChar_isDigit (by omega)

theorem natStr_digits (n : Nat) : ∀ c ∈ natStr n, isAsciiDigit c = true := natStrF_all _ _

theorem natStr_ne_nil (n : Nat) : natStr n ≠ [] := by
  unfold natStr
  simp only [natStrF]
  split
  · simp
  · rw [natStrF_acc]; simp

theorem decVal_append_one [Uni] (a : Str) (c : Char) :
    decVal (a ++ [c]) = 10 * decVal a + Uni.decimalVal c := by
  simp [decVal]

theorem decVal_natStrF [Uni] (fuel n : Nat) (h : n < fuel) : decVal (natStrF fuel n []) = n := by
  induction fuel generalizing n with
  | zero => omega
  | succ fuel ih =>
    simp only [natStrF]
    split
    · simp only [decVal, List.foldl_cons, List.foldl_nil]
      rw [decimalVal_digitChar (by omega)]; omega
    · rw [natStrF_acc, decVal_append_one, ih _ (by omega), decimalVal_digitChar (by omega)]; omega

/-- `int(str(n)) == n` -/
@[simp] theorem decVal_natStr [Uni] (n : Nat) : decVal (natStr n) = n := decVal_natStrF _ _ (by omega)

theorem natStr_injective {m n : Nat} (h : natStr m = natStr n) : m = n := by
  have := congrArg (@decVal asciiUni) h
  simpa using this

theorem natStr_not_mem {n : Nat} {c : Char} (h : isAsciiDigit c = false) : c ∉ natStr n := by
  intro hc
  rw [natStr_digits n c hc] at h
  simp at h

theorem natStr_decimal [Uni] (n : Nat) : (natStr n).all Uni.isDecimal = true := by
  rw [List.all_eq_true]
  intro c hc
  exact isDecimal_of_asciiDigit (natStr_digits n c hc)

end Py
