import Verif.Py.Lemmas
/-
More lemmas on the string primitives.
-/
namespace Py

/-- text in front of the first line -/
theorem joinC_prefix (c : Char) (x y : Str) (m : List Str) :
    joinC c ((x ++ y) :: m) = x ++ joinC c (y :: m) := by
  cases m with
  | nil => rfl
  | cons a m => rw [joinC_cons c _ (by simp), joinC_cons c y (by simp)]; simp

/-- a separator inside the first line -/
theorem joinC_extend (c : Char) (x y : Str) (m : List Str) :
    joinC c ((x ++ c :: y) :: m) = joinC c (x :: y :: m) := by
  rw [joinC_cons c x (l := y :: m) (by simp)]
  rw [show x ++ c :: y = (x ++ [c]) ++ y by simp, joinC_prefix]
  simp

end Py
