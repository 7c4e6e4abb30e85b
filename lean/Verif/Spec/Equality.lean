import Verif.Model.Equality
/-
Vocabulary for equality of objects.
-/
namespace Specfile.Spec
open Py Options

/-- `==` is an equivalence: every object equals itself, the order does not matter, and objects equal to the same object
are equal -/
structure Equivalence {α : Type} (eq : α → α → Bool) : Prop where
  refl : ∀ a, eq a a = true
  symm : ∀ a b, eq a b = eq b a
  trans : ∀ a b c, eq a b = true → eq b c = true → eq a c = true

/-- `==` means the same text -/
def SameWritten {α τ : Type} (eq : α → α → Bool) (text : α → τ) : Prop := ∀ a b, eq a b = true → text a = text b

/-- The values of an option that Python takes for equal: the same, or a truth value and the number 0 or 1. -/
inductive SameValue : Option Val → Option Val → Prop
  | same (v : Option Val) : SameValue v v
  | falseZero : SameValue (some (.bool false)) (some (.int 0))
  | zeroFalse : SameValue (some (.int 0)) (some (.bool false))
  | trueOne : SameValue (some (.bool true)) (some (.int 1))
  | oneTrue : SameValue (some (.int 1)) (some (.bool true))

/-- what is written above the elements is the same: the lines in front of the comments of a tag or a source, the header of
a section -/
def SameAbove {α ρ : Type} (above : α → ρ) (xs ys : List α) : Prop := xs.map above = ys.map above

end Specfile.Spec
