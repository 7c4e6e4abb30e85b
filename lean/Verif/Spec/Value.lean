import Verif.Py.Str
/-
Independent vocabulary for statements about values with macros.
-/
namespace Specfile.Spec
open Py

/-- `b` has balanced brackets `o … c`: no prefix closes more than it opens, and the totals agree. -/
def Balanced (o c : Char) (b : Str) : Prop :=
  (∀ p, p <+: b → p.count c ≤ p.count o) ∧ b.count c = b.count o

/-- After an optional run of `?` and `!`, the text consists of words separated by single spaces. -/
def ArgsTidy (b : Str) : Prop :=
  let r := b.dropWhile (fun c => c == '?' || c == '!')
  (∀ x ∈ r, isSpace x = true → x = ' ') ∧ ¬ [' ', ' '] <:+: r ∧
    r.head? ≠ some ' ' ∧ r.getLast? ≠ some ' '

/-- Every colon-free reference `%{…}` in `v` separates its arguments by single spaces. -/
def SingleSpacedRefs (v : Str) : Prop :=
  ∀ a b c, v = a ++ '%' :: '{' :: (b ++ '}' :: c) → ':' ∉ b → Balanced '{' '}' b → ArgsTidy b

end Specfile.Spec
