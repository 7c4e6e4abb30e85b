import Verif.Py.Str
/-
`int(str)`.
-/
namespace Py

/-- digits with single underscores between them: the value, or `none` if malformed.
`acc` is the value so far, `under` tells that the previous character is an underscore. -/
def digitsVal [Uni] (acc : Nat) (under : Bool) : Str → Option Nat
  | [] => if under then none else some acc
  | c :: cs =>
    if Uni.isDecimal c then digitsVal (10 * acc + Uni.decimalVal c) false cs
    else if c == '_' && !under then digitsVal acc true cs
    else none

/-- an unsigned integer literal of `int()`: at least one digit, no leading underscore -/
def parseNat [Uni] (s : Str) : Option Nat :=
  match s with
  | [] => none
  | c :: _ => if Uni.isDecimal c then digitsVal 0 false s else none

/-- `int(s)` in base 10; `none` stands for `ValueError`. Surrounding whitespace is ignored. -/
def parseInt [Uni] (s : Str) : Option Int :=
  match strip s with
  | [] => none
  | c :: cs =>
    if c == '-' then (parseNat cs).map (fun n => -(n : Int))
    else if c == '+' then (parseNat cs).map (fun n => (n : Int))
    else (parseNat (c :: cs)).map (fun n => (n : Int))

end Py
