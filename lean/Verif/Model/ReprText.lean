import Verif.Model.Repr
import Verif.Model.FormatText
/-
The text of a representation: `__repr__` of an object is an f-string with the representations of its attributes, and
goes through the decorator `formatted`; so do those of the objects inside.
-/
namespace Specfile.Representation
open Py Formatter

section
variable (parse : Str → Parsed) (repr : Str → Str) (threshold fuel : Nat)

mutual
/-- `repr` of what an expression stands for: changelog.py:81-83 etc. for objects, the others are those of Python. The
class of paths is not decorated. -/
def shown : Expr → Except Failure Str
  | .const r => .ok r
  | .tuple items => match shownItems items with
    | .error e => .error e
    | .ok s => .ok ('(' :: s ++ (if items.single then s% ",)" else s% ")"))
  | .list items => match shownItems items with
    | .error e => .error e
    | .ok s => .ok ('[' :: s ++ s% "]")
  | .dict items => match shownItems items with
    | .error e => .error e
    | .ok s => .ok ('{' :: s ++ s% "}")
  | .call f items => match shownItems items with
    | .error e => .error e
    | .ok s =>
      if f = s% "PosixPath" then .ok (f ++ '(' :: s ++ s% ")")
      else formatted parse repr threshold fuel (f ++ '(' :: s ++ s% ")")
  | .other => .ok []
/-- the elements or arguments with commas between them, changelog.py:83 etc. -/
def shownItems : Items → Except Failure Str
  | .nil => .ok []
  | .cons k v rest => match shownKey k with
    | .error e => .error e
    | .ok a => match shown v with
      | .error e => .error e
      | .ok b => match shownItems rest with
        | .error e => .error e
        | .ok c => .ok (a ++ b ++ (if rest.isNil then [] else s% ", " ++ c))
/-- what stands before an element, utils.py:71, options.py:245 -/
def shownKey : Key → Except Failure Str
  | .pos => .ok []
  | .kw n => .ok (n ++ s% "=")
  | .unpack => .ok (s% "**")
  | .key e => match shown e with
    | .error e => .error e
    | .ok a => .ok (a ++ s% ": ")
end

end
end Specfile.Representation
