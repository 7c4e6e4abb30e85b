import Verif.Model.Equality
/-
The methods that containers inherit from `collections.UserList`: they work on the attribute `data` and on nothing else.
That `list` takes an object for equal to itself without calling `__eq__` is not modelled; it makes a difference only for
macros in %prep whose options cannot be read.
-/
namespace Specfile.ListMethods
open Py

/-- A container derived from `UserList`: its elements, the assignment of `data`, and `==` of elements, which can raise;
changelog.py:198, macro_definitions.py:152, prep.py:156, sections.py:140, sourcelist.py:81, tags.py:68 and 306 -/
class Listed (C : Type) (α : outParam Type) where
  data : C → List α
  withData : C → List α → C
  eq : α → α → Except Err Bool

/-- changelog.py:198 and 69-76 -/
instance : Listed Changelog ChangelogEntry where
  data c := c.data
  withData c l := { c with data := l }
  eq a b := .ok (Equality.entryEq a b)

/-- macro_definitions.py:152 and 85-97 -/
instance : Listed MacroDefinitions MacroDefinition where
  data c := c.data
  withData c l := { c with data := l }
  eq a b := .ok (MacroDefinition.eqv a b)

/-- prep.py:156 and 63-73 -/
instance [Uni] : Listed Prep PrepMacro where
  data c := c.data
  withData c l := { c with data := l }
  eq := Equality.prepMacroEq

/-- sections.py:140 -/
instance : Listed Sections Section where
  data c := c
  withData _ l := l
  eq a b := .ok (Equality.sectionEq a b)

/-- sourcelist.py:81 and 51-54 -/
instance : Listed Sourcelist SourcelistEntry where
  data c := c.data
  withData c l := { c with data := l }
  eq a b := .ok (Equality.sourcelistEntryEq a b)

/-- tags.py:306 and 246-257 -/
instance : Listed Tags Tag where
  data c := c.data
  withData c l := { c with data := l }
  eq a b := .ok (Tags.eqv a b)

/-- tags.py:68 and 55-58 -/
instance : Listed Comments Comment where
  data c := c.data
  withData c l := { c with data := l }
  eq a b := .ok (Equality.commentEq a b)

variable {C α : Type} [Listed C α]

/-- the search of `list.index` and `list.remove`: the first element `y` with `y == x`; the classes above do not override
it for their elements, tags.py:160-163 -/
def search (same : α → Except Err Bool) : Nat → List α → Except Err (Option Nat)
  | _, [] => .ok none
  | k, y :: l =>
    match same y with
    | .error e => .error e
    | .ok true => .ok (some k)
    | .ok false => search same (k + 1) l

/-- `index`, inherited; tags.py:163, used in tags.py:302 and macro_definitions.py:130 -/
def index (c : C) (x : α) : Except Err Nat :=
  match search (fun y => Listed.eq C y x) 0 (Listed.data c) with
  | .error e => .error e
  | .ok none => .error .valueError
  | .ok (some k) => .ok k

/-- the loop of `list.count`; macro_definitions.py:152 -/
def countLoop (same : α → Except Err Bool) : List α → Except Err Nat
  | [] => .ok 0
  | y :: l =>
    match same y with
    | .error e => .error e
    | .ok b => match countLoop same l with
      | .error e => .error e
      | .ok n => .ok (if b then n + 1 else n)

/-- `count`, inherited; changelog.py:198 etc. -/
def count (c : C) (x : α) : Except Err Nat := countLoop (fun y => Listed.eq C y x) (Listed.data c)

/-- `pop`, inherited: `self.data.pop(i)`, not `__delitem__`; changelog.py:198 etc. -/
def pop (c : C) (i : Int) : C × Except Err α :=
  match pyIndex (Listed.data c).length i with
  | none => (c, .error .indexError)
  | some k => match (Listed.data c)[k]? with
    | none => (c, .error .indexError)
    | some x => (Listed.withData c ((Listed.data c).eraseIdx k), .ok x)

/-- `remove`, inherited: `self.data.remove(x)`; changelog.py:198 etc. -/
def remove (c : C) (x : α) : C × Option Err :=
  match search (fun y => Listed.eq C y x) 0 (Listed.data c) with
  | .error e => (c, some e)
  | .ok none => (c, some .valueError)
  | .ok (some k) => (Listed.withData c ((Listed.data c).eraseIdx k), none)

/-- `clear`, inherited: `self.data.clear()`; changelog.py:198 etc. -/
def clear (c : C) : C := Listed.withData c []

/-- `append` of an element, inherited except for comments, where it does the same (tags.py:150-153);
`Tags.insert` (tags.py:463-477) is not called -/
def append (c : C) (x : α) : C := Listed.withData c (Listed.data c ++ [x])

/-- `extend` and `+=`, inherited except for comments, where `extend` does the same (tags.py:165-169) -/
def extend (c : C) (xs : List α) : C := Listed.withData c (Listed.data c ++ xs)

/-- `insert`, inherited by all but tags (tags.py:463-477, Model/Tags) and doing the same for comments (tags.py:155-158) -/
def insert (c : C) (i : Int) (x : α) : C :=
  let k := insertPos (Listed.data c).length i
  Listed.withData c ((Listed.data c).take k ++ x :: (Listed.data c).drop k)

/-- `__setitem__` with an index, inherited except for comments, where it does the same (tags.py:145) -/
def setItem (c : C) (i : Int) (x : α) : C × Option Err :=
  match pyIndex (Listed.data c).length i with
  | none => (c, some .indexError)
  | some k => (Listed.withData c ((Listed.data c).set k x), none)

/-- `reverse`, inherited: `self.data.reverse()`; changelog.py:198 etc. -/
def reverse (c : C) : C := Listed.withData c (Listed.data c).reverse

/-- `Comment.__eq__` with a text: `NotImplemented` on both sides, so different; tags.py:55-56 -/
def commentEqText (_ : Comment) (_ : Str) : Except Err Bool := .ok false

/-- `remove` of a comment by its text: inherited, unlike `index` (tags.py:160-163) and `__contains__` (tags.py:100-103) -/
def removeText (c : Comments) (t : Str) : Comments × Option Err :=
  match search (fun y => commentEqText y t) 0 c.data with
  | .error e => (c, some e)
  | .ok none => (c, some .valueError)
  | .ok (some k) => ({ c with data := c.data.eraseIdx k }, none)

/-- `count` of a text among comments, inherited; tags.py:68 -/
def countText (c : Comments) (t : Str) : Except Err Nat := countLoop (fun y => commentEqText y t) c.data

/-- `index` of a text among comments, tags.py:160-162 -/
def indexText (c : Comments) (t : Str) : Except Err Nat :=
  match c.texts.findIdx? (fun u => u == t) with
  | none => .error .valueError
  | some k => .ok k

end Specfile.ListMethods
