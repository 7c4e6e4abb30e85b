import Verif.Model.ListMethods
/-
Slices, sums, products and copies of containers. Objects are values here; that the results share their elements with the
operands is a matter of Model/Heap.
-/
namespace Specfile.Slices
open Py ListMethods

/-- How containers are made from elements: `make` is `self.__class__(data)`, as the operators of `UserList` call it,
`sliced` is what `__getitem__` returns for a slice. -/
class Buildable (C : Type) (α : outParam Type) extends Listed C α where
  make : List α → C
  sliced : C → List α → C

/-- changelog.py:208-226 and 241-245 -/
instance : Buildable Changelog ChangelogEntry where
  make l := ⟨l, []⟩
  sliced c l := ⟨l, c.predecessor⟩

/-- macro_definitions.py:160-175 and 224-228 -/
instance : Buildable MacroDefinitions MacroDefinition where
  make l := ⟨l, []⟩
  sliced c l := ⟨l, c.remainder⟩

/-- prep.py:164-179 and 201-205 -/
instance [Uni] : Buildable Prep PrepMacro where
  make l := ⟨l, []⟩
  sliced c l := ⟨l, c.remainder⟩

/-- sections.py:140; `__init__` and `__getitem__` are inherited -/
instance : Buildable Sections Section where
  make l := l
  sliced _ l := l

/-- sourcelist.py:89-104 and 118-122 -/
instance : Buildable Sourcelist SourcelistEntry where
  make l := ⟨l, []⟩
  sliced c l := ⟨l, c.remainder⟩

/-- tags.py:326-339 and 353-357 -/
instance : Buildable Tags Tag where
  make l := ⟨l, []⟩
  sliced c l := ⟨l, c.remainder⟩

/-- tags.py:77-94 and 118-122 -/
instance : Buildable Comments Comment where
  make l := ⟨l, []⟩
  sliced c l := ⟨l, c.preceding⟩

/-- `data[i]` for a slice that denotes the positions `ks`, changelog.py:243 etc. -/
def pick {α : Type} (l : List α) (ks : List Nat) : List α := ks.filterMap (fun k => l[k]?)

variable {C α : Type} [Buildable C α]

/-- `__getitem__` with a slice: changelog.py:241-245, macro_definitions.py:224-228, prep.py:201-205,
sourcelist.py:118-122, tags.py:118-122 and 353-357; inherited by sections -/
def getSlice (c : C) (start stop step : Option Int) : Except Err C :=
  match sliceIndices (Listed.data c).length start stop step with
  | .error e => .error e
  | .ok ks => .ok (Buildable.sliced c (pick (Listed.data c) ks))

/-- `c + d`, inherited: `self.__class__(self.data + other.data)`; changelog.py:198 etc. -/
def add (c d : C) : C := Buildable.make (Listed.data c ++ Listed.data d)

/-- `c + […]`, inherited; changelog.py:198 etc. -/
def addList (c : C) (l : List α) : C := Buildable.make (Listed.data c ++ l)

/-- `[…] + c`, inherited: `__radd__`; changelog.py:198 etc. -/
def raddList (l : List α) (c : C) : C := Buildable.make (l ++ Listed.data c)

/-- `list * n` -/
def times {α : Type} (l : List α) (n : Int) : List α := (List.replicate n.toNat l).flatten

/-- `c * n`, inherited: `self.__class__(self.data * n)`; changelog.py:198 etc. -/
def mul (c : C) (n : Int) : C := Buildable.make (times (Listed.data c) n)

/-- `c *= n`, inherited; changelog.py:198 etc. -/
def imul (c : C) (n : Int) : C := Listed.withData c (times (Listed.data c) n)

/-- `copy`: changelog.py:262-263, macro_definitions.py:247-248, prep.py:240-241, sections.py:205-206,
sourcelist.py:124-125, tags.py:147-148 and 426-427; `UserList.__copy__` copies all attributes and the list `data` -/
def copy (c : C) : C := Listed.withData c (Listed.data c)

/-- the loop of an assignment to an extended slice of a list -/
def setAll {α : Type} (l : List α) : List Nat → List α → List α
  | k :: ks, x :: xs => setAll (l.set k x) ks xs
  | _, _ => l

/-- `data[start:stop:step] = xs` for a list: with the step 1 the elements in between are replaced, otherwise there must
be as many elements as positions -/
def assignSlice {α : Type} (l : List α) (start stop step : Option Int) (xs : List α) : Except Err (List α) :=
  if step.getD 1 = 1 then
    let lo := (start.map (clampBound l.length)).getD 0
    let hi := (stop.map (clampBound l.length)).getD l.length
    .ok (l.take lo ++ xs ++ l.drop (max lo hi))
  else
    match sliceIndices l.length start stop step with
    | .error e => .error e
    | .ok ks => if ks.length = xs.length then .ok (setAll l ks xs) else .error .valueError

/-- `__setitem__` with a slice, inherited by all but comments: `self.data[i] = item`; changelog.py:198 etc. -/
def setSlice (c : C) (start stop step : Option Int) (xs : List α) : C × Option Err :=
  match assignSlice (Listed.data c) start stop step xs with
  | .error e => (c, some e)
  | .ok l => (Listed.withData c l, none)

/-- `del data[i]` for a slice of a list that denotes the positions `ks` -/
def dropAll {α : Type} (ks : List Nat) : Nat → List α → List α
  | _, [] => []
  | k, x :: l => if ks.contains k then dropAll ks (k + 1) l else x :: dropAll ks (k + 1) l

/-- `__delitem__` with a slice as sections, listed sources and comments inherit it: `del self.data[i]`; sections.py:140,
sourcelist.py:81, tags.py:68 -/
def delSlice (c : C) (start stop step : Option Int) : C × Option Err :=
  match sliceIndices (Listed.data c).length start stop step with
  | .error e => (c, some e)
  | .ok ks => (Listed.withData c (dropAll ks 0 (Listed.data c)), none)

/-- `__delitem__` with an index as sections, listed sources and comments inherit it; sections.py:140, sourcelist.py:81,
tags.py:68 -/
def delItem (c : C) (i : Int) : C × Option Err :=
  match pyIndex (Listed.data c).length i with
  | none => (c, some .indexError)
  | some k => (Listed.withData c ((Listed.data c).eraseIdx k), none)

/-! ### comments -/

/-- an item to assign: a text or a comment, tags.py:137 and 142 -/
inductive Item where
  | text (t : Str)
  | comment (c : Comment)

/-- the assignment to one comment, tags.py:137-140 -/
def Item.put (c : Comment) : Item → Comment
  | .text t => { c with text := t }
  | .comment d => d

/-- the loop over the positions, tags.py:136-140: `item[i0]` raises `IndexError` if there are too few items -/
def putAll : List Nat → List Item → List Comment → List Comment × Option Err
  | [], _, l => (l, none)
  | _ :: _, [], l => (l, some .indexError)
  | k :: ks, x :: xs, l => putAll ks xs (l.modify k (fun c => x.put c))

/-- `Comments.__setitem__` with a slice, tags.py:134-140 -/
def setComments (c : Comments) (start stop step : Option Int) (xs : List Item) : Comments × Option Err :=
  match sliceIndices c.data.length start stop step with
  | .error e => (c, some e)
  | .ok ks =>
    match putAll ks xs c.data with
    | (l, e) => ({ c with data := l }, e)

/-! ### lines of a section -/

/-- a section is a `UserList` as well; what its constructor may get as its first argument, sections.py:41-43 -/
inductive Name where
  | str (name : Str)
  | list (data : List Str)

/-- `Section(name)`, sections.py:41-73: a list has no method `lower` -/
def construct [Uni] : Name → Except Err Section
  | .str name => Sections.mkSection name none [] ['\n'] []
  | .list _ => .error .attributeError

/-- `section + […]`, inherited: `self.__class__(self.data + other)`; sections.py:30 -/
def sectionAdd [Uni] (s : Section) (l : List Str) : Except Err Section := construct (.list (s.data ++ l))

/-- `section * n`, inherited; sections.py:30 -/
def sectionMul [Uni] (s : Section) (n : Int) : Except Err Section := construct (.list (times s.data n))

/-- `section += […]`, inherited; sections.py:30 -/
def sectionExtend (s : Section) (l : List Str) : Section := { s with data := s.data ++ l }

/-- `Section.__getitem__` with a slice, sections.py:96-103; the options are copied -/
def sectionSlice [Uni] (s : Section) (start stop step : Option Int) : Except Err Section :=
  match sliceIndices s.data.length start stop step with
  | .error e => .error e
  | .ok ks => Sections.mkSection s.name (some s.options) s.delimiter s.separator (pick s.data ks)

end Specfile.Slices
