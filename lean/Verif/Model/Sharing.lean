import Verif.Model.Slices
import Verif.Model.Heap
/-
Containers that share their elements: changelogs, macro definitions, macros in %prep, sections and listed sources in
memory. `copy()`, slices and `insert` of an element of another container make containers that refer to the same objects.
Tags, which have comments with a list of lines of their own, are in Model/Heap.

Simplified: an element is one object. The lists in it (content and following lines of an entry, preceding lines, options,
lines of a section) belong to no other element, because the constructors copy them: changelog.py:64-67,
macro_definitions.py:81-83, prep.py:55 and 59-61, sections.py:65-73. Listed sources are taken to have comments of their own,
as `parse` makes them (sourcelist.py:47 and 146-153). The list `data` of a container is
part of the container, because every constructor and every copy makes a new one.
-/
namespace Specfile.Sharing
open Py ListMethods Slices
open Heap (upd)

/-- What containers do with the lines of an element that is deleted: `lines` are the lines that are passed on, `pass` puts
them into the next element, `below` into the other lines of the container. `inPlace` tells whether the list of these is
changed or replaced by a new one. If `passes` is false, `del` is inherited from `UserList`. -/
class Passing (C : Type) (α : outParam Type) extends Buildable C α where
  rest : C → List Str
  build : List α → List Str → C
  passes : Bool
  lines : α → List Str
  pass : List Str → α → α
  below : List Str → List Str → List Str
  inPlace : Bool

/-- changelog.py:247-260: `extend` changes the list -/
instance : Passing Changelog ChangelogEntry where
  rest c := c.predecessor
  build l r := ⟨l, r⟩
  passes := true
  lines e := e.following.drop 1
  pass l e := { e with following := e.following ++ l }
  below l r := r ++ l
  inPlace := true

/-- macro_definitions.py:230-245: `+` makes a new list -/
instance : Passing MacroDefinitions MacroDefinition where
  rest c := c.remainder
  build l r := ⟨l, r⟩
  passes := true
  lines d := d.preceding
  pass l d := { d with preceding := l ++ d.preceding }
  below l r := l ++ r
  inPlace := false

/-- prep.py:207-222: `+` makes a new list -/
instance [Uni] : Passing Prep PrepMacro where
  rest c := c.remainder
  build l r := ⟨l, r⟩
  passes := true
  lines m := m.preceding
  pass l m := { m with preceding := l ++ m.preceding }
  below l r := l ++ r
  inPlace := false

/-- sections.py:140: nothing is passed on -/
instance : Passing Sections Section where
  rest _ := []
  build l _ := l
  passes := false
  lines _ := []
  pass _ s := s
  below _ r := r
  inPlace := false

/-- sourcelist.py:81: nothing is passed on -/
instance : Passing Sourcelist SourcelistEntry where
  rest c := c.remainder
  build l r := ⟨l, r⟩
  passes := false
  lines _ := []
  pass _ e := e
  below _ r := r
  inPlace := false

/-- a container: references to its elements and to the list of its other lines; changelog.py:222-224 etc. -/
structure Obj where
  data : List Nat
  rest : Nat

/-- The objects by kind and address. Addresses from `next` on are not used.
See changelog.py:222-224, macro_definitions.py:172-175, prep.py:176-179, sourcelist.py:101-104. -/
structure Mem (α : Type) where
  item : Nat → α
  lines : Nat → List Str
  obj : Nat → Obj
  next : Nat

section
variable {α : Type}

/-- a container as a value, changelog.py:208-224 etc. -/
def contents (C : Type) [Passing C α] (h : Mem α) (r : Nat) : C :=
  Passing.build ((h.obj r).data.map h.item) (h.lines (h.obj r).rest)

/-- a new element, for example changelog.py:63-67 -/
def newItem (h : Mem α) (x : α) : Mem α × Nat := ({ h with item := upd h.item h.next x, next := h.next + 1 }, h.next)

/-- `Changelog(data, predecessor)` and the like: the list of lines is copied; changelog.py:208-224,
macro_definitions.py:160-175, prep.py:164-179, sourcelist.py:89-104 -/
def newObj (h : Mem α) (data : List Nat) (rest : List Str) : Mem α × Nat :=
  ({ h with lines := upd h.lines h.next rest, obj := upd h.obj h.next ⟨data, h.next⟩, next := h.next + 1 }, h.next)

/-- what `parse` makes: all objects are new; changelog.py:309-354, macro_definitions.py:299-398, prep.py:336-425,
sections.py:218-299, sourcelist.py:128-163. The elements get the addresses from `next` on. -/
def parsed {C : Type} [Passing C α] (h : Mem α) (c : C) : Mem α × Nat :=
  let xs := Listed.data c
  newObj { h with item := fun a => if h.next ≤ a then (xs[a - h.next]?).getD (h.item a) else h.item a
                  next := h.next + xs.length } ((List.range xs.length).map (h.next + ·)) (Passing.rest c)

/-- `copy()`: `UserList.__copy__` copies the references of all attributes and the list `data`; changelog.py:262-263,
macro_definitions.py:247-248, prep.py:240-241, sections.py:205-206, sourcelist.py:124-125 -/
def copyOf (h : Mem α) (r : Nat) : Mem α × Nat :=
  ({ h with obj := upd h.obj h.next (h.obj r), next := h.next + 1 }, h.next)

/-- `__getitem__` with a slice: changelog.py:241-245, macro_definitions.py:224-228, prep.py:201-205,
sourcelist.py:118-122; inherited by sections -/
def sliceOf (h : Mem α) (r : Nat) (start stop step : Option Int) : Except Err (Mem α × Nat) :=
  match sliceIndices (h.obj r).data.length start stop step with
  | .error e => .error e
  | .ok ks => .ok (newObj h (pick (h.obj r).data ks) (h.lines (h.obj r).rest))

/-- `copy.deepcopy`: each object is copied once, references go to the copies. Simplified: the address of a copy is the
address of the original plus `next`, and objects that are not reachable are copied as well. The context of a listed source
is not copied (sourcelist.py:63-71); it is left out here. -/
def deepcopyOf (h : Mem α) (r : Nat) : Mem α × Nat :=
  ({ item := fun a => if h.next ≤ a then h.item (a - h.next) else h.item a
     lines := fun a => if h.next ≤ a then h.lines (a - h.next) else h.lines a
     obj := fun a => if h.next ≤ a then
         ⟨(h.obj (a - h.next)).data.map (h.next + ·), h.next + (h.obj (a - h.next)).rest⟩
       else h.obj a
     next := h.next + h.next }, h.next + r)

/-- `self.data = …` and changes of this list, changelog.py:250 etc. -/
def withData (h : Mem α) (r : Nat) (data : List Nat) : Mem α :=
  { h with obj := upd h.obj r { h.obj r with data := data } }

/-- `delete` in `__delitem__`: changelog.py:248-254, macro_definitions.py:231-239, prep.py:208-216; `del self.data[i]` if
it is inherited -/
def delItem (C : Type) [Passing C α] (h : Mem α) (r : Nat) (i : Int) : Mem α × Option Err :=
  match pyIndex (h.obj r).data.length i with
  | none => (h, some .indexError)
  | some k =>
    let data := (h.obj r).data.eraseIdx k
    let h' := withData h r data
    if Passing.passes C then
      let lines := ((h.obj r).data[k]?.map (fun a => Passing.lines C (h.item a))).getD []
      if i < data.length then
        match pyIndex data.length i with
        | none => (h', some .indexError)
        | some j =>
          match data[j]? with
          | none => (h', some .indexError)
          | some a => ({ h' with item := upd h.item a (Passing.pass C lines (h.item a)) }, none)
      else
        let rest := Passing.below C lines (h.lines (h.obj r).rest)
        if Passing.inPlace C then ({ h' with lines := upd h.lines (h.obj r).rest rest }, none)
        else ({ h' with lines := upd h.lines h.next rest, obj := upd h.obj r ⟨data, h.next⟩, next := h.next + 1 }, none)
    else (h', none)

/-- the loop over the indices of a slice, changelog.py:257-258, macro_definitions.py:242-243, prep.py:219-220 -/
def delAll (C : Type) [Passing C α] (h : Mem α) (r : Nat) : List Nat → Mem α × Option Err
  | [] => (h, none)
  | i :: l =>
    match delItem C h r i with
    | (h', some e) => (h', some e)
    | (h', none) => delAll C h' r l

/-- `__delitem__` with a slice: changelog.py:256-258, macro_definitions.py:241-243, prep.py:218-220; `del self.data[i]` if
it is inherited -/
def delSlice (C : Type) [Passing C α] (h : Mem α) (r : Nat) (start stop step : Option Int) : Mem α × Option Err :=
  match sliceIndices (h.obj r).data.length start stop step with
  | .error e => (h, some e)
  | .ok ks =>
    if Passing.passes C then delAll C h r ks.reverse
    else (withData h r (dropAll ks 0 (h.obj r).data), none)

/-- Edits of a container. The methods are inherited from `UserList` except for `__delitem__`; changelog.py:198 etc. -/
inductive Edit (α : Type) where
  /-- `del c[i]` -/
  | del (i : Int)
  /-- `del c[start:stop:step]` -/
  | delSlice (start stop step : Option Int)
  /-- `c.insert(i, x)` with a new element -/
  | insert (i : Int) (x : α)
  /-- `c.append(x)` with a new element -/
  | append (x : α)
  /-- `c[i] = x` with a new element -/
  | set (i : Int) (x : α)
  /-- `c.pop(i)` -/
  | pop (i : Int)
  /-- `c.clear()` -/
  | clear
  /-- `c.reverse()` -/
  | reverse
  /-- assignments to attributes of `c[i]`, or changes of lists in it -/
  | change (i : Int) (f : α → α)

/-- the edits on the memory, changelog.py:198 and 247-260 etc. -/
def Edit.run (C : Type) [Passing C α] (h : Mem α) (r : Nat) : Edit α → Mem α × Option Err
  | .del i => delItem C h r i
  | .delSlice start stop step => Sharing.delSlice C h r start stop step
  | .insert i x =>
    match newItem h x with
    | (h, a) =>
      let k := insertPos (h.obj r).data.length i
      (withData h r ((h.obj r).data.take k ++ a :: (h.obj r).data.drop k), none)
  | .append x =>
    match newItem h x with
    | (h, a) => (withData h r ((h.obj r).data ++ [a]), none)
  | .set i x =>
    match newItem h x with
    | (h, a) =>
      match pyIndex (h.obj r).data.length i with
      | none => (h, some .indexError)
      | some k => (withData h r ((h.obj r).data.set k a), none)
  | .pop i =>
    match pyIndex (h.obj r).data.length i with
    | none => (h, some .indexError)
    | some k => (withData h r ((h.obj r).data.eraseIdx k), none)
  | .clear => (withData h r [], none)
  | .reverse => (withData h r (h.obj r).data.reverse, none)
  | .change i f =>
    match pyIndex (h.obj r).data.length i with
    | none => (h, some .indexError)
    | some k =>
      match (h.obj r).data[k]? with
      | none => (h, some .indexError)
      | some a => ({ h with item := upd h.item a (f (h.item a)) }, none)

/-- `c.insert(i, d[j])`: the element is in both containers then; changelog.py:198 etc. -/
def putItem (h : Mem α) (r : Nat) (i : Int) (r' : Nat) (j : Int) : Mem α × Option Err :=
  match pyIndex (h.obj r').data.length j with
  | none => (h, some .indexError)
  | some k =>
    match (h.obj r').data[k]? with
    | none => (h, some .indexError)
    | some a =>
      let p := insertPos (h.obj r).data.length i
      (withData h r ((h.obj r).data.take p ++ a :: (h.obj r).data.drop p), none)

end

end Specfile.Sharing
