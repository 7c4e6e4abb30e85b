import Verif.Model.Sourcelist
/-
Model of /repo/specfile/sources.py and of `Specfile.add_patch`. Expanded locations and file names, `remote` and
`comments` of sources are left out (the latter are fields of tags and entries).
-/
namespace Specfile
open Py Regex

/-- `TagSource`, sources.py:75-87: the tag, its index among all tags, and `_number` -/
structure TagSource where
  idx : Nat
  tag : Tag
  implicit : Option Nat
  deriving DecidableEq, Repr

/-- `Sources`, sources.py:237-269, or `Patches`, sources.py:660-665 -/
structure Sources where
  tags : Tags
  lists : List Sourcelist
  patches : Bool
  allowDuplicates : Bool
  implicitDefault : Bool
  digits : Nat
  deriving DecidableEq, Repr

/-- what `_get_items` lists, sources.py:375-394: a tag, or an entry with its number, the index of its list and its
index in the list -/
inductive SourceItem where
  | tag (ts : TagSource)
  | entry (e : SourcelistEntry) (number list index : Nat)
  deriving DecidableEq, Repr

namespace Sources

/-- `prefix`, sources.py:240 and 663 -/
def kind (s : Sources) : Str := if s.patches then s% "Patch" else s% "Source"

/-- the expression in `_extract_number`, sources.py:107; group 1 -/
def numberRe [Uni] : Re Nat := .grp 1 (plus Uni.isDecimal) ⬝ .eos

/-- `_extract_number`, sources.py:100-110; the second part of `re.split` is group 1 of the first match -/
def extractNumber [Uni] (name : Str) : Option Str :=
  match search numberRe name with
  | none => none
  | some f => f.st.get 1

/-- `number`, sources.py:112-117; the limit of `int` on the number of digits is left out -/
def number [Uni] (ts : TagSource) : Nat :=
  match ts.implicit with
  | some n => n
  | none => match extractNumber ts.tag.name with
    | none => 0
    | some d => decVal d

/-- `number_digits`, sources.py:119-133 -/
def numberDigits [Uni] (ts : TagSource) : Nat :=
  match ts.implicit with
  | some _ => 0
  | none => match extractNumber ts.tag.name with
    | none => 0
    | some d => if startsWith d ['0'] then d.length else 1

/-- `numbered_pattern`, sources.py:362 -/
def numberedRe [Uni] (kind : Str) : Re Nat := lit kind ⬝ plus Uni.isDecimal

/-- the loop of `_get_tags`, sources.py:363-373; `next` is `last_number + 1` -/
def tagLoop [Uni] (kind : Str) : Nat → Nat → List Tag → List TagSource
  | _, _, [] => []
  | next, i, t :: ts =>
    if Tags.normalizedName t = kind then
      ⟨i, t, some next⟩ :: tagLoop kind (next + 1) (i + 1) ts
    else if (rmatch (numberedRe kind) (Tags.normalizedName t)).isSome then
      ⟨i, t, none⟩ :: tagLoop kind (number ⟨i, t, none⟩ + 1) (i + 1) ts
    else tagLoop kind next (i + 1) ts

/-- `_get_tags`, sources.py:350-373 -/
def getTags [Uni] (s : Sources) : List TagSource := tagLoop s.kind 0 0 s.tags.data

/-- the items of one source list, sources.py:389-393 -/
def listItems (first : Nat) (k : Nat) : Nat → List SourcelistEntry → List SourceItem
  | _, [] => []
  | i, e :: es => .entry e (first + i) k i :: listItems first k (i + 1) es

/-- the items of all source lists, sources.py:389-393 -/
def allListItems (first : Nat) : Nat → List Sourcelist → List SourceItem
  | _, [] => []
  | k, l :: ls => listItems first k 0 l.data ++ allListItems first (k + 1) ls

/-- `last_number + 1` in `_get_items`, sources.py:388 -/
def firstListNumber [Uni] (s : Sources) : Nat :=
  match s.getTags.getLast? with
  | none => 0
  | some ts => number ts + 1

/-- `_get_items`, sources.py:375-394 -/
def items [Uni] (s : Sources) : List SourceItem :=
  s.getTags.map .tag ++ allListItems s.firstListNumber 0 s.lists

/-- `location` of a source, sources.py:135-138, 202-205 -/
def location : SourceItem → Str
  | .tag ts => ts.tag.value
  | .entry e _ _ _ => e.location

/-- `number` of a source, sources.py:112-117 and 197-200 -/
def itemNumber [Uni] : SourceItem → Nat
  | .tag ts => number ts
  | .entry _ n _ _ => n

/-- `valid` of a source, sources.py:166-169, 231-234 -/
def itemValid : SourceItem → Bool
  | .tag ts => ts.tag.valid
  | .entry e _ _ _ => e.valid

/-- the locations of all sources, sources.py:298 -/
def locations [Uni] (s : Sources) : List Str := s.items.map location

/-- `__contains__`, sources.py:294-298 -/
def contains [Uni] (s : Sources) (loc : Str) : Bool := s.locations.contains loc

/-- `__len__`, sources.py:307-308 -/
def len [Uni] (s : Sources) : Nat := s.items.length

/-- `count`, sources.py:632-645 -/
def count [Uni] (s : Sources) (loc : Str) : Nat := (s.locations.filter (· == loc)).length

/-- `__getitem__` with an index, sources.py:323 -/
def get [Uni] (s : Sources) (i : Int) : Except Err SourceItem :=
  match pyIndex s.items.length i with
  | none => .error .indexError
  | some k => match s.items[k]? with
    | none => .error .indexError
    | some x => .ok x

/-- `__getitem__` with a slice, sources.py:320-321; nothing is left to unzip if the slice is empty -/
def getSlice [Uni] (s : Sources) (start stop step : Option Int) : Except Err (List SourceItem) :=
  match sliceIndices s.items.length start stop step with
  | .error e => .error e
  | .ok ks =>
    if ks.isEmpty then .error .indexError else .ok (ks.filterMap (fun k => s.items[k]?))

/-- assigning `location` of a source, sources.py:140-142, 207-209 -/
def setLocation (s : Sources) (x : SourceItem) (loc : Str) : Sources :=
  match x with
  | .tag ts => { s with tags := s.tags.setValueAt ts.idx loc }
  | .entry _ _ k i => { s with lists := s.lists.modify k (fun l =>
      { l with data := l.data.modify i (fun e => { e with location := loc }) }) }

/-- `__setitem__` with an index, sources.py:338-339 -/
def set [Uni] (s : Sources) (i : Int) (loc : Str) : Except Err Sources :=
  match s.get i with
  | .error e => .error e
  | .ok x => .ok (s.setLocation x loc)

/-- outcome of a mutating operation, sources.py:333-348 and 503-630 -/
abbrev Res := Sources × Option Err

/-- assigning locations one after the other, sources.py:336-337; `item[i0]` fails if there are not enough -/
def setItems (s : Sources) : List SourceItem → List Str → Res
  | [], _ => (s, none)
  | _ :: _, [] => (s, some .indexError)
  | x :: xs, loc :: locs => setItems (s.setLocation x loc) xs locs

/-- `__setitem__` with a slice, sources.py:335-337 -/
def setSlice [Uni] (s : Sources) (start stop step : Option Int) (locs : List Str) : Res :=
  match sliceIndices s.items.length start stop step with
  | .error e => (s, some e)
  | .ok ks => s.setItems (ks.filterMap (fun k => s.items[k]?)) locs

/-- `del container[index]`, sources.py:345 and 348 -/
def delItem (s : Sources) (x : SourceItem) : Res :=
  match x with
  | .tag ts => match s.tags.delItem ts.idx with
    | (t, e) => ({ s with tags := t }, e)
  | .entry _ _ k i =>
    if i < ((s.lists[k]?).map (·.data.length)).getD 0 then
      ({ s with lists := s.lists.modify k (fun l => { l with data := l.data.eraseIdx i }) }, none)
    else (s, some .indexError)

/-- deleting items in the given order; the first exception ends it;
sources.py:344-345 and 613-615 -/
def delItems (s : Sources) : List SourceItem → Res
  | [] => (s, none)
  | x :: xs => match s.delItem x with
    | (s', some e) => (s', some e)
    | (s', none) => delItems s' xs

/-- `__delitem__` with an index, sources.py:347-348 -/
def del [Uni] (s : Sources) (i : Int) : Res :=
  match s.get i with
  | .error e => (s, some e)
  | .ok x => s.delItem x

/-- `__delitem__` with a slice, sources.py:343-345 -/
def delSlice [Uni] (s : Sources) (start stop step : Option Int) : Res :=
  match sliceIndices s.items.length start stop step with
  | .error e => (s, some e)
  | .ok ks => s.delItems (ks.filterMap (fun k => s.items[k]?)).reverse

/-- `_detect_implicit_numbering`, sources.py:396-409 -/
def detectImplicit [Uni] (s : Sources) : Bool :=
  if s.getTags.any (fun ts => ts.implicit.isNone) then false
  else if s.getTags.length ≤ 1 then s.implicitDefault
  else true

/-- `f"{number:0{digits}}"`; sources.py:440 and 465 -/
def zeroPad (digits n : Nat) : Str := List.replicate (digits - (natStr n).length) '0' ++ natStr n

/-- the separator next to a name that is longer or shorter than the one of the reference, sources.py:442-445 -/
def adjustSep (sep : Str) (refLen len : Nat) : Str :=
  if len ≤ refLen then sep ++ List.replicate (refLen - len) ' '
  else
    let cut := sep.take (sep.length - (len - refLen))
    if cut.isEmpty then [':'] else cut

/-- `_get_tag_format`, sources.py:411-445 -/
def tagFormat [Uni] (s : Sources) (ref : TagSource) (n : Nat) (override : Option Nat) : Str × Str :=
  let digits := match override with
    | some d => d
    | none => numberDigits ref
  let suffix := if s.detectImplicit || digits == 0 then [] else zeroPad digits n
  let name := s.kind ++ suffix
  (name, adjustSep ref.tag.sep ref.tag.name.length name.length)

/-- `Sources._get_initial_tag_setup`, sources.py:447-466 -/
def initialSetup (s : Sources) (n : Nat) : Nat × Str × Str :=
  let suffix := if s.implicitDefault || s.digits == 0 then [] else zeroPad s.digits n
  (s.tags.data.length, s.kind ++ suffix, s% ": ")

/-- `source_pattern`, sources.py:679 -/
def sourceRe [Uni] : Re Nat := lit (s% "Source") ⬝ star Uni.isDecimal

/-- the tags matched by `source_pattern` with their indices, sources.py:681-685 -/
def sourceTags [Uni] : Nat → List Tag → List TagSource
  | _, [] => []
  | i, t :: ts =>
    if (rmatch sourceRe (Tags.normalizedName t)).isSome then ⟨i, t, none⟩ :: sourceTags (i + 1) ts
    else sourceTags (i + 1) ts

/-- `_get_initial_tag_setup` of sources or patches, sources.py:447-466, 667-691 -/
def initial [Uni] (s : Sources) (n : Nat) : Nat × Str × Str :=
  if s.patches then
    match (sourceTags 0 s.tags.data).getLast? with
    | none => s.initialSetup n
    | some ref =>
      let f := s.tagFormat ref n (some s.digits)
      (ref.idx + 1, f.1, f.2)
  else s.initialSetup n

/-- `_get_tag_validity` without reference, sources.py:479-481 -/
def lastValid (s : Sources) : Bool :=
  match s.tags.data.getLast? with
  | none => true
  | some t => t.valid

/-- assigning the name and the separator of a tag, sources.py:499-501 -/
def rename (s : Sources) (i : Nat) (f : Str × Str) : Sources :=
  { s with tags := { s.tags with data := s.tags.data.modify i (fun t => { t with name := f.1, sep := f.2 }) } }

/-- the loop of `_deduplicate_tag_names`, sources.py:494-501; `ts0` is the source before -/
def dedupLoop [Uni] (s : Sources) (ts0 : TagSource) : List TagSource → Sources
  | [] => s
  | ts1 :: rest =>
    if number ts1 = number ts0 then
      if ts1.implicit.isSome then dedupLoop s { ts1 with implicit := some (number ts0 + 1) } rest
      else
        let f := s.tagFormat ts1 (number ts0 + 1) none
        dedupLoop (s.rename ts1.idx f) { ts1 with tag := { ts1.tag with name := f.1, sep := f.2 } } rest
    else dedupLoop s ts1 rest

/-- `_deduplicate_tag_names`, sources.py:483-501; `tags[start:]` can be empty, then there is nothing to unzip -/
def dedup [Uni] (s : Sources) (start : Int) : Res :=
  let tags := s.getTags
  if tags.isEmpty then (s, none)
  else match tags.drop (clampBound tags.length start) with
    | [] => (s, some .indexError)
    | ts :: rest => (s.dedupLoop ts rest, none)

/-- a new tag, sources.py:533-540 -/
def newTag (name loc sep : Str) (valid : Bool) : Tag := ⟨name, loc, sep, ⟨[], []⟩, valid, [], []⟩

/-- `Tags.insert` of a new tag. The constructor of the tag cannot fail: its name starts with a tag name.
See sources.py:531-541, 560-565 and 599-602. -/
def insertTag (s : Sources) (i : Nat) (t : Tag) : Res :=
  match s.tags.insert i t with
  | (tags, e) => ({ s with tags := tags }, e)

/-- the part of `insert` with a source next to the new one, sources.py:520-552: `x` is that source, `off` is 1 if
the new one comes after it, `n` is the number of the new one -/
def insertNext [Uni] (s : Sources) (i : Int) (loc : Str) (x : SourceItem) (off n : Nat) : Res :=
  match x with
  | .tag ts =>
    let f := s.tagFormat ts n none
    match s.insertTag (ts.idx + off) (newTag f.1 loc f.2 ts.tag.valid) with
    | (s', some e) => (s', some e)
    | (s', none) => s'.dedup i
  | .entry _ _ k j =>
    ({ s with lists := s.lists.modify k (fun l =>
        -- `container[index - 1].valid`; the list has an entry
        let v := match pyIndex l.data.length ((j + off : Nat) - 1 : Int) with
          | none => true
          | some p => ((l.data[p]?).map (·.valid)).getD true
        { l with data := l.data.take (j + off) ++ ⟨loc, ⟨[], []⟩, v⟩ :: l.data.drop (j + off) }) }, none)

/-- `insert`, sources.py:503-565 -/
def insert [Uni] (s : Sources) (i : Int) (loc : Str) : Res :=
  if !s.allowDuplicates && s.contains loc then (s, some .duplicateSource)
  else
    let its := s.items
    let i := if i > its.length then (its.length : Int) else i
    if !its.isEmpty then
      if i = its.length then
        match its.getLast? with
        | none => (s, some .indexError)
        | some x => s.insertNext i loc x 1 (itemNumber x + 1)
      else match s.get i with
        | .error e => (s, some e)
        | .ok x => s.insertNext i loc x 0 (itemNumber x)
    else if !s.lists.isEmpty then
      ({ s with lists := s.lists.modify (s.lists.length - 1) (fun l =>
          { l with data := l.data ++ [⟨loc, ⟨[], []⟩, true⟩] }) }, none)
    else
      let f := s.initial 0
      s.insertTag f.1 (newTag f.2.1 loc f.2.2 s.lastValid)

/-- `append` of `MutableSequence`, inherited in sources.py:237 -/
def append [Uni] (s : Sources) (loc : Str) : Res := s.insert s.len loc

/-- `abs(a - b)`, sources.py:588 -/
def dist (a b : Nat) : Nat := if a ≤ b then b - a else a - b

/-- `min(enumerate(tags), key=…)`: the first one of the nearest; `best` is the nearest so far;
sources.py:587-589 -/
def nearestFrom [Uni] (n : Nat) (best : Nat × TagSource) : Nat → List TagSource → Nat × TagSource
  | _, [] => best
  | i, ts :: rest =>
    nearestFrom n (if dist (number ts) n < dist (number best.2) n then (i, ts) else best) (i + 1) rest

/-- `insert_numbered`, sources.py:567-604; the number is not negative -/
def insertNumbered [Uni] (s : Sources) (n : Nat) (loc : Str) : Sources × Except Err Nat :=
  if !s.allowDuplicates && s.contains loc then (s, .error .duplicateSource)
  else
    let at_ : Nat × Nat × Str × Str × Bool :=
      match s.getTags with
      | ts :: rest =>
        let m := nearestFrom n (0, ts) 1 rest
        let off := if number m.2 < n then 1 else 0
        let f := s.tagFormat m.2 n none
        (m.1 + off, m.2.idx + off, f.1, f.2, m.2.tag.valid)
      | [] =>
        let f := s.initial n
        (0, f.1, f.2.1, f.2.2, s.lastValid)
    match s.insertTag at_.2.1 (newTag at_.2.2.1 loc at_.2.2.2.1 at_.2.2.2.2) with
    | (s', some e) => (s', .error e)
    | (s', none) => match s'.dedup at_.1 with
      | (s'', some e) => (s'', .error e)
      | (s'', none) => (s'', .ok at_.1)

/-- `remove`, sources.py:606-615 -/
def remove [Uni] (s : Sources) (loc : Str) : Res :=
  s.delItems (s.items.reverse.filter (fun x => location x == loc))

/-- `remove_numbered`, sources.py:617-630 -/
def removeNumbered [Uni] (s : Sources) (n : Nat) : Res :=
  match s.items.find? (fun x => itemNumber x == n) with
  | none => (s, none)
  | some x => s.delItem x

/-- `max((p.number for p in patches), default=-1)`, specfile.py:707 -/
def highest [Uni] (s : Sources) : Int := s.items.foldl (fun m x => max m (itemNumber x : Int)) (-1)

/-- extending the comments of a source, specfile.py:717 -/
def extendComments (s : Sources) (x : SourceItem) (texts : List Str) : Sources :=
  match x with
  | .tag ts => { s with tags := { s.tags with data := s.tags.data.modify ts.idx (fun t =>
      { t with comments := t.comments.extend texts }) } }
  | .entry _ _ k i => { s with lists := s.lists.modify k (fun l =>
      { l with data := l.data.modify i (fun e => { e with comments := e.comments.extend texts }) }) }

/-- adding a patch with a number and a comment, specfile.py:715-717 -/
def addPatchAt [Uni] (s : Sources) (n : Nat) (loc : Str) (comment : Option Str) : Res :=
  match s.insertNumbered n loc with
  | (s', .error e) => (s', some e)
  | (s', .ok i) =>
    match comment with
    | none => (s', none)
    | some c =>
      if c.isEmpty then (s', none)
      else match s'.get i with
        | .error e => (s', some e)
        | .ok x => (s'.extendComments x (splitlines c), none)

/-- the body of `Specfile.add_patch`, specfile.py:706-717 -/
def addPatch [Uni] (s : Sources) (loc : Str) (n : Option Int) (comment : Option Str) (initial : Int) : Res :=
  match n with
  | some n => if n ≤ s.highest then (s, some .sourceNumber) else s.addPatchAt n.toNat loc comment
  | none => s.addPatchAt (max (s.highest + 1) initial).toNat loc comment

end Sources
end Specfile
