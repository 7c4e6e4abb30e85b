import Verif.Model.Sources
import Verif.Spec.Tags
/-
What sources are, independent of the operations on them.
-/
namespace Specfile.Spec
open Py

/-- the digits at the end of a name -/
def trailingDigits [Uni] (name : Str) : Str := (name.reverse.takeWhile Uni.isDecimal).reverse

/-- A tag is a source of a kind (`Source` or `Patch`) if its capitalized name is the kind (then it has no number of
its own) or the kind followed by a digit (then its number is at the end of its name). -/
def sourceEntry [Uni] (kind : Str) (t : Tag) : Option (Option Nat) :=
  if Uni.capitalize t.name = kind then some none
  else if kind.isPrefixOf (Uni.capitalize t.name) &&
      (((Uni.capitalize t.name).drop kind.length).head?).any Uni.isDecimal then
    some (some (decVal (trailingDigits t.name)))
  else none

/-- the numbers of sources: without a number of its own, a source has the next one -/
def numberEntries : Nat → List (Option Nat) → List Nat
  | _, [] => []
  | next, none :: es => next :: numberEntries (next + 1) es
  | _, some n :: es => n :: numberEntries (n + 1) es

/-- the source tags among tags, as entries and locations -/
def sourceTags [Uni] (kind : Str) (ts : List Tag) : List (Option Nat × Str) :=
  ts.filterMap (fun t => (sourceEntry kind t).map (fun e => (e, t.value)))

/-- the numbers of the source tags -/
def tagNumbers [Uni] (kind : Str) (ts : List Tag) : List Nat :=
  numberEntries 0 ((sourceTags kind ts).map (·.1))

/-- the locations in source lists -/
def listLocations (ls : List Sourcelist) : List Str := ls.flatMap (fun l => l.data.map (·.location))

/-- all locations: those of the tags and then those in the lists -/
def allLocations [Uni] (kind : Str) (s : Sources) : List Str :=
  (sourceTags kind s.tags.data).map (·.2) ++ listLocations s.lists

/-- all numbers: in each list they go on after the last tag -/
def allNumbers [Uni] (kind : Str) (s : Sources) : List Nat :=
  let ns := tagNumbers kind s.tags.data
  ns ++ s.lists.flatMap (fun l => (List.range l.data.length).map (fun i =>
    (match ns.getLast? with
     | none => 0
     | some n => n + 1) + i))

/-- numbers that make room for `p` before them: each one is raised as far as needed -/
def makeRoom : Nat → List Nat → List Nat
  | _, [] => []
  | p, m :: ms => if m ≤ p then (p + 1) :: makeRoom (p + 1) ms else m :: makeRoom m ms

/-- inserted at a position -/
def insertAt {α : Type} (l : List α) (k : Nat) (x : α) : List α := l.take k ++ x :: l.drop k

/-- every numbered source tag has its number at the end of its name -/
def GoodNames [Uni] (kind : Str) (ts : List Tag) : Prop :=
  ∀ t ∈ ts, '\n' ∉ t.name ∧ ∀ n, sourceEntry kind t = some (some n) → trailingDigits t.name ≠ []

/-- a tag apart from the lines above its comments and, if it is a source, from its name and separator -/
def apart [Uni] (kind : Str) (t : Tag) : Tag :=
  if (sourceEntry kind t).isSome then { bare t with name := kind, sep := [] } else bare t

/-- the name of a source next to `ref`: with a number if `ref` has one, padded with zeros if the one of `ref` is -/
def newName [Uni] (kind : Str) (ref : Tag) (n : Nat) : Str :=
  let d := trailingDigits ref.name
  if Uni.capitalize ref.name = kind ∨ d = [] then kind
  else if d.head? = some '0' then kind ++ List.replicate (d.length - (natStr n).length) '0' ++ natStr n
  else kind ++ natStr n

/-- the value of a tag starts in the same column as that of `ref` if there is room for a separator; the separators
differ only at the end -/
def Aligned (ref new : Tag) : Prop :=
  (new.name.length < ref.name.length + ref.sep.length →
    new.name.length + new.sep.length = ref.name.length + ref.sep.length ∧
    (new.sep <+: ref.sep ∨ ∃ n, new.sep = ref.sep ++ List.replicate n ' ')) ∧
  (ref.name.length + ref.sep.length ≤ new.name.length → ref.sep ≠ [] → new.sep = [':'])

/-- a tag that stays as it is or gets a higher number -/
def Renumbered [Uni] (kind : Str) (t t' : Tag) : Prop :=
  bare t' = bare t ∨
  ∃ n m, sourceEntry kind t = some (some n) ∧ n < m ∧ t'.name = newName kind t m ∧ Aligned t t' ∧
    apart kind t' = apart kind t

/-- a number padded with zeros -/
def padded (digits n : Nat) : Str := List.replicate (digits - (natStr n).length) '0' ++ natStr n

/-- a tag whose name starts with `Source` -/
def sourceLike [Uni] (t : Tag) : Bool := (s% "Source").isPrefixOf (Uni.capitalize t.name)

/-- A new source tag between `a` and `b`, with the number `n` if it is numbered: like its neighbour `ref` if there are
sources, otherwise as configured and at the end of the tags, or, for a patch, after the last source. -/
structure NewTag [Uni] (kind : Str) (s : Sources) (a b : List Tag) (n : Nat) (new : Tag) : Prop where
  plain : new.comments.data = [] ∧ new.pfx = [] ∧ new.sfx = []
  near : sourceTags kind s.tags.data ≠ [] → ∃ ref, (b.head? = some ref ∨ a.getLast? = some ref) ∧
    (sourceEntry kind ref).isSome ∧ ('\n' ∉ ref.name → new.name = newName kind ref n) ∧ Aligned ref new ∧
    new.valid = ref.valid
  first : sourceTags kind s.tags.data = [] →
    new.name = (if s.implicitDefault = true ∨ s.digits = 0 then kind else kind ++ padded s.digits n) ∧
    new.valid = ((s.tags.data.getLast?).map (·.valid)).getD true ∧
    if s.patches && s.tags.data.any sourceLike then
      ∃ ref, a.getLast? = some ref ∧ sourceLike ref = true ∧ b.any sourceLike = false ∧ Aligned ref new
    else b = [] ∧ new.sep = s% ": "

/-- the difference of two numbers -/
def difference (a b : Nat) : Nat := (a - b) + (b - a)

/-- A source can be given the number `n`: of the sources with the nearest number each has its number in its name, or
there are no source tags and sources are to be numbered. -/
def Numberable [Uni] (kind : Str) (s : Sources) (n : Nat) : Prop :=
  (sourceTags kind s.tags.data = [] → s.implicitDefault = false ∧ s.digits ≠ 0) ∧
  ∀ (k m : Nat) (loc : Str), (sourceTags kind s.tags.data)[k]? = some (none, loc) →
    (tagNumbers kind s.tags.data)[k]? = some m →
    ∃ m' ∈ tagNumbers kind s.tags.data, difference m' n < difference m n

/-- the numbers of the source tags increase strictly -/
def Increasing [Uni] (kind : Str) (ts : List Tag) : Prop := (tagNumbers kind ts).Pairwise (· < ·)

/-- One source with the location is added, nothing else changes (apart from the lines above comments, and the names and
separators of other sources, see `Renumbered`): a tag next to which there is a source tag or nothing, or a plain entry
of a list that is valid if the entry before it is (or the last one of the list, if there is none). -/
inductive OneMore [Uni] (kind : Str) (s s' : Sources) (loc : Str) : Prop
  | tag (a b : List Tag) (new : Tag) : s.tags.data = a ++ b → new.value = loc → (sourceEntry kind new).isSome →
      s'.tags.data.map (apart kind) = (a ++ new :: b).map (apart kind) →
      s' = { s with tags := s'.tags } → OneMore kind s s' loc
  | entry (la lb : List Sourcelist) (l : Sourcelist) (a b : List SourcelistEntry) (v : Bool) :
      s.lists = la ++ l :: lb → l.data = a ++ b → v = (((b ++ a).getLast?).map (·.valid)).getD true →
      s' = { s with lists := la ++ { l with data := a ++ ⟨loc, ⟨[], []⟩, v⟩ :: b } :: lb } → OneMore kind s s' loc

/-- operations on sources -/
inductive SourceOp where
  | insert (i : Int) (loc : Str)
  | append (loc : Str)
  | insertNumbered (n : Nat) (loc : Str)
  | addPatch (loc : Str) (n : Option Int) (comment : Option Str) (initial : Int)
  | remove (loc : Str)
  | removeNumbered (n : Nat)
  | del (i : Int)
  | delSlice (start stop step : Option Int)

/-- the sources after an operation, whether it raises or not -/
def SourceOp.run [Uni] (s : Sources) : SourceOp → Sources
  | .insert i loc => (s.insert i loc).1
  | .append loc => (s.append loc).1
  | .insertNumbered n loc => (s.insertNumbered n loc).1
  | .addPatch loc n c i => (s.addPatch loc n c i).1
  | .remove loc => (s.remove loc).1
  | .removeNumbered n => (s.removeNumbered n).1
  | .del i => (s.del i).1
  | .delSlice a b c => (s.delSlice a b c).1

/-- the sources after operations -/
def SourceOp.runAll [Uni] (s : Sources) : List SourceOp → Sources
  | [] => s
  | op :: ops => SourceOp.runAll (op.run s) ops

/-- not an insertion at a negative index -/
def SourceOp.Forward : SourceOp → Prop
  | .insert i _ => 0 ≤ i
  | _ => True

/-- the last source tag has its number in its name, or there is none and sources are to be numbered -/
def LastNumbered [Uni] (kind : Str) (s : Sources) : Prop :=
  match (sourceTags kind s.tags.data).getLast? with
  | none => s.implicitDefault = false ∧ s.digits ≠ 0
  | some e => e.1 ≠ none

/-- the lines of a comment, as they are written above a tag -/
def commentLines (comment : Option Str) : List Comment :=
  match comment with
  | none => []
  | some c => (splitlines c).map (fun l => ⟨l, s% "# "⟩)

/-- some entries are taken from source lists, nothing else changes -/
inductive ListsShrunk : List Sourcelist → List Sourcelist → Prop
  | nil : ListsShrunk [] []
  | cons {l : Sourcelist} {d : List SourcelistEntry} {ls ls' : List Sourcelist} : d.Sublist l.data → ListsShrunk ls ls' →
      ListsShrunk (l :: ls) ({ l with data := d } :: ls')

/-- Some sources are taken away, nothing else changes (apart from the lines above comments). -/
structure Shrunk [Uni] (kind : Str) (s s' : Sources) : Prop where
  tags : (s'.tags.data.map bare).Sublist (s.tags.data.map bare)
  others : (s'.tags.data.filter (fun t => (sourceEntry kind t).isNone)).map bare =
    (s.tags.data.filter (fun t => (sourceEntry kind t).isNone)).map bare
  lists : ListsShrunk s.lists s'.lists
  same : s' = { s with tags := s'.tags, lists := s'.lists }

end Specfile.Spec
