import Verif.Model.Sources
import Verif.Model.Equality
/-
The methods that `Sources` inherits from `collections.abc.MutableSequence`, apart from `append` (Model/Sources); `reverse`
is not modelled, as it assigns sources where `__setitem__` takes locations.
-/
namespace Specfile.Sources
open Py

/-- `extend` and `+=` with a list of locations, inherited; sources.py:237 -/
def extend [Uni] (s : Sources) : List Str → Res
  | [] => (s, none)
  | loc :: locs =>
    match s.append loc with
    | (s', some e) => (s', some e)
    | (s', none) => extend s' locs

/-- `pop`, inherited: the source is read, then deleted; sources.py:237 -/
def pop [Uni] (s : Sources) (i : Int) : Sources × Except Err SourceItem :=
  match s.get i with
  | .error e => (s, .error e)
  | .ok x => match s.del i with
    | (s', some e) => (s', .error e)
    | (s', none) => (s', .ok x)

/-- the loop of `clear`, inherited: `pop()` until it raises `IndexError`; the fuel is one more than the number of sources;
sources.py:237 -/
def clearLoop [Uni] : Nat → Sources → Res
  | 0, s => (s, some .outOfFuel)
  | n + 1, s =>
    match s.pop (-1) with
    | (s', .error .indexError) => (s', none)
    | (s', .error e) => (s', some e)
    | (s', .ok _) => clearLoop n s'

/-- `clear`, inherited; sources.py:237 -/
def clear [Uni] (s : Sources) : Res := s.clearLoop (s.len + 1)

/-- `TagSource.__eq__` and `ListSource.__eq__`, sources.py:89-92 and 186-189 -/
def itemEq : SourceItem → SourceItem → Bool
  | .tag a, .tag b => Tags.eqv a.tag b.tag && a.implicit == b.implicit
  | .entry e n _ _, .entry f m _ _ => Equality.sourcelistEntryEq e f && n == m
  | _, _ => false

/-- a source compared to a text: `NotImplemented` on both sides, so different; sources.py:90-91 and 187-188 -/
def itemEqText (_ : SourceItem) (_ : Str) : Bool := false

/-- the loop of `index`, inherited: sources are read one by one until there is none; the fuel is one more than the number
of sources; sources.py:237 -/
def indexLoop [Uni] (s : Sources) (same : SourceItem → Bool) : Nat → Nat → Except Err Nat
  | 0, _ => .error .outOfFuel
  | n + 1, i =>
    match s.get i with
    | .error .indexError => .error .valueError
    | .error e => .error e
    | .ok x => if same x then .ok i else indexLoop s same n (i + 1)

/-- `index` of a source, inherited; sources.py:237 -/
def indexItem [Uni] (s : Sources) (x : SourceItem) : Except Err Nat := s.indexLoop (fun y => itemEq y x) (s.len + 1) 0

/-- `index` of a location, inherited; sources.py:237. `__contains__`, `count` and `remove` take locations. -/
def indexText [Uni] (s : Sources) (loc : Str) : Except Err Nat := s.indexLoop (fun y => itemEqText y loc) (s.len + 1) 0

/-- `Sources.__eq__`, sources.py:271-282: `Patches` is a subclass (sources.py:660) and does not override it, and whether
these are sources or patches is not compared -/
def sourcesEq (a b : Sources) : Bool :=
  Equality.tagsEq a.tags b.tags && Equality.listEq Equality.sourcelistEq a.lists b.lists &&
  a.allowDuplicates == b.allowDuplicates && a.implicitDefault == b.implicitDefault && a.digits == b.digits

end Specfile.Sources
