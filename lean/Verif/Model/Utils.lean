import Verif.Py.Err
import Verif.Regex.Core
import Verif.Model.Constants
import Verif.Model.ValueParser
/-
Model of /repo/specfile/utils.py.
-/
namespace Specfile
open Py Regex

/-- `EVR`, utils.py:17-25 -/
structure EVR where
  epoch : Int
  version : Str
  release : Str
  deriving DecidableEq, Repr

/-- `NEVR`, utils.py:87-96 -/
structure NEVR where
  name : Str
  evr : EVR
  deriving DecidableEq, Repr

/-- `NEVRA`, utils.py:161-173. `from_string` (line 242) passes the regex group of the release
unchanged, so the attribute can be `None`. -/
structure NEVRA where
  name : Str
  epoch : Int
  version : Str
  release : Option Str
  arch : Str
  deriving DecidableEq, Repr

namespace Utils

/-- `[^-]`, utils.py:20 -/
def notDash (c : Char) : Bool := c != '-'

/-- `EVR._regex`, utils.py:20: `(?:(\d+):)?([^-]+?)(?:-([^-]+))?`; groups 1, 2, 3 -/
def evrRe [Uni] : Re Nat :=
  opt (.grp 1 (plus Uni.isDecimal) ⬝ ch ':') ⬝ .grp 2 (plusL notDash) ⬝
    opt (ch '-' ⬝ .grp 3 (plus notDash))

/-- `int(e) if e else 0`, utils.py:84, 158, 242 -/
def epochOf [Uni] (e : Option Str) : Int :=
  match e with
  | none => 0
  | some e => if e.isEmpty then 0 else decVal e

/-- `EVR.from_string`, utils.py:78-84 -/
def evrFromString [Uni] (s : Str) : Except Err EVR :=
  match rmatch (.bos ⬝ evrRe ⬝ .eos) s with
  | none => .error .specfileException
  | some t => .ok ⟨epochOf (t.get 1), (t.get 2).getD [], (t.get 3).getD []⟩

/-- `EVR.__str__`, utils.py:73-76, on the components -/
def evrStr (epoch : Int) (version : Str) (release : Str) : Str :=
  (if epoch > 0 then intStr epoch ++ [':'] else []) ++ version ++
    (if release.isEmpty then [] else '-' :: release)

/-- `EVR.__str__`, utils.py:73-76 -/
def EVR.str (x : EVR) : Str := evrStr x.epoch x.version x.release

/-- `NEVR._regex`, utils.py:90: `(.+?)-` + `EVR._regex`; group 4 is the name -/
def nevrRe [Uni] : Re Nat := .grp 4 (plusL dot) ⬝ ch '-' ⬝ evrRe

/-- `NEVR.from_string`, utils.py:152-158 -/
def nevrFromString [Uni] (s : Str) : Except Err NEVR :=
  match rmatch (.bos ⬝ nevrRe ⬝ .eos) s with
  | none => .error .specfileException
  | some t => .ok ⟨(t.get 4).getD [], ⟨epochOf (t.get 1), (t.get 2).getD [], (t.get 3).getD []⟩⟩

/-- `NEVR.__str__`, utils.py:149-150 -/
def NEVR.str (x : NEVR) : Str := x.name ++ '-' :: EVR.str x.evr

/-- `NEVRA._arches_regex`, utils.py:164; the set is iterated in an unspecified order, so the list
is a parameter. Architecture names contain no special characters, `re.escape` changes nothing that
matters. Group 5. -/
def archRe (arches : List Str) : Re Nat := .grp 5 (arches.foldr (fun a r => lit a ∣∣ r) .fail)

/-- `NEVRA._regex`, utils.py:165 -/
def nevraRe [Uni] (arches : List Str) : Re Nat := nevrRe ⬝ ch '.' ⬝ archRe arches

/-- `ARCH_NAMES | {"noarch"}`, utils.py:164 -/
def allArches : List Str := s% "noarch" :: Constants.archNames

/-- `NEVRA.__init__`, utils.py:167-173 -/
def nevraInit (arches : List Str) (x : NEVRA) : Except Err NEVRA :=
  match rmatch (.bos ⬝ archRe arches ⬝ .eos) x.arch with
  | none => .error .specfileException
  | some _ => .ok x

/-- `NEVRA.from_string`, utils.py:236-242 -/
def nevraFromString [Uni] (arches : List Str) (s : Str) : Except Err NEVRA :=
  match rmatch (.bos ⬝ nevraRe arches ⬝ .eos) s with
  | none => .error .specfileException
  | some t => nevraInit arches
      ⟨(t.get 4).getD [], epochOf (t.get 1), (t.get 2).getD [], t.get 3, (t.get 5).getD []⟩

/-- `NEVRA.__str__`, utils.py:233-234 -/
def NEVRA.str (x : NEVRA) : Str :=
  x.name ++ '-' :: evrStr x.epoch x.version (x.release.getD []) ++ '.' :: x.arch

/-! ### comparison, utils.py:27-67, 98-140, 175-223 -/

/-- the triple passed to `rpm.labelCompare`, utils.py:33-37 -/
abbrev Label := Str × Str × Str

/-- `EVR._rpm_evr_tuple`, utils.py:33-34 -/
def EVR.label (x : EVR) : Label :=
  (intStr x.epoch, if x.version.isEmpty then s% "0" else x.version, x.release)

/-- `EVR._cmp`, utils.py:36-37; `lc` is `rpm.labelCompare` -/
def EVR.cmp (lc : Label → Label → Int) (x y : EVR) : Int := lc (EVR.label x) (EVR.label y)

/-- `EVR._key`, utils.py:27-28 -/
def EVR.key (x : EVR) : Int × Str × Str := (x.epoch, x.version, x.release)

/-- utils.py:39-42 -/
def EVR.lt (lc : Label → Label → Int) (x y : EVR) : Bool := EVR.cmp lc x y < 0
/-- utils.py:44-47 -/
def EVR.le (lc : Label → Label → Int) (x y : EVR) : Bool := EVR.cmp lc x y ≤ 0
/-- utils.py:49-52 -/
def EVR.eq (lc : Label → Label → Int) (x y : EVR) : Bool := EVR.cmp lc x y = 0
/-- utils.py:54-57 -/
def EVR.ne (lc : Label → Label → Int) (x y : EVR) : Bool := EVR.cmp lc x y ≠ 0
/-- utils.py:59-62 -/
def EVR.ge (lc : Label → Label → Int) (x y : EVR) : Bool := EVR.cmp lc x y ≥ 0
/-- utils.py:64-67 -/
def EVR.gt (lc : Label → Label → Int) (x y : EVR) : Bool := EVR.cmp lc x y > 0

/-- `NEVR.__lt__` etc., utils.py:104-140: `none` stands for `NotImplemented` (different names) -/
def NEVR.lt (lc : Label → Label → Int) (x y : NEVR) : Option Bool :=
  if x.name ≠ y.name then none else some (EVR.lt lc x.evr y.evr)
/-- utils.py:111-116 -/
def NEVR.le (lc : Label → Label → Int) (x y : NEVR) : Option Bool :=
  if x.name ≠ y.name then none else some (EVR.le lc x.evr y.evr)
/-- utils.py:128-133 -/
def NEVR.ge (lc : Label → Label → Int) (x y : NEVR) : Option Bool :=
  if x.name ≠ y.name then none else some (EVR.ge lc x.evr y.evr)
/-- utils.py:135-140 -/
def NEVR.gt (lc : Label → Label → Int) (x y : NEVR) : Option Bool :=
  if x.name ≠ y.name then none else some (EVR.gt lc x.evr y.evr)
/-- utils.py:118-121 -/
def NEVR.eq (lc : Label → Label → Int) (x y : NEVR) : Bool :=
  x.name == y.name && EVR.eq lc x.evr y.evr
/-- utils.py:123-126 -/
def NEVR.ne (lc : Label → Label → Int) (x y : NEVR) : Bool :=
  x.name != y.name || EVR.ne lc x.evr y.evr

/-- the `EVR` part of a `NEVRA`; a missing release would make `rpm.labelCompare` treat it as absent,
which the model reads as the empty string; utils.py:173 and 242 -/
def NEVRA.evr (x : NEVRA) : EVR := ⟨x.epoch, x.version, x.release.getD []⟩

/-- `NEVRA.__lt__` etc., utils.py:181-223 -/
def NEVRA.comparable (x y : NEVRA) : Bool := !(x.name != y.name || x.arch != y.arch)
/-- utils.py:181-186 -/
def NEVRA.lt (lc : Label → Label → Int) (x y : NEVRA) : Option Bool :=
  if NEVRA.comparable x y then some (EVR.lt lc (NEVRA.evr x) (NEVRA.evr y)) else none
/-- utils.py:188-193 -/
def NEVRA.le (lc : Label → Label → Int) (x y : NEVRA) : Option Bool :=
  if NEVRA.comparable x y then some (EVR.le lc (NEVRA.evr x) (NEVRA.evr y)) else none
/-- utils.py:211-216 -/
def NEVRA.ge (lc : Label → Label → Int) (x y : NEVRA) : Option Bool :=
  if NEVRA.comparable x y then some (EVR.ge lc (NEVRA.evr x) (NEVRA.evr y)) else none
/-- utils.py:218-223 -/
def NEVRA.gt (lc : Label → Label → Int) (x y : NEVRA) : Option Bool :=
  if NEVRA.comparable x y then some (EVR.gt lc (NEVRA.evr x) (NEVRA.evr y)) else none
/-- utils.py:195-202 -/
def NEVRA.eq (lc : Label → Label → Int) (x y : NEVRA) : Bool :=
  x.name == y.name && x.arch == y.arch && EVR.eq lc (NEVRA.evr x) (NEVRA.evr y)
/-- utils.py:204-209 -/
def NEVRA.ne (lc : Label → Label → Int) (x y : NEVRA) : Bool :=
  x.name != y.name || x.arch != y.arch || EVR.ne lc (NEVRA.evr x) (NEVRA.evr y)

/-! ### miscellaneous -/

/-- `location[location.rfind("/") + 1:]`, `none` when there is no slash; utils.py:257-260 -/
def afterLastSlash : Str → Option Str
  | [] => none
  | c :: cs =>
    match afterLastSlash cs with
    | some r => some r
    | none => if c == '/' then some cs else none

/-- `get_filename_from_location`, utils.py:245-260 -/
def filenameFromLocation (location : Str) : Str :=
  match afterLastSlash location with
  | none => location
  | some r => (splitC '=' r).getLastD []

/-- the tests of utils.py:287-298 for one ordinary character -/
def countStep (bc pc : Nat) (c : Char) : Nat × Nat :=
  if c == '{' && decide (bc > 0) then (bc + 1, pc)
  else if c == '}' && decide (bc > 0) then (bc - 1, pc)
  else if c == '(' && decide (pc > 0) then (bc, pc + 1)
  else if c == ')' && decide (pc > 0) then (bc, pc - 1)
  else (bc, pc)

/-- the loop of `count_brackets`, utils.py:275-298; a backslash or percent sign that is the last
character falls through to the ordinary tests -/
def countFrom (bc pc : Nat) : Str → Nat × Nat
  | [] => (bc, pc)
  | [c] => countStep bc pc c
  | c :: d :: cs =>
    if c == '\\' then countFrom bc pc cs
    else if c == '%' then
      if d == '{' then countFrom (bc + 1) pc cs
      else if d == '(' then countFrom bc (pc + 1) cs
      else countFrom bc pc cs
    else countFrom (countStep bc pc c).1 (countStep bc pc c).2 (d :: cs)

/-- `count_brackets`, utils.py:263-299 -/
def countBrackets (s : Str) : Nat × Nat := countFrom 0 0 s

/-- result of `split_conditional_macro_expansion`, utils.py:302-323 -/
structure Split where
  body : Str
  pfx : Str
  sfx : Str
  deriving DecidableEq, Repr

/-- `split_conditional_macro_expansion`, utils.py:302-323. Only `UnterminatedMacroException` is
caught; the `ValueError` of an empty `%{}` escapes. -/
def splitConditional [Uni] (value : Str) : Except Err Split :=
  match ValueParser.parse value with
  | .error .unterminatedMacro => .ok ⟨value, [], []⟩
  | .error e => .error e
  | .ok [.cond p n body] => .ok ⟨Node.strs body, '%' :: '{' :: (p ++ n ++ [':']), ['}']⟩
  | .ok _ => .ok ⟨value, [], []⟩

end Utils
end Specfile
