import Verif.Model.ValueParser
import Verif.Py.Num
import Verif.Regex.Core
/-
Model of the static methods of `Specfile` that deal with releases and with %autorelease and
%autochangelog, /repo/specfile/specfile.py.
-/
namespace Specfile.Release
open Py Regex

/-- the expression of `_split_raw_release`, specfile.py:635; groups: 1 dist, 2 `m`, 4 minorbump -/
def distRe [Uni] : Re Nat :=
  .grp 1 (ch '%' ⬝ opt (.grp 2 (ch '{' ⬝ opt (ch '?'))) ⬝ lit (s% "dist") ⬝ .ifgrp 2 (ch '}') .eps) ⬝
  opt (.grp 3 (ch '.' ⬝ .grp 4 (plus Uni.isDecimal))) ⬝ .eos

/-- `_split_raw_release`, specfile.py:622-639. `re.split` splits at every match; at most a newline
can follow a match because of `$`, so there is no second match and the text after the match is the
last token, which line 638 ignores. -/
def splitRaw [Uni] (raw : Str) : Str × Option Str × Option Nat :=
  match search distRe raw with
  | none => (raw, none, none)
  | some f => (f.before, f.st.get 1, (f.st.get 4).map decVal)

/-- `_get_updated_release`, specfile.py:641-655 -/
def updated [Uni] (raw release : Str) : Str := release ++ ((splitRaw raw).2.1).getD []

/-- the first expression of `_bump_release_string`, specfile.py:1004-1007; groups: 1 `func`, 2 `pre`,
3 `rel`, 4 `post` -/
def bumpRe [Uni] : Re Nat :=
  .bos ⬝ opt (.grp 1 (lit (s% "%release_func") ⬝ plus isSpace)) ⬝ opt (.grp 2 (lit (s% "0."))) ⬝
  .grp 3 (plus Uni.isDecimal) ⬝ .grp 4 (star dot) ⬝ .eos

/-- the second expression, specfile.py:1018; groups: 1 `pre`, 2 `rel` -/
def lastRe [Uni] : Re Nat :=
  .bos ⬝ .grp 1 (plus dot ⬝ ch '.') ⬝ .grp 2 (plus Uni.isDecimal) ⬝ .eos

/-- `x in s` for strings, specfile.py:1010 -/
def contains (x : Str) : Str → Bool
  | [] => x.isEmpty
  | c :: s => x.isPrefixOf (c :: s) || contains x s

/-- the condition on the first match, specfile.py:1008-1011 -/
def bumpsFirst (st : St Nat) : Bool :=
  !((st.get 2).getD []).isEmpty ||
    [s% "alpha", s% "beta", s% "rc"].all (fun x => !contains x ((st.get 4).getD []))

/-- specfile.py:1018-1021 -/
def bumpLast [Uni] (s : Str) : Str :=
  match rmatch lastRe s with
  | some st => (st.get 1).getD [] ++ natStr (decVal ((st.get 2).getD []) + 1)
  | none => s ++ s% ".1"

/-- `_bump_release_string`, specfile.py:993-1021 -/
def bump [Uni] (s : Str) : Str :=
  match rmatch bumpRe s with
  | some st =>
    if bumpsFirst st then
      (st.get 1).getD [] ++ ((st.get 2).getD [] ++
        (natStr (decVal ((st.get 3).getD []) + 1) ++ (st.get 4).getD []))
    else bumpLast s
  | none => bumpLast s

/-- the test for a macro, specfile.py:433-436, 457-460 -/
def isMacro (name : Str) : Node → Bool
  | .sub _ n => n == name
  | .encl _ n _ => n == name
  | _ => false

/-- `has_autorelease`, specfile.py:429-438, for the given raw release -/
def hasAutorelease [Uni] (rawRelease : Str) : Except Err Bool :=
  match ValueParser.parse rawRelease with
  | .error e => .error e
  | .ok ns => .ok ((ValueParser.flatten ns).any (isMacro (s% "autorelease")))

/-- `contains_autochangelog`, specfile.py:440-465. Only the exception for unterminated macros is
caught. -/
def containsAutochangelog [Uni] : List Str → Except Err Bool
  | [] => .ok false
  | l :: ls =>
    if startsWith (lstrip l) ['#'] then containsAutochangelog ls
    else match ValueParser.parse l with
      | .error .unterminatedMacro => containsAutochangelog ls
      | .error e => .error e
      | .ok ns =>
        if (ValueParser.flatten ns).any (isMacro (s% "autochangelog")) then .ok true
        else containsAutochangelog ls

end Specfile.Release
