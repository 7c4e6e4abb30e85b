import Verif.Py.Num
import Verif.Model.ValueParser
import Verif.Spec.Tags
/-
What the parts of a release are, and how a release is bumped, without regular expressions.
-/
namespace Specfile.Spec
open Py

/-- the ways to write the dist tag at the end of a release -/
def distForms : List Str := [s% "%dist", s% "%{dist}", s% "%{?dist}"]

/-- a non-empty run of decimal digits -/
def Digits [Uni] (s : Str) : Prop := s ≠ [] ∧ s.all Uni.isDecimal = true

/-- the text of an optional minor bump -/
def minorText : Option Str → Str
  | none => []
  | some ds => '.' :: ds

/-- a value may end in a line feed -/
def finalNewline : List Str := [[], ['\n']]

/-- `raw` is the release `r`, the dist tag `d` and an optional minor bump -/
def DistRelease [Uni] (raw r d : Str) (minor : Option Str) : Prop :=
  d ∈ distForms ∧ (∀ ds ∈ minor, Digits ds) ∧
    ∃ nl ∈ finalNewline, raw = r ++ (d ++ (minorText minor ++ nl))

/-- `raw` ends in a dist tag, possibly with a minor bump -/
def HasDist [Uni] (raw : Str) : Prop := ∃ r d minor, DistRelease raw r d minor

/-- an optional `%release_func` with whitespace behind it -/
def ReleaseFunc (f : Str) : Prop :=
  f = [] ∨ ∃ w, f = s% "%release_func" ++ w ∧ w ≠ [] ∧ w.all isSpace = true

/-- `s` starts with a number `ds`, possibly behind `%release_func` and `0.`; the number is as long as
possible, and `0.` is not part of the number when it can be put in front of it -/
structure Leading [Uni] (s f p ds post : Str) : Prop where
  text : ∃ nl ∈ finalNewline, s = f ++ (p ++ (ds ++ (post ++ nl)))
  func : ReleaseFunc f
  pre : p = [] ∨ p = s% "0."
  digits : Digits ds
  whole : ∀ c ∈ post.head?, Uni.isDecimal c = false
  pre_first : p = [] → ¬ ∃ c t, ds ++ post = '0' :: '.' :: c :: t ∧ Uni.isDecimal c = true
  line : '\n' ∉ post

/-- words that mark a pre-release -/
def prereleaseWords : List Str := [s% "alpha", s% "beta", s% "rc"]

/-- the leading number may be bumped -/
def MayBumpLeading (p post : Str) : Prop := p = s% "0." ∨ ∀ x ∈ prereleaseWords, ¬ x <:+: post

/-- `s` ends in a dot and a number -/
def Trailing [Uni] (s a ds : Str) : Prop :=
  a ≠ [] ∧ '\n' ∉ a ∧ Digits ds ∧ ∃ nl ∈ finalNewline, s = a ++ '.' :: (ds ++ nl)

/-- the result of bumping a release: the leading number is bumped, except in a pre-release, where the
trailing number is bumped; if there is no number to bump, `.1` is appended -/
inductive Bumped [Uni] (s : Str) : Str → Prop where
  | leading {f p ds post} (h : Leading s f p ds post) (hb : MayBumpLeading p post) :
    Bumped s (f ++ (p ++ (natStr (decVal ds + 1) ++ post)))
  | trailing {a ds} (hn : ∀ f p ds post, Leading s f p ds post → ¬ MayBumpLeading p post)
    (h : Trailing s a ds) : Bumped s (a ++ '.' :: natStr (decVal ds + 1))
  | append (hn : ∀ f p ds post, Leading s f p ds post → ¬ MayBumpLeading p post)
    (ht : ∀ a ds, ¬ Trailing s a ds) : Bumped s (s ++ s% ".1")

/-- a node refers to the macro, directly or in the body of a conditional expansion at any depth -/
inductive Refers (name : Str) : Node → Prop where
  | bare (pfx : Str) : Refers name (.sub pfx name)
  | enclosed (pfx : Str) (args : List Str) : Refers name (.encl pfx name args)
  | inside (pfx cond : Str) {body : List Node} {n : Node} (hn : n ∈ body) (h : Refers name n) :
    Refers name (.cond pfx cond body)

/-- the line is not a comment and can be parsed into nodes one of which refers to the macro -/
def SeenIn [Uni] (name l : Str) : Prop :=
  ¬ CommentLine l ∧ ∃ ns, ValueParser.parse l = .ok ns ∧ ∃ n ∈ ns, Refers name n

/-- the line stops the scan with an error -/
def Breaks [Uni] (l : Str) (e : Err) : Prop :=
  ¬ CommentLine l ∧ ValueParser.parse l = .error e ∧ e ≠ .unterminatedMacro

end Specfile.Spec
