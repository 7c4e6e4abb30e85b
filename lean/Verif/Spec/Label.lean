import Verif.Py.Str
import Verif.Model.Utils
/-
What well-formed EVR/NEVR/NEVRA components are, and what a label comparison is expected to be.
Only the record types of the model are used.
-/
namespace Specfile.Spec
open Py

/-- text of the form `digits:something` -/
def LooksLikeEpoch [Uni] (v : Str) : Prop :=
  ∃ d w, v = d ++ ':' :: w ∧ d ≠ [] ∧ (∀ c ∈ d, Uni.isDecimal c = true) ∧ w ≠ []

/-- epoch, version and release that can be told apart in a label -/
structure GoodLabel [Uni] (e : Int) (v r : Str) : Prop where
  epoch : 0 ≤ e
  version : v ≠ []
  versionDash : '-' ∉ v
  versionNl : '\n' ∉ v
  releaseDash : '-' ∉ r
  releaseNl : '\n' ∉ r
  /-- without an explicit epoch the version must not look like one -/
  noEpoch : e = 0 → ¬ LooksLikeEpoch v

/-- a name that can be told apart from the label following it: it may contain dashes if there is
a release -/
structure GoodName (n r : Str) : Prop where
  nonempty : n ≠ []
  nl : '\n' ∉ n
  dash : r ≠ [] ∨ '-' ∉ n

/-- `rpm.labelCompare` is a total preorder given by signs -/
structure LabelOrder (lc : Utils.Label → Utils.Label → Int) : Prop where
  refl : ∀ a, lc a a = 0
  swap : ∀ a b, lc a b < 0 ↔ lc b a > 0
  trans : ∀ a b c, lc a b ≤ 0 → lc b c ≤ 0 → lc a c ≤ 0

/-- the version RPM compares -/
def shownVersion : Str → Str
  | [] => ['0']
  | v => v

end Specfile.Spec
