import Verif.Spec.Tags
import Verif.Spec.Prep
import Verif.Spec.Sources
/-
Specification for C100: when an edit can be undone.
-/
namespace Specfile.Spec
open Py

/-- Where a new tag goes, there are two empty lines: at the beginning of these lines, or after the first line with `%endif` if
there is one. -/
def BlankPair (lines : List Str) : Prop :=
  ((∀ l ∈ lines, ¬ s% "%endif" <+: l) ∧ ∃ b, lines = [] :: [] :: b) ∨
    ∃ a e b, lines = a ++ e :: [] :: [] :: b ∧ s% "%endif" <+: e ∧ ∀ l ∈ a, ¬ s% "%endif" <+: l

/-- the first macro is not a `%patch` with a greater number -/
def FirstBelow [Uni] (p : Prep) (n : Int) : Prop :=
  ∃ x rest, p.data = x :: rest ∧ (x.kind = .patch → ∃ y, HasNumber x y ∧ y ≤ n)

/-- Where the first source or patch goes: after the last tag, but a patch goes after the last source if there is one. -/
def FirstPlace [Uni] (patches : Bool) (ts : List Tag) (k : Nat) : Prop :=
  ((patches = false ∨ ∀ t ∈ ts, sourceLike t = false) ∧ k = ts.length) ∨
    (patches = true ∧ ∃ a t b, ts = a ++ t :: b ∧ sourceLike t = true ∧ (∀ u ∈ b, sourceLike u = false) ∧ k = a.length + 1)

end Specfile.Spec
