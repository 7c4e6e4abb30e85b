import Verif.Spec.ListMethods
import Verif.Model.Slices
/-
Vocabulary for slices, sums and products of containers.
-/
namespace Specfile.Spec
open Py Slices

/-- where a bound of a slice points to among `n` elements when counting upwards: negative bounds count from the end,
bounds out of range stand for the nearest end -/
def BoundUp (n : Nat) (missing : Nat) : Option Int → Nat → Prop
  | none, k => k = missing
  | some b, k => InsertsAt n b k

/-- the same when counting downwards: from the last position to the one before the first -/
def BoundDown (n : Nat) (missing : Int) : Option Int → Int → Prop
  | none, k => k = missing
  | some b, k => (0 ≤ b ∧ b < n ∧ k = b) ∨ ((n : Int) ≤ b ∧ k = (n : Int) - 1) ∨ (b < 0 ∧ 0 ≤ b + n ∧ k = b + n) ∨ (b + n < 0 ∧ k = -1)

/-- the positions that a slice denotes, in their order, as the documentation of Python has it -/
def Denotes (n : Nat) (start stop step : Option Int) (ks : List Nat) : Prop :=
  (0 < step.getD 1 ∧ ks.Pairwise (· < ·) ∧ ∃ lo hi, BoundUp n 0 start lo ∧ BoundUp n n stop hi ∧
    ∀ k, k ∈ ks ↔ lo ≤ k ∧ k < hi ∧ (step.getD 1).toNat ∣ k - lo) ∨
  (step.getD 1 < 0 ∧ ks.Pairwise (· > ·) ∧ ∃ lo hi, BoundDown n ((n : Int) - 1) start hi ∧ BoundDown n (-1) stop lo ∧
    ∀ k : Nat, k ∈ ks ↔ lo < k ∧ (k : Int) ≤ hi ∧ (step.getD 1) ∣ hi - k)

/-- `m` has the elements of `l` at the positions `ks` -/
def ElementsAt {α : Type} (l : List α) (ks : List Nat) (m : List α) : Prop :=
  m.length = ks.length ∧ ∀ (j k : Nat), ks[j]? = some k → ∃ x, l[k]? = some x ∧ m[j]? = some x

/-- containers made from elements have no lines above or below them; slices have those of the whole container -/
structure BuiltFrom {C α : Type} [Buildable C α] (L : Layout C α) : Prop where
  elements : ∀ l, L.elements (Buildable.make l : C) = l
  above : ∀ l, L.above (Buildable.make l : C) = []
  below : ∀ l, L.below (Buildable.make l : C) = []
  slice : ∀ (c : C) l, L.elements (Buildable.sliced c l) = l
  kept : ∀ (c : C) l, RestKept L c (Buildable.sliced c l)

/-- a comment `y` has become `z` after the assignment of an item: a text leaves the prefix as it is -/
def BecomesBy : Item → Comment → Comment → Prop
  | .text t, y, z => z.text = t ∧ z.pfx = y.pfx
  | .comment d, _, z => z = d

/-- the comments at the positions have become what the items say -/
def AssignedAt (ks : List Nat) (xs : List Item) (old new : List Comment) : Prop :=
  ∀ (j k : Nat) (x : Item), ks[j]? = some k → xs[j]? = some x → ∃ y z, old[k]? = some y ∧ new[k]? = some z ∧ BecomesBy x y z

end Specfile.Spec
