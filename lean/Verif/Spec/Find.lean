import Verif.Py.Str
/-
Vocabulary for statements about lookup.
-/
namespace Specfile.Spec

/-- the item with index `k` satisfies `p` and is valid (`v`), and no earlier one is both; or no item is
both, and it is the first that satisfies `p` -/
def Best {α : Type} (p v : α → Prop) (l : List α) (k : Nat) : Prop :=
  ∃ d, l[k]? = some d ∧ p d ∧
    ((v d ∧ ∀ (j : Nat) x, j < k → l[j]? = some x → p x → ¬ v x) ∨
     ((∀ x ∈ l, p x → ¬ v x) ∧ ∀ (j : Nat) x, j < k → l[j]? = some x → ¬ p x))

end Specfile.Spec
