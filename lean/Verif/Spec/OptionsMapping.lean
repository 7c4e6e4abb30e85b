import Verif.Spec.Options
/-
What is said about `Options` used as a mapping and about its positional arguments used as a list.
-/
namespace Specfile.Spec
open Py Options

/-- the recognized options are the same and read the same -/
structure SameOptions [Uni] (o o' : Opts) : Prop where
  optstring : o'.optstring = o.optstring
  get : ∀ c, c ∈ o.optstring → c ≠ ':' → Options.get o' c = Options.get o c

/-- the elements at the positions that are not listed -/
def withoutAt {α : Type} (ks : List Nat) (xs : List α) : List α :=
  (xs.mapIdx (fun i x => if i ∈ ks then none else some x)).filterMap id

/-- the text can be read as a value: if it is numeric, it consists of decimal digits -/
def ReadableValue [Uni] (s : Str) : Prop := s ≠ [] → (∀ c ∈ s, Uni.isNumeric c = true) → ∀ c ∈ s, Uni.isDecimal c = true

/-- the tokens of a piece that stay when all recognized options are removed, whitespace aside -/
def Piece.kept (optstring : Str) : Piece → List Token
  | .word t => [t]
  | .flag t => match t.value with
    | '-' :: c :: _ => if c ∈ optstring ∧ c ≠ ':' then [] else [t]
    | _ => [t]
  | _ => []

/-- the positional arguments and the options that are not recognized, in their order -/
def kept (optstring : Str) (ps : List Piece) : List Token := (ps.map (Piece.kept optstring)).flatten

end Specfile.Spec
