import Verif.Spec.Operations
import Verif.Model.MacroDefinitions
/-
Specification for C101: the values after a sequence of assignments.
-/
namespace Specfile.Spec
open Py

/-- the tag or definition with this name, which is the one with this index, is given this value -/
structure Assignment where
  name : Str
  index : Nat
  value : Str

/-- the value that was assigned last, or the old one -/
def lastAssigned (as : List Assignment) (i : Nat) (old : Str) : Str :=
  match as.reverse.find? (fun a => a.index == i) with
  | some a => a.value
  | none => old

/-- the tags with the values that were assigned last -/
def tagsWith (t : Tags) (as : List Assignment) : Tags :=
  { t with data := t.data.mapIdx (fun i x => { x with value := lastAssigned as i x.value }) }

/-- the definitions with the bodies that were assigned last -/
def definitionsWith (m : MacroDefinitions) (as : List Assignment) : MacroDefinitions :=
  { m with data := m.data.mapIdx (fun i x => { x with body := lastAssigned as i x.body }) }

end Specfile.Spec
