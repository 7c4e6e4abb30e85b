import Verif.Model.Lifecycle
/-
Vocabulary for the statements about the life of a `Specfile` object: properties of programs that can be read off
their text.
-/
namespace Specfile.Spec
open Py Lifecycle

variable {P : Type} {A : Views}

/-- every statement of the program satisfies the condition, of a block only the kind matters -/
def Everywhere (f : Prog P A → Prop) : Prog P A → Prop
  | .seq p q => Everywhere f p ∧ Everywhere f q
  | .handle p q => Everywhere f p ∧ Everywhere f q
  | .withLines p => f (.withLines .skip) ∧ Everywhere f p
  | .withView v p => f (.withView v .skip) ∧ Everywhere f p
  | .withSpec p => f (.withSpec .skip) ∧ Everywhere f p
  | p => f p

/-- no statement makes `q` the path of the spec file or writes it from outside -/
def Spares (q : P) : Prog P A → Prop :=
  Everywhere (fun | .setPath r => r ≠ q | .foreign r _ => r ≠ q | _ => True)

/-- nothing asks for saving, and no file is written from outside -/
def NeverSaves : Prog P A → Prop :=
  Everywhere (fun | .save => False | .withSpec _ => False | .setAutosave b => b = false | .foreign _ _ => False | _ => True)

def NoReload : Prog P A → Prop := Everywhere (fun | .reload => False | _ => True)

/-- autosave stays on and `q` stays the path; nothing else writes the file, and it is not loaded again -/
def Steady (q : P) : Prog P A → Prop :=
  Everywhere (fun | .setPath r => r = q | .foreign r _ => r ≠ q | .setAutosave b => b = true | .reload => False | _ => True)

/-- only the lines are edited, and they are not loaded again -/
def LinesOnly : Prog P A → Prop :=
  Everywhere (fun | .reload => False | .withView _ _ => False | .editView _ _ => False | _ => True)

/-- what a program that edits lines makes of the lines, and the exception that leaves it, if saving never fails. Lines are
edited in `lines()` blocks only; a block inside of a block swallows `KeyError`. -/
def does : Prog P A → Bool → List Str → List Str × Option Err
  | .seq p q, b, ls =>
    match does p b ls with
    | (ls, none) => does q b ls
    | r => r
  | .handle p q, b, ls =>
    match does p b ls with
    | (ls, some _) => does q b ls
    | r => r
  | .raise e, _, ls => (ls, some e)
  | .editLines u, b, ls => (if b then u ls else ls, none)
  | .withLines p, b, ls =>
    ((does p true ls).1, if b ∧ (does p true ls).2 = some .keyError then none else (does p true ls).2)
  | .withSpec p, b, ls => does p b ls
  | _, _, ls => (ls, none)

/-- no block is open -/
def Shut (s : State P A) : Prop := s.opened = none ∧ ∀ v, s.views v = none

end Specfile.Spec
