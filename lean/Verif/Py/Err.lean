/-
Exceptions as values.
-/
namespace Py

/-- Exceptions the modelled code can raise (Python built-ins and `specfile.exceptions`). -/
inductive Err where
  | valueError | indexError | typeError | keyError | attributeError | stopIteration | osError
  | unterminatedMacro | optionsException | rpmException | macroRemoval | duplicateSource
  | specfileException | unicodeError | sourceNumber | runtimeError | keyboardInterrupt | regexError
  /-- artefact of the model only: a fuel-bounded loop ran out of fuel; theorems show it never
  happens -/
  | outOfFuel
  deriving DecidableEq, Repr

deriving instance DecidableEq for Except

end Py
