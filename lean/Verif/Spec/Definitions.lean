import Verif.Spec.Brackets
/-
Spec files in which `macro_definitions()` finds nothing it would rewrite.
-/
namespace Specfile.Spec
open Py

/-- the line contains `%global` or `%define` -/
def MentionsDefinition (l : Str) : Prop := s% "%global" <:+: l ∨ s% "%define" <:+: l

/-- Lines of a spec file without the three constructs that are not reproduced. -/
structure CleanLines (lines : List Str) : Prop where
  /-- a line contains no newline -/
  noNl : ∀ l ∈ lines, '\n' ∉ l
  /-- no line combines `%dnl`, `#` and `%%` -/
  noDnlHash : ∀ l ∈ lines, ¬ (s% "%dnl" <:+: l ∧ '#' ∈ l ∧ s% "%%" <:+: l)
  /-- a line with a definition that ends in whitespace leaves nothing open: its macro brackets are
  closed and there is no backslash before that whitespace -/
  noOpenBlank : ∀ l ∈ lines, MentionsDefinition l → ∀ a w, l = a ++ w → w ≠ [] →
    w.all isSpace = true →
    LeavesOpen '{' '}' 0 l ∧ LeavesOpen '(' ')' 0 l ∧ a.getLast? ≠ some '\\'
  /-- if the last line is empty, the line before it does not end in whitespace -/
  noLostBlank : ∀ pre a w, lines = pre ++ [a ++ w, []] → w.all isSpace = true → w = []

end Specfile.Spec
