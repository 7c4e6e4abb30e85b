import Verif.Model.Text
import Verif.Spec.Sections
/-
Vocabulary for the text of a spec file.
-/
namespace Specfile.Spec
open Py

/-- the only line separator is the line feed -/
def OnlyLF (t : Str) : Prop := ∀ c ∈ t, isLineBreak c = true → c = '\n'

/-- there is at least one line, no line contains a line separator, and the last line is not
empty if the text does not end in a newline -/
def Stable (c : Text.Content) : Prop :=
  (∀ l ∈ c.lines, OneLine l) ∧ c.lines ≠ [] ∧ (c.newline = false → c.lines.getLast? ≠ some [])

/-- the lines of a text: each ends in a line separator, only the last one may have none. A carriage return and a
line feed are one separator. -/
inductive LinesOf : Str → List Str → Prop where
  | nil : LinesOf [] []
  | last {l} (h : OneLine l) (hne : l ≠ []) : LinesOf l [l]
  | crlf {l r ls} (h : OneLine l) (hr : LinesOf r ls) : LinesOf (l ++ '\r' :: '\n' :: r) (l :: ls)
  | sep {l c r ls} (h : OneLine l) (hc : isLineBreak c = true) (hn : c = '\r' → r.head? ≠ some '\n') (hr : LinesOf r ls) :
    LinesOf (l ++ c :: r) (l :: ls)

end Specfile.Spec
