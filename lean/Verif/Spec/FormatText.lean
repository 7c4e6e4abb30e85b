import Verif.Model.FormatText
import Verif.Spec.Format
import Verif.Spec.Text
/-
Expressions with objects that are no expressions, such as `<TokenType.DEFAULT: 1>`. A text is again a list of pieces;
an object is a constant whose text starts with `<`, which no constant of Python does.
-/
namespace Specfile.Spec
open Py Formatter

/-- the constant is an object -/
def isObject (r : Str) : Bool := r.head? == some '<'

/-- the object is enclosed in matching brackets, which are not closed before its end, on one line -/
structure Enclosed (v : Str) : Prop where
  open_inside : ∀ a b, v = a ++ b → a ≠ [] → b ≠ [] → a.count '>' < a.count '<'
  closed : v.count '<' = v.count '>'
  oneLine : OneLine v

/-- the literal in place of an object -/
def hideTok (repr : Str → Str) : Tok → Tok
  | .const r => .const (if isObject r then repr r else r)
  | t => t

/-- literals in place of objects -/
def hide (repr : Str → Str) : Formatter.Piece → Formatter.Piece
  | .tok t => .tok (hideTok repr t)
  | p => p

/-- the number of the line after a text -/
def lineAfter (pre : Str) : Nat := pre.count '\n' + 1

/-- the number of the column after a text -/
def columnAfter (pre : Str) : Nat := (pre.reverse.takeWhile (· != '\n')).length + 1

/-- Python's parser reads the pieces: it complains about the first object, and if there is none any more it gives
the tree -/
structure ReadBy (parse : Str → Parsed) (repr : Str → Str) (src : List Formatter.Piece) : Prop where
  object : ∀ a v b, src = a ++ .tok (.const v) :: b → isObject v = true →
    parse (text (a.map (hide repr) ++ .tok (.const v) :: b)) =
      .syntaxError (some (lineAfter (text (a.map (hide repr))))) (some (columnAfter (text (a.map (hide repr)))))
  tree : ∀ e, parsePython (tokens (src.map (hide repr))) = some e → parse (text (src.map (hide repr))) = .tree e

/-- `repr` of a line that starts with `<`: quoted, on one line -/
def QuotedBy (repr : Str → Str) : Prop :=
  ∀ v, isObject v = true → OneLine v → OneLine (repr v) ∧ ∃ q r, (q = '\'' ∨ q = '"') ∧ repr v = q :: '<' :: r

/-- no quote in front of `<` -/
def NoQuotedObject (s : Str) : Prop := ∀ a q b, s = a ++ q :: '<' :: b → q ≠ '\'' ∧ q ≠ '"'

/-- texts of constants and names: objects are enclosed in brackets, nothing has a quote in front of `<`, and names
have neither -/
def PlainTok : Tok → Prop
  | .const r => NoQuotedObject r ∧ (isObject r = true → Enclosed r)
  | .name n => '<' ∉ n ∧ '\'' ∉ n ∧ '"' ∉ n
  | .op _ => True

/-- number of objects -/
def objectCount (src : List Formatter.Piece) : Nat := (tokens src).countP (fun t => match t with | .const r => isObject r | _ => false)

end Specfile.Spec
