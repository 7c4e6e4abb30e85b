import Verif.Model.Options
/-
Vocabulary for option strings: which ones are written canonically.
-/
namespace Specfile.Spec
open Py Options

/-- quotes, backslash or whitespace -/
def Plain (c : Char) : Prop := isSpace c = false ∧ c ≠ '"' ∧ c ≠ '\'' ∧ c ≠ '\\'

/-- Contents of a quotation: any character but the quote and the backslash, a backslash with
whatever follows it, and macros that do not contain the quote. -/
inductive QuotedBody (q : Char) : List Item → Prop
  | nil : QuotedBody q []
  | chr {c l} : c ≠ q → c ≠ '\\' → QuotedBody q l → QuotedBody q (.chr c :: l)
  | esc {c l} : QuotedBody q l → QuotedBody q (.chr '\\' :: .chr c :: l)
  | escMac {s l} : q ∉ s → QuotedBody q l → QuotedBody q (.chr '\\' :: .mac s :: l)
  | mac {s l} : q ∉ s → QuotedBody q l → QuotedBody q (.mac s :: l)

/-- Canonically written options: a backslash outside of quotes only escapes a quote or whitespace,
quotations are not empty, and macros outside of quotes contain neither quotes nor whitespace. -/
inductive Canonical : List Item → Prop
  | nil : Canonical []
  | space {c l} : isSpace c = true → Canonical l → Canonical (.chr c :: l)
  | plain {c l} : Plain c → Canonical l → Canonical (.chr c :: l)
  | escaped {c l} : isSpace c = true ∨ c = '"' ∨ c = '\'' → Canonical l →
      Canonical (.chr '\\' :: .chr c :: l)
  | mac {s l} : (∀ c ∈ s, isSpace c = false ∧ c ≠ '"' ∧ c ≠ '\'') → Canonical l →
      Canonical (.mac s :: l)
  | quoted {q b l} : q = '"' ∨ q = '\'' → QuotedBody q b → b ≠ [] → Canonical l →
      Canonical (.chr q :: (b ++ .chr q :: l))

/-- The value of a quoted token: a backslash is never last and never in front of the quote. -/
inductive QuotedValue (q : Char) : Str → Prop
  | nil : QuotedValue q []
  | chr {c l} : c ≠ '\\' → QuotedValue q l → QuotedValue q (c :: l)
  | esc {c l} : c ≠ q → QuotedValue q l → QuotedValue q ('\\' :: c :: l)

/-- a token that is read back from its printed form -/
def GoodToken (t : Token) : Prop :=
  t.value ≠ [] ∧ '%' ∉ t.value ∧
  match t.type with
  | .whitespace => ∀ c ∈ t.value, isSpace c = true
  | .default => '\\' ∉ t.value
  | .quoted => QuotedValue '\'' t.value
  | .doubleQuoted => QuotedValue '"' t.value

/-- no two neighbours that would melt into one token -/
def GoodTokens : List Token → Prop
  | [] => True
  | [t] => GoodToken t
  | t :: u :: l => GoodToken t ∧ (t.type = u.type → t.type = .quoted ∨ t.type = .doubleQuoted) ∧
      GoodTokens (u :: l)

/-! ### the words of an option string -/

/-- A piece of an option string. -/
inductive Piece where
  /-- whitespace -/
  | space (t : Token)
  /-- an option without a separate argument: `-q`, `-p1` -/
  | flag (t : Token)
  /-- an option with its argument in the next word: `-n foo` (or `-n"foo"`, without a separator) -/
  | withArg (t : Token) (sep : Option Token) (arg : Token)
  /-- a positional argument -/
  | word (t : Token)
  deriving DecidableEq, Repr

def Piece.toks : Piece → List Token
  | .space t => [t]
  | .flag t => [t]
  | .withArg t sep arg => t :: (sep.toList ++ [arg])
  | .word t => [t]

def toks (ps : List Piece) : List Token := (ps.map Piece.toks).flatten

/-- the text starts with a dash -/
def Dash (t : Token) : Prop := ∃ v, t.value = '-' :: v

/-- in `optstring` the recognized option `c` is followed by a colon -/
def TakesArg (optstring : Str) (c : Char) : Prop :=
  c ≠ ':' ∧ ∃ a b, optstring = a ++ c :: ':' :: b ∧ c ∉ a

def Piece.OK (optstring : Str) : Piece → Prop
  | .space t => t.type = .whitespace ∧ ¬ Dash t
  | .flag t => t.type ≠ .whitespace ∧ Dash t ∧ ∀ c, TakesArg optstring c → t.value ≠ ['-', c]
  | .withArg t sep arg => t.type ≠ .whitespace ∧ (∃ c, TakesArg optstring c ∧ t.value = ['-', c]) ∧
      (∀ w ∈ sep, w.type = .whitespace ∧ ¬ Dash w) ∧ arg.type ≠ .whitespace ∧ ¬ Dash arg
  | .word t => t.type ≠ .whitespace ∧ ¬ Dash t

/-- The tokens of an option string, read as options with their arguments and positional arguments. -/
structure Reads (o : Opts) (ps : List Piece) : Prop where
  tokens : o.tokens = toks ps
  ok : ∀ p ∈ ps, p.OK o.optstring

/-- the positional arguments -/
def posWords : List Piece → List Str
  | [] => []
  | .word t :: ps => t.value :: posWords ps
  | _ :: ps => posWords ps

/-- the text given with the option `c` in one piece, if it is that option -/
def Piece.given (c : Char) : Piece → Option Str
  | .flag t => match t.value with
    | '-' :: d :: v => if d = c then some v else none
    | _ => none
  | .withArg t _ arg => if t.value = ['-', c] then some arg.value else none
  | _ => none

/-- what the option string says about option `c`: the last occurrence counts -/
def given (c : Char) : List Piece → Option Str
  | [] => none
  | p :: ps => (given c ps).or (p.given c)

end Specfile.Spec
