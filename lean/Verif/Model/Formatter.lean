import Verif.Py.Str
import Verif.Py.Err
/-
Model of the inner function `fmt` of `format_expression`, /repo/specfile/formatter.py:30-80.

Python's own parser, which turns the text into a tree, is not modelled; the handling of representations that are no
expressions (formatter.py:82-125) is in Model/FormatText. A text is a list of pieces, tokens and whitespace, so that the
statements can be about tokens; the text of the result is the concatenation of the pieces.
-/
namespace Specfile.Formatter
open Py

mutual
/-- the supported nodes of Python's `ast`, formatter.py:32-56 -/
inductive Expr where
  /-- a constant, given by its `repr` -/
  | const (repr : Str)
  | tuple (items : Items)
  | list (items : Items)
  | dict (items : Items)
  /-- a call of a function given by its name, arguments and keywords in one list as in formatter.py:53-55 -/
  | call (func : Str) (items : Items)
  /-- any other node -/
  | other
/-- the elements of a node, formatter.py:41, 45, 49 and 53-55 -/
inductive Items where
  | nil
  | cons (key : Key) (value : Expr) (rest : Items)
/-- what is written before an element, formatter.py:61-66 -/
inductive Key where
  /-- nothing -/
  | pos
  /-- `name=` -/
  | kw (name : Str)
  /-- `**`, a keyword without name -/
  | unpack
  /-- the key of a dictionary -/
  | key (e : Expr)
end

/-- tokens of Python, formatter.py:96 -/
inductive Tok where
  | const (repr : Str)
  | name (n : Str)
  | op (c : Char)
deriving DecidableEq, Repr

/-- pieces of the result, formatter.py:31-73 -/
inductive Piece where
  | tok (t : Tok)
  | ws (s : Str)
deriving DecidableEq, Repr

/-- the text of a token, formatter.py:33-37 -/
def Tok.text : Tok → Str
  | .const r => r
  | .name n => n
  | .op c => [c]

/-- the text of a piece, formatter.py:31-73 -/
def Piece.text : Piece → Str
  | .tok t => t.text
  | .ws s => s

/-- the text of pieces, formatter.py:80 -/
def text (ps : List Piece) : Str := (ps.map Piece.text).flatten

/-- brackets, commas and delimiters, formatter.py:40-73 -/
def op (c : Char) : Piece := .tok (.op c)

/-- `" " * indent`, formatter.py:31 and 72 -/
def blanks (n : Nat) : Piece := .ws (List.replicate n ' ')

/-- `elif items`, formatter.py:69 -/
def Items.isNil : Items → Bool
  | .nil => true
  | .cons .. => false

/-- `len(node.elts) != 1`, formatter.py:40 -/
def Items.single : Items → Bool
  | .cons _ _ .nil => true
  | _ => false

/-- formatter.py:78-79: the multiline form if the other one is too long -/
def choose (threshold : Nat) (flat multi : Except Err (List Piece)) : Except Err (List Piece) :=
  match flat with
  | .error e => .error e
  | .ok f => if (text f).length > threshold then multi else .ok f

/-- formatter.py:57-73 around the elements: start, elements and end -/
def wrap (before : List Piece) (after : List Piece) (items : Except Err (List Piece)) : Except Err (List Piece) :=
  match items with
  | .error e => .error e
  | .ok ps => .ok (before ++ ps ++ after)

/-- one piece of text after the other, formatter.py:31-73 -/
def join (a b : Except Err (List Piece)) : Except Err (List Piece) :=
  match a, b with
  | .ok x, .ok y => .ok (x ++ y)
  | .error e, _ => .error e
  | _, .error e => .error e

mutual
/-- `fmt(node, indent, prefix)`, formatter.py:30-80; `threshold` is `line_length_threshold` -/
def fmt (threshold indent : Nat) (pfx : List Piece) : Expr → Except Err (List Piece)
  | .const r => .ok (blanks indent :: pfx ++ [.tok (.const r)])
  | .tuple items =>
    choose threshold
      (wrap (blanks indent :: pfx ++ [op '(']) ((if items.single then [op ','] else []) ++ [op ')'])
        (flat threshold items))
      (wrap (blanks indent :: pfx ++ [op '(', .ws ['\n']]) [blanks indent, op ')'] (multi threshold (indent + 4) items))
  | .list items =>
    choose threshold
      (wrap (blanks indent :: pfx ++ [op '[']) [op ']'] (flat threshold items))
      (wrap (blanks indent :: pfx ++ [op '[', .ws ['\n']]) [blanks indent, op ']'] (multi threshold (indent + 4) items))
  | .dict items =>
    choose threshold
      (wrap (blanks indent :: pfx ++ [op '{']) [op '}'] (flat threshold items))
      (wrap (blanks indent :: pfx ++ [op '{', .ws ['\n']]) [blanks indent, op '}'] (multi threshold (indent + 4) items))
  | .call f items =>
    choose threshold
      (wrap (blanks indent :: pfx ++ [.tok (.name f), op '(']) [op ')'] (flat threshold items))
      (wrap (blanks indent :: pfx ++ [.tok (.name f), op '(', .ws ['\n']]) [blanks indent, op ')']
        (multi threshold (indent + 4) items))
  | .other => .error .specfileException
/-- the loop of formatter.py:60-70 when `multiline` is not set -/
def flat (threshold : Nat) : Items → Except Err (List Piece)
  | .nil => .ok []
  | .cons k v rest =>
    match before threshold k with
    | .error e => .error e
    | .ok p => join (fmt threshold 0 p v)
        (wrap (if rest.isNil then [] else [op ',', .ws [' ']]) [] (flat threshold rest))
/-- the loop of formatter.py:60-70 when `multiline` is set -/
def multi (threshold indent : Nat) : Items → Except Err (List Piece)
  | .nil => .ok []
  | .cons k v rest =>
    match before threshold k with
    | .error e => .error e
    | .ok p => join (fmt threshold indent p v)
        (wrap [op ',', .ws ['\n']] [] (multi threshold indent rest))
/-- formatter.py:41-42, 45-46, 49-50, 53-56 and 65: the prefix of an element. It is empty for a keyword without
name. -/
def before (threshold : Nat) : Key → Except Err (List Piece)
  | .pos => .ok []
  | .unpack => .ok []
  | .kw n => .ok [.tok (.name n), op '=']
  | .key e =>
    match fmt threshold 0 [] e with
    | .error err => .error err
    | .ok ps => .ok (ps ++ [op ':', .ws [' ']])
end

/-- `fmt(tree.body)`, formatter.py:122 -/
def format (threshold : Nat) (e : Expr) : Except Err (List Piece) := fmt threshold 0 [] e

end Specfile.Formatter
