import Verif.Model.Formatter
/-
A parser for the supported subset of Python expressions, working on tokens: displays, calls, grouping
parentheses and optional trailing commas as in the Python grammar. It does not know about the formatter.
-/
namespace Specfile.Spec
open Py Formatter

/-- what the elements between brackets look like -/
inductive Elements where
  /-- expressions -/
  | seq
  /-- `key: value` -/
  | pairs
  /-- arguments and keywords -/
  | args

/-- no keyword in front of an argument -/
def argsInOrder : Bool → Items → Bool
  | _, .nil => true
  | seen, .cons .pos _ rest => !seen && argsInOrder seen rest
  | _, .cons (.kw _) _ rest => argsInOrder true rest
  | _, .cons .unpack _ rest => argsInOrder true rest
  | _, .cons (.key _) _ _ => false

/-- `(e)` without a comma is `e`, otherwise parentheses make a tuple -/
def parenthesized : Items → Bool → Expr
  | .cons .pos e .nil, false => e
  | items, _ => .tuple items

mutual
/-- parse an expression; the number bounds the depth of recursion -/
def parseExpr : Nat → List Tok → Option (Expr × List Tok)
  | 0, _ => none
  | fuel + 1, ts =>
    match ts with
    | .const r :: ts => some (.const r, ts)
    | .op '(' :: ts =>
      match parseItems fuel .seq ')' ts with
      | some (items, comma, ts) => some (parenthesized items comma, ts)
      | none => none
    | .op '[' :: ts =>
      match parseItems fuel .seq ']' ts with
      | some (items, _, ts) => some (.list items, ts)
      | none => none
    | .op '{' :: ts =>
      match parseItems fuel .pairs '}' ts with
      | some (items, _, ts) => some (.dict items, ts)
      | none => none
    | .name f :: .op '(' :: ts =>
      match parseItems fuel .args ')' ts with
      | some (items, _, ts) => if argsInOrder false items then some (.call f items, ts) else none
      | none => none
    | _ => none
/-- parse elements up to the closing bracket; also tells whether there is a trailing comma -/
def parseItems : Nat → Elements → Char → List Tok → Option (Items × Bool × List Tok)
  | 0, _, _, _ => none
  | fuel + 1, kind, close, ts =>
    if ts.head? = some (.op close) then some (.nil, false, ts.tail)
    else match parseKey fuel kind ts with
      | none => none
      | some (k, ts) =>
        match parseExpr fuel ts with
        | none => none
        | some (v, ts) =>
          if ts.head? = some (.op close) then some (.cons k v .nil, false, ts.tail)
          else if ts.head? = some (.op ',') then
            match parseItems fuel kind close ts.tail with
            | none => none
            | some (rest, comma, ts) => some (.cons k v rest, comma || rest.isNil, ts)
          else none
/-- parse what stands before an element -/
def parseKey : Nat → Elements → List Tok → Option (Key × List Tok)
  | 0, _, _ => none
  | _ + 1, .seq, ts => some (.pos, ts)
  | fuel + 1, .pairs, ts =>
    match parseExpr fuel ts with
    | some (k, .op ':' :: ts) => some (.key k, ts)
    | _ => none
  | _ + 1, .args, ts =>
    match ts with
    | .name n :: .op '=' :: ts => some (.kw n, ts)
    | .op '*' :: .op '*' :: ts => some (.unpack, ts)
    | ts => some (.pos, ts)
end

/-- the expression that is written as these tokens -/
def parsePython (ts : List Tok) : Option Expr :=
  match parseExpr (3 * ts.length + 3) ts with
  | some (e, []) => some e
  | _ => none

/-- the tokens of a text -/
def tokens : List Piece → List Tok
  | [] => []
  | .tok t :: ps => t :: tokens ps
  | .ws _ :: ps => tokens ps

/-- opening and closing brackets -/
def depthAfter (d : Int) : Piece → Int
  | .tok (.op c) => if c ∈ ['(', '[', '{'] then d + 1 else if c ∈ [')', ']', '}'] then d - 1 else d
  | _ => d

/-- whitespace, and in particular line breaks, only between brackets -/
def SpaceInside : Int → List Piece → Prop
  | _, [] => True
  | d, .ws s :: ps => (s = [] ∨ 0 < d) ∧ SpaceInside d ps
  | d, p :: ps => SpaceInside (depthAfter d p) ps

mutual
/-- the trees that Python makes of an expression of the subset without `**` -/
def GoodExpr : Expr → Prop
  | .const _ => True
  | .tuple items => GoodSeq items
  | .list items => GoodSeq items
  | .dict items => GoodPairs items
  | .call _ items => GoodArgs items ∧ argsInOrder false items = true
  | .other => False
/-- elements without anything before them -/
def GoodSeq : Items → Prop
  | .nil => True
  | .cons .pos v rest => GoodExpr v ∧ GoodSeq rest
  | .cons _ _ _ => False
/-- elements with keys -/
def GoodPairs : Items → Prop
  | .nil => True
  | .cons (.key k) v rest => GoodExpr k ∧ GoodExpr v ∧ GoodPairs rest
  | .cons _ _ _ => False
/-- arguments and keywords -/
def GoodArgs : Items → Prop
  | .nil => True
  | .cons .pos v rest => GoodExpr v ∧ GoodArgs rest
  | .cons (.kw _) v rest => GoodExpr v ∧ GoodArgs rest
  | .cons _ _ _ => False
end

mutual
/-- an expression on one line -/
def oneLine : Expr → List Piece
  | .const r => [.tok (.const r)]
  | .tuple items => op '(' :: oneLineItems items ++ (if items.single then [op ',', op ')'] else [op ')'])
  | .list items => op '[' :: oneLineItems items ++ [op ']']
  | .dict items => op '{' :: oneLineItems items ++ [op '}']
  | .call f items => .tok (.name f) :: op '(' :: oneLineItems items ++ [op ')']
  | .other => []
/-- elements on one line -/
def oneLineItems : Items → List Piece
  | .nil => []
  | .cons k v .nil => oneLineKey k ++ oneLine v
  | .cons k v rest => oneLineKey k ++ oneLine v ++ [op ',', .ws [' ']] ++ oneLineItems rest
/-- what stands before an element -/
def oneLineKey : Key → List Piece
  | .pos => []
  | .kw n => [.tok (.name n), op '=']
  | .unpack => []
  | .key e => oneLine e ++ [op ':', .ws [' ']]
end

mutual
/-- only nodes of the supported kinds -/
def Supported : Expr → Prop
  | .const _ => True
  | .tuple items => SupportedItems items
  | .list items => SupportedItems items
  | .dict items => SupportedItems items
  | .call _ items => SupportedItems items
  | .other => False
/-- of all elements -/
def SupportedItems : Items → Prop
  | .nil => True
  | .cons k v rest => SupportedKey k ∧ Supported v ∧ SupportedItems rest
/-- of a key -/
def SupportedKey : Key → Prop
  | .key e => Supported e
  | _ => True
end

/-- so many blanks -/
def spaces (n : Nat) : Str := List.replicate n ' '

/-- the expression on one line, as text -/
def oneLineText (e : Expr) : Str := text (oneLine e)

mutual
/-- the layout of an expression that starts on a line after `label`, indented by `indent`: on one line if it fits,
otherwise one element per line, indented by four more, each followed by a comma. What follows the expression on
the line does not count. -/
def layout (limit indent : Nat) (label : Str) : Expr → Str
  | .const r => spaces indent ++ label ++ r
  | .tuple items =>
    if (spaces indent ++ label ++ oneLineText (.tuple items)).length ≤ limit then
      spaces indent ++ label ++ oneLineText (.tuple items)
    else spaces indent ++ label ++ ['('] ++ ['\n'] ++ layoutItems limit (indent + 4) items ++ spaces indent ++ [')']
  | .list items =>
    if (spaces indent ++ label ++ oneLineText (.list items)).length ≤ limit then
      spaces indent ++ label ++ oneLineText (.list items)
    else spaces indent ++ label ++ ['['] ++ ['\n'] ++ layoutItems limit (indent + 4) items ++ spaces indent ++ [']']
  | .dict items =>
    if (spaces indent ++ label ++ oneLineText (.dict items)).length ≤ limit then
      spaces indent ++ label ++ oneLineText (.dict items)
    else spaces indent ++ label ++ ['{'] ++ ['\n'] ++ layoutItems limit (indent + 4) items ++ spaces indent ++ ['}']
  | .call f items =>
    if (spaces indent ++ label ++ oneLineText (.call f items)).length ≤ limit then
      spaces indent ++ label ++ oneLineText (.call f items)
    else spaces indent ++ label ++ f ++ ['('] ++ ['\n'] ++ layoutItems limit (indent + 4) items ++ spaces indent ++ [')']
  | .other => spaces indent ++ label
/-- one element per line -/
def layoutItems (limit indent : Nat) : Items → Str
  | .nil => []
  | .cons k v rest => layout limit indent (layoutKey limit k) v ++ [',', '\n'] ++ layoutItems limit indent rest
/-- what stands before an element -/
def layoutKey (limit : Nat) : Key → Str
  | .pos => []
  | .unpack => []
  | .kw n => n ++ ['=']
  | .key e => layout limit 0 [] e ++ [':', ' ']
end

end Specfile.Spec
