import Verif.Model.Formatter
/-
Model of the rest of `format_expression`, /repo/specfile/formatter.py:82-126: objects such as enums, whose
representation `<...>` is no expression, are replaced by string literals before parsing and put back afterwards. And
of the decorator `formatted`, formatter.py:129-140.

Parameters are `ast.parse` of Python, which gives a tree or the position of a syntax error, and `repr` of a string.
-/
namespace Specfile.Formatter
open Py

/-- `ast.parse(expression, mode="eval")`, formatter.py:96-97: the tree, or `lineno` and `offset` of the error -/
inductive Parsed where
  | tree (e : Expr)
  | syntaxError (lineno offset : Option Nat)

/-- what `format_expression` may raise, formatter.py:104-109 and 75-77 -/
inductive Failure where
  | syntaxError
  | err (e : Err)
  /-- the loop of formatter.py:94 has not come to an end -/
  | unfinished
deriving DecidableEq, Repr

/-- the loop of formatter.py:84-90 at the index `i`, with the rest of the value -/
def matchBracket : Int → Nat → Str → Option Nat
  | _, _, [] => none
  | level, i, c :: cs =>
    if c == '>' then
      if level - 1 ≤ 0 then some (i + 1) else matchBracket (level - 1) (i + 1) cs
    else if c == '<' then matchBracket (level + 1) (i + 1) cs
    else matchBracket level (i + 1) cs

/-- `find_matching_bracket(value, index)`, formatter.py:82-91 -/
def findMatchingBracket (value : Str) (index : Nat) : Option Nat := matchBracket 0 index (value.drop index)

/-- formatter.py:98-119: the object at the position of the error and the expression with the placeholder -/
def substitute (repr : Str → Str) (expression : Str) (lineno offset : Option Nat) : Except Failure (Str × Str) :=
  let lines := splitlines expression
  match lineno, offset with
  | some (l + 1), some (o + 1) =>
    match lines[l]? with
    | none => .error (.err .indexError)
    | some line =>
      match line[o]? with
      | none => .error (.err .indexError)
      | some c =>
        if c != '<' then .error .syntaxError
        else match findMatchingBracket line o with
          | none => .error .syntaxError
          | some index =>
            let value := (line.take index).drop o
            .ok (value, joinC '\n' (lines.set l (line.take o ++ repr value ++ line.drop index)))
  | _, _ => .error .syntaxError

/-- the loop of formatter.py:93-121: the tree and the objects that have been replaced, at most `fuel` of them -/
def parseLoop (parse : Str → Parsed) (repr : Str → Str) : Nat → Str → Except Failure (Expr × List Str)
  | fuel, expression =>
    match parse expression with
    | .tree e => .ok (e, [])
    | .syntaxError lineno offset =>
      match fuel with
      | 0 => .error .unfinished
      | fuel + 1 =>
        match substitute repr expression lineno offset with
        | .error e => .error e
        | .ok (value, expression') =>
          match parseLoop parse repr fuel expression' with
          | .error e => .error e
          | .ok (e, values) => .ok (e, value :: values)

/-- `s.replace(old, new, 1)`, formatter.py:125 -/
def replaceOnce (old new : Str) : Str → Str
  | [] => if old.isEmpty then new else []
  | c :: cs => if old.isPrefixOf (c :: cs) then new ++ (c :: cs).drop old.length else c :: replaceOnce old new cs

/-- formatter.py:124-125 -/
def revert (repr : Str → Str) : List Str → Str → Str
  | [], result => result
  | value :: values, result => revert repr values (replaceOnce (repr value) value result)

/-- `format_expression(expression, line_length_threshold)`, formatter.py:10-126 -/
def formatExpression (parse : Str → Parsed) (repr : Str → Str) (threshold fuel : Nat) (expression : Str) : Except Failure Str :=
  match parseLoop parse repr fuel expression with
  | .error e => .error e
  | .ok (tree, values) =>
    match format threshold tree with
    | .error e => .error (.err e)
    | .ok ps => .ok (revert repr values (text ps))

/-- the wrapper of `formatted`, formatter.py:133-138, around a function that returns `expression` -/
def formatted (parse : Str → Parsed) (repr : Str → Str) (threshold fuel : Nat) (expression : Str) : Except Failure Str :=
  match formatExpression parse repr threshold fuel expression with
  | .error .syntaxError => .ok expression
  | .error (.err .specfileException) => .ok expression
  | r => r

end Specfile.Formatter
