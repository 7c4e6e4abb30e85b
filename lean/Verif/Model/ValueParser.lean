import Verif.Py.Str
import Verif.Py.Err
/-
Model of /repo/specfile/value_parser.py:20-290.
-/
namespace Specfile
open Py

/-- value_parser.py:20-176, the node classes. `sub`, `encl` and `cond` hold `prefix` and `name`
separately as the Python objects do. -/
inductive Node where
  /-- `StringLiteral`, value_parser.py:26-42 -/
  | lit (value : Str)
  /-- `ShellExpansion`, value_parser.py:45-63 -/
  | shell (body : Str)
  /-- `ExpressionExpansion`, value_parser.py:66-70 -/
  | expr (body : Str)
  /-- `MacroSubstitution`, value_parser.py:73-93 -/
  | sub (pfx name : Str)
  /-- `EnclosedMacroSubstitution`, value_parser.py:96-125 -/
  | encl (pfx name : Str) (args : List Str)
  /-- `ConditionalMacroExpansion`, value_parser.py:128-156 -/
  | cond (pfx name : Str) (body : List Node)
  /-- `BuiltinMacro`, value_parser.py:159-176 -/
  | builtin (name body : Str)

mutual
/-- `Node.__str__`, value_parser.py:37, 58, 70, 88, 115-116, 146-147, 171. -/
def Node.str : Node → Str
  | .lit v => v
  | .shell b => '%' :: '(' :: (b ++ [')'])
  | .expr b => '%' :: '[' :: (b ++ [']'])
  | .sub p n => '%' :: (p ++ n)
  | .encl p n args =>
    '%' :: '{' :: (p ++ n ++ (if args.isEmpty then [] else ' ' :: joinC ' ' args) ++ ['}'])
  | .cond p n body => '%' :: '{' :: (p ++ n ++ ':' :: (Node.strs body ++ ['}']))
  | .builtin n b => '%' :: '{' :: (n ++ ':' :: (b ++ ['}']))
/-- `"".join(str(n) for n in nodes)`, value_parser.py:146 -/
def Node.strs : List Node → Str
  | [] => []
  | n :: ns => n.str ++ Node.strs ns
end

namespace ValueParser

/-- characters of `"?!"`, value_parser.py:77 and 233 -/
def isQB (c : Char) : Bool := c == '?' || c == '!'

/-- `re.split(r"^([?!]*)", s, maxsplit=1)` as (prefix, rest), e.g. value_parser.py:77-81. The pattern always
matches at position 0, so (Python >= 3.7) there are always three tokens, the first one empty. -/
def splitPrefix (s : Str) : Str × Str := (s.takeWhile isQB, s.dropWhile isQB)

/-- `pairs`, value_parser.py:214 -/
def closing (c : Char) : Option Char :=
  if c == '(' then some ')' else if c == '{' then some '}' else if c == '[' then some ']' else none

/-- `find_matching_parenthesis`, value_parser.py:216-227, on the suffix `value[index:]`; returns the text up
to and including the matching character and the text after it. A backslash is skipped but the
character following it is not. -/
def findMatching (o c : Char) (level : Nat) : Str → Option (Str × Str)
  | [] => none
  | x :: xs =>
    if x == '\\' then (findMatching o c level xs).map (fun r => (x :: r.1, r.2))
    else if x == c then
      if level - 1 ≤ 0 then some ([x], xs)
      else (findMatching o c (level - 1) xs).map (fun r => (x :: r.1, r.2))
    else if x == o then (findMatching o c (level + 1) xs).map (fun r => (x :: r.1, r.2))
    else (findMatching o c level xs).map (fun r => (x :: r.1, r.2))

/-- optional single character, as in value_parser.py:235-236 and 241-242 -/
def takeOne (p : Char → Bool) : Str → Str × Str
  | [] => ([], [])
  | c :: cs => if p c then ([c], cs) else ([], c :: cs)

/-- `find_macro_end`, value_parser.py:229-243, on the suffix `value[index:]`. Line 239 compares a slice of
length one with `"**"`, which is never true, so only the `elif` branch exists. -/
def findMacroEnd [Uni] (s : Str) : Option (Str × Str) :=
  match s with
  | [] => none   -- not reachable: `parse` has already read `value[index]`
  | c :: _ =>
    match closing c with
    | some d => findMatching c d 0 s
    | none =>
      let (a, s) := (s.takeWhile isQB, s.dropWhile isQB)
      let (b, s) := takeOne (· == '-') s
      let (w, s) := (s.takeWhile isWord, s.dropWhile isWord)
      let (e, s) := takeOne (fun c => c == '*' || c == '#') s
      some (a ++ b ++ w ++ e, s)

/-- `value.index("%")` on a suffix: text before and text after the first `%`.
See value_parser.py:250. -/
def splitPct : Str → Option (Str × Str)
  | [] => none
  | c :: cs => if c == '%' then some ([], cs) else (splitPct cs).map (fun r => (c :: r.1, r.2))

/-- `s.split(":", maxsplit=1)` when `s` contains a colon; value_parser.py:273 -/
def splitColon : Str → Option (Str × Str)
  | [] => none
  | c :: cs => if c == ':' then some ([], cs) else (splitColon cs).map (fun r => (c :: r.1, r.2))

/-- `EnclosedMacroSubstitution.__init__`, value_parser.py:99-107: `name, *args = rest.split()` raises
`ValueError` for a blank rest. -/
def mkEncl (body : Str) : Except Err Node :=
  match words (splitPrefix body).2 with
  | [] => .error .valueError
  | n :: args => .ok (.encl (splitPrefix body).1 n args)

/-- `MacroSubstitution.__init__`, value_parser.py:76-81 -/
def mkSub (body : Str) : Node := .sub (splitPrefix body).1 (splitPrefix body).2

/-- `m[1:-1]` for a bracketed text; value_parser.py:268, 270, 273 and 283 -/
def inner (m : Str) : Str := m.tail.dropLast

/-- The loop of `ValueParser.parse`, value_parser.py:245-290. `start` is the index, `rest = value[start:]`,
`offset` the offset added to it. Line 251 sets `offset` to the *absolute* index `end + 2`, which is
then added to `start` again; the model keeps that. `fuel` bounds the number of iterations, see
`parseF_fuel`. -/
def parseF [Uni] : Nat → Nat → Str → Nat → Except Err (List Node)
  | 0, _, _, _ => .error .outOfFuel
  | fuel + 1, start, rest, offset =>
    if rest.isEmpty then .ok []
    else match splitPct (rest.drop offset) with
      | none => .ok [.lit rest]
      | some (b, after) =>
        let lit := rest.take offset ++ b         -- value[start:end]
        match after with
        | [] => .error .unterminatedMacro
        | c :: _ =>
          if c == '%' then parseF fuel start rest (start + lit.length + 2)
          else
            match findMacroEnd after with
            | none => .error .unterminatedMacro
            | some (m, rest') => do
              let node ← (
                if c == '(' then .ok (.shell (inner m))
                else if c == '[' then .ok (.expr (inner m))
                else if c == '{' then
                  match splitColon (inner m) with
                  | some (condition, body) =>
                    if (splitPrefix condition).1.contains '?' then do
                      let nodes ← parseF fuel 0 body 0
                      .ok (.cond (splitPrefix condition).1 (splitPrefix condition).2 nodes)
                    else .ok (.builtin condition body)
                  | none => mkEncl (inner m)
                else .ok (mkSub m) : Except Err Node)
              let nodes ← parseF fuel (start + lit.length + 1 + m.length) rest' 0
              .ok ((if lit.isEmpty then [] else [.lit lit]) ++ node :: nodes)

/-- `ValueParser.parse`, value_parser.py:198-290 -/
def parse [Uni] (value : Str) : Except Err (List Node) := parseF (value.length + 1) 0 value 0

mutual
/-- `ValueParser.flatten`, value_parser.py:180-196, on one node -/
def flattenNode : Node → List Node
  | .cond _ _ body => flatten body
  | n => [n]
/-- `ValueParser.flatten`, value_parser.py:180-196 -/
def flatten : List Node → List Node
  | [] => []
  | n :: ns => flattenNode n ++ flatten ns
end

end ValueParser
end Specfile
