import Verif.Model.ValueParser
import Verif.Regex.Core
/-
Model of `ValueParser.construct_regex`, /repo/specfile/value_parser.py:292-491, and of the part of
`string.Template` that is used with its result.
-/
namespace Specfile.Template
open Py Regex

/-- what `flatten` yields: strings and nodes, value_parser.py:342-379 -/
inductive Piece where
  | text (s : Str)
  | node (n : Node)

/-- `processed_entities` and `entities_to_flip`, value_parser.py:339-340 -/
structure Flips where
  processed : List Str
  toFlip : List Str

/-- `evaluate`, value_parser.py:345-366; sets of names are lists. Simplified: expansions do not change the macro context. -/
def evaluate (ex : Str → Except Err Str) (modifiable flippable : List Str) (pfx name : Str) (f : Flips) :
    Except Err (Bool × Flips) :=
  if !modifiable.contains name then .ok (false, f)
  else
    match ex (s% "%{?" ++ name ++ s% ":1}") with
    | .error e => .error e
    | .ok d =>
      let negative := decide (pfx.count '!' % 2 > 0)
      let defined := !d.isEmpty
      if negative && defined || !(negative || defined) then
        if !flippable.contains name then .ok (false, f)
        else if f.processed.contains name && !f.toFlip.contains name then .ok (false, f)
        else .ok (true, ⟨name :: f.processed, name :: f.toFlip⟩)
      else if f.toFlip.contains name then .ok (false, f)
      else .ok (true, ⟨name :: f.processed, f.toFlip⟩)

mutual
/-- `flatten` on one node, value_parser.py:369-378 -/
def openNode (ex : Str → Except Err Str) (modifiable flippable : List Str) (n : Node) (f : Flips) :
    Except Err (List Piece × Flips) :=
  match n with
  | .cond pfx name body =>
    match evaluate ex modifiable flippable pfx name f with
    | .error e => .error e
    | .ok (false, f) => .ok ([.text (Node.str (.cond pfx name body))], f)
    | .ok (true, f) =>
      match openNodes ex modifiable flippable body f with
      | .error e => .error e
      | .ok (ps, f) => .ok (.text (s% "%{" ++ pfx ++ name ++ [':']) :: (ps ++ [.text ['}']]), f)
  | .lit s => .ok ([.node (.lit s)], f)
  | .shell b => .ok ([.node (.shell b)], f)
  | .expr b => .ok ([.node (.expr b)], f)
  | .sub p n => .ok ([.node (.sub p n)], f)
  | .encl p n args => .ok ([.node (.encl p n args)], f)
  | .builtin n b => .ok ([.node (.builtin n b)], f)
/-- `flatten`, value_parser.py:342-379 -/
def openNodes (ex : Str → Except Err Str) (modifiable flippable : List Str) (l : List Node) (f : Flips) :
    Except Err (List Piece × Flips) :=
  match l with
  | [] => .ok ([], f)
  | n :: ns =>
    match openNode ex modifiable flippable n f with
    | .error e => .error e
    | .ok (ps, f) =>
      match openNodes ex modifiable flippable ns f with
      | .error e => .error e
      | .ok (qs, f) => .ok (ps ++ qs, f)
end

/-- tokens, value_parser.py:384: constant (expansion, text), variable, group (name, text) -/
inductive Tok where
  | c (re text : Str)
  | v (s : Str)
  | g (name text : Str)

/-- a constant, value_parser.py:391-392 -/
def constant (ex : Str → Except Err Str) (n : Node) : Except Err (List Tok) :=
  match ex n.str with
  | .error e => .error e
  | .ok s => .ok [.c s n.str]

/-- value_parser.py:385-408 -/
def token (ex : Str → Except Err Str) (modifiable : List Str) : Piece → Except Err (List Tok)
  | .text s => .ok [.c [] s]
  | .node (.lit s) => .ok [.v s]
  | .node (.shell b) => constant ex (.shell b)
  | .node (.expr b) => constant ex (.expr b)
  | .node (.builtin n b) => constant ex (.builtin n b)
  | .node (.sub p n) =>
    if p.count '!' % 2 = 0 ∧ modifiable.contains n then .ok [.g n (Node.sub p n).str] else constant ex (.sub p n)
  | .node (.encl p n args) =>
    if p.count '!' % 2 = 0 ∧ args.isEmpty ∧ modifiable.contains n then .ok [.g n (Node.encl p n args).str]
    else constant ex (.encl p n args)
  | .node (.cond _ _ _) => .ok []

/-- value_parser.py:384-408 -/
def tokens (ex : Str → Except Err Str) (modifiable : List Str) : List Piece → Except Err (List Tok)
  | [] => .ok []
  | p :: ps =>
    match token ex modifiable p with
    | .error e => .error e
    | .ok t =>
      match tokens ex modifiable ps with
      | .error e => .error e
      | .ok ts => .ok (t ++ ts)

/-- value_parser.py:413-428; `none` if there are two groups in a row -/
def squash : List Tok → Option (List Tok)
  | [] => some []
  | t :: ts =>
    match squash ts with
    | none => none
    | some r =>
      match t, r with
      | .c a b, .c a' b' :: r => some (.c (a ++ a') (b ++ b') :: r)
      | .v a, .v b :: r => some (.v (a ++ b) :: r)
      | .g _ _, .g _ _ :: _ => none
      | t, r => some (t :: r)

/-- `is_group_nearby`, value_parser.py:430-440, for the tokens in the direction of the search -/
def groupNear : List Tok → Bool
  | [] => false
  | .c r _ :: ts => if r.isEmpty then groupNear ts else false
  | .g _ _ :: _ => true
  | .v _ :: _ => false

/-- `escape`, value_parser.py:410-411 -/
def escape : Str → Str
  | [] => []
  | c :: s => if c = '$' then '$' :: '$' :: escape s else c :: escape s

/-- `[^\w]`, value_parser.py:462-470 -/
def nonWord [Uni] (c : Char) : Bool := !isWord c

/-- `var_regex`, value_parser.py:462-470; groups: 1 prefix, 2 value, 3 suffix -/
def varRe [Uni] (before after : Bool) : Re Nat :=
  .bos ⬝ (if before then .grp 1 (star isWord ⬝ .cls nonWord) else .eps) ⬝ .grp 2 (star dot) ⬝
    (if after then .grp 3 (.cls nonWord ⬝ star isWord) else .eps) ⬝ .eos

/-- the name of a substitution group, value_parser.py:483 -/
def subName (n : Nat) : Str := s% "sub_" ++ natStr n

/-- what is constructed: the expression, the template, the names of groups;
value_parser.py:443-446 and 491 -/
structure Built where
  re : Re Str
  template : Str
  groups : List Str

/-- value_parser.py:442-491; `before` are the tokens before, the last one first. `re.compile` fails for names that are no
identifiers and for groups that are defined twice. -/
def build [Uni] (isIdent : Str → Bool) (before : List Tok) (named : List Str) (sub : Nat) :
    List Tok → Except Err Built
  | [] => .ok ⟨.eos, [], []⟩
  | .c r t :: ts =>
    match build isIdent (.c r t :: before) named sub ts with
    | .error e => .error e
    | .ok b => .ok ⟨lit r ⬝ b.re, escape t ++ b.template, b.groups⟩
  | .g n t :: ts =>
    if named.contains n then
      match build isIdent (.g n t :: before) named sub ts with
      | .error e => .error e
      | .ok b => .ok ⟨.bref n ⬝ b.re, escape t ++ b.template, b.groups⟩
    else if isIdent n then
      match build isIdent (.g n t :: before) (n :: named) sub ts with
      | .error e => .error e
      | .ok b => .ok ⟨.grp n (plus dot) ⬝ b.re, escape t ++ b.template, n :: b.groups⟩
    else .error .regexError
  | .v s :: ts =>
    match rmatch (varRe (groupNear before) (groupNear ts)) s with
    | none =>
      match build isIdent (.v s :: before) named sub ts with
      | .error e => .error e
      | .ok b => .ok ⟨lit s ⬝ b.re, escape s ++ b.template, b.groups⟩
    | some m =>
      if ((m.get 2).getD []).isEmpty then
        match build isIdent (.v s :: before) named sub ts with
        | .error e => .error e
        | .ok b => .ok ⟨lit ((m.get 1).getD []) ⬝ lit ((m.get 3).getD []) ⬝ b.re,
            escape ((m.get 1).getD []) ++ (escape ((m.get 3).getD []) ++ b.template), b.groups⟩
      else if named.contains (subName sub) then .error .regexError
      else
        match build isIdent (.v s :: before) (subName sub :: named) (sub + 1) ts with
        | .error e => .error e
        | .ok b => .ok ⟨lit ((m.get 1).getD []) ⬝ .grp (subName sub) (plusL dot) ⬝ lit ((m.get 3).getD []) ⬝ b.re,
            escape ((m.get 1).getD []) ++ (s% "${" ++ (subName sub ++ ('}' :: (escape ((m.get 3).getD []) ++ b.template)))),
            subName sub :: b.groups⟩

/-- `construct_regex`, value_parser.py:292-491, with the names of entities to flip -/
def construct [Uni] (isIdent : Str → Bool) (ex : Str → Except Err Str) (modifiable flippable : List Str) (value : Str) :
    Except Err (Built × List Str) :=
  match ValueParser.parse value with
  | .error e => .error e
  | .ok nodes =>
    match openNodes ex modifiable flippable nodes ⟨[], []⟩ with
    | .error e => .error e
    | .ok (ps, f) =>
      match tokens ex modifiable ps with
      | .error e => .error e
      | .ok ts =>
        match squash ts with
        | none => .ok (⟨.bos ⬝ .eos, escape value, []⟩, [])
        | some ts =>
          match build isIdent [] [] 0 ts with
          | .error e => .error e
          | .ok b => .ok ({ b with re := .bos ⬝ b.re }, f.toFlip)

/-- the characters of identifiers in templates,
`string.Template` is imported in value_parser.py:7 -/
def idStart (c : Char) : Bool := isAsciiAlpha c || c == '_'
/-- the characters after the first one, as above; value_parser.py:491 -/
def idChar (c : Char) : Bool := idStart c || isAsciiDigit c

/-- what `substitute` makes of the text after a `$`: the replacement and the rest. `string.Template` raises `KeyError`
for unknown names and `ValueError` for anything else. See value_parser.py:491, specfile.py:880. -/
def substitution (d : Str → Option Str) : Str → Except Err (Str × Str)
  | '$' :: r => .ok (['$'], r)
  | '{' :: c :: r =>
    if idStart c then
      match r.dropWhile idChar with
      | '}' :: r' =>
        match d (c :: r.takeWhile idChar) with
        | some v => .ok (v, r')
        | none => .error .keyError
      | _ => .error .valueError
    else .error .valueError
  | c :: r =>
    if idStart c then
      match d (c :: r.takeWhile idChar) with
      | some v => .ok (v, r.dropWhile idChar)
      | none => .error .keyError
    else .error .valueError
  | [] => .error .valueError

/-- `string.Template.substitute`, specfile.py:880 -/
def substituteF (d : Str → Option Str) : Nat → Str → Except Err Str
  | 0, _ => .error .outOfFuel
  | _ + 1, [] => .ok []
  | n + 1, c :: r =>
    if c = '$' then
      match substitution d r with
      | .error e => .error e
      | .ok (v, r') => (substituteF d n r').map (v ++ ·)
    else (substituteF d n r).map (c :: ·)

/-- `template.substitute(d)`, specfile.py:880 -/
def substitute (d : Str → Option Str) (t : Str) : Except Err Str := substituteF d (t.length + 1) t

end Specfile.Template
