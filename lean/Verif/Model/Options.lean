import Verif.Model.ValueParser
import Verif.Py.Seq
/-
Model of /repo/specfile/options.py.
-/
namespace Specfile
open Py

/-- `TokenType`, options.py:15-19 -/
inductive TokenType where
  | default | whitespace | quoted | doubleQuoted
  deriving DecidableEq, Repr

/-- `Token`, options.py:22-62 -/
structure Token where
  type : TokenType
  value : Str
  deriving DecidableEq, Repr

namespace Options

/-- `value.replace(c, "\\" + c)` for a character class; options.py:44, 48 and 51 -/
def escape (p : Char → Bool) : Str → Str
  | [] => []
  | c :: cs => if p c then '\\' :: c :: escape p cs else c :: escape p cs

/-- the class `['"\s]` of options.py:51 -/
def isSpecial (c : Char) : Bool := c == '\'' || c == '"' || isSpace c

/-- `Token.__str__`, options.py:39-51 -/
def tokenStr (t : Token) : Str :=
  match t.type with
  | .whitespace => t.value
  | .quoted => '\'' :: (escape (· == '\'') t.value ++ ['\''])
  | .doubleQuoted => '"' :: (escape (· == '"') t.value ++ ['"'])
  | .default => escape isSpecial t.value

/-- `Options.__str__`, options.py:247-248 -/
def tokensStr (ts : List Token) : Str := (ts.map tokenStr).flatten

/-! ### tokenizer -/

/-- An element of the list `inp` in `tokenize` (options.py:479-484): a character of a literal, or
the text of a macro node. The text of a macro starts with `%`, so it is never a quote, a backslash
or whitespace. -/
inductive Item where
  | chr (c : Char)
  | mac (s : Str)
  deriving DecidableEq, Repr

/-- the text of an element, options.py:480-484 -/
def Item.str : Item → Str
  | .chr c => [c]
  | .mac s => s

/-- options.py:479-484 -/
def items : List Node → List Item
  | [] => []
  | .lit v :: ns => v.map .chr ++ items ns
  | n :: ns => .mac n.str :: items ns

/-- put a token in front unless its text is empty (`if token:`); options.py:488, 512, 528 and 540 -/
def emit (ty : TokenType) (token : Str) (r : List Token) : List Token :=
  if token.isEmpty then r else ⟨ty, token⟩ :: r

/-- the next input element is whitespace, options.py:516-520 -/
def spaceNext : List Item → Bool
  | .chr c :: _ => isSpace c
  | _ => false

/-- put a whitespace character in front: if the next input element is whitespace too, the token of
that run (the first one of `r`) is extended, otherwise a new token is made; options.py:515-525 -/
def consWs (c : Char) (run : Bool) (r : List Token) : List Token :=
  match run, r with
  | true, ⟨.whitespace, w⟩ :: r => ⟨.whitespace, c :: w⟩ :: r
  | _, r => ⟨.whitespace, [c]⟩ :: r

/-- options.py:491-495 -/
def quoteType (q : Char) : TokenType := if q == '\'' then .quoted else .doubleQuoted

/-- The loop of `tokenize`, options.py:485-541, with the variables `quote`, `token` and `inp`. The
result list is built from the right, so that the inner loop over whitespace (lines 516-526) becomes
`consWs`: the last character of a run of whitespace makes a token, the others extend it. -/
def tok : Option Char → Str → List Item → Except Err (List Token)
  | none, token, [] => .ok (emit .default token [])
  | some _, _, [] => .error .optionsException              -- "No closing quotation"
  | some q, token, .mac s :: inp => tok (some q) (token ++ s) inp
  | some q, token, .chr c :: inp =>
    if c == q then do
      let r ← tok none [] inp
      .ok (emit (quoteType q) token r)
    else if c == '\\' then
      match inp with
      | [] => .error .optionsException                     -- "No escaped character"
      | d :: inp =>
        tok (some q) (token ++ (if d = .chr q then [] else ['\\']) ++ d.str) inp
    else tok (some q) (token ++ [c]) inp
  | none, token, .mac s :: inp => tok none (token ++ s) inp
  | none, token, .chr c :: inp =>
    if isSpace c then do
      let r ← tok none [] inp
      .ok (emit .default token (consWs c (spaceNext inp) r))
    else if c == '"' || c == '\'' then do
      let r ← tok (some c) [] inp
      .ok (emit .default token r)
    else if c == '\\' then
      match inp with
      | [] => .error .optionsException                     -- "No escaped character"
      | d :: inp => tok none (token ++ d.str) inp
    else tok none (token ++ [c]) inp

/-- `Options.tokenize`, options.py:460-542 -/
def tokenize [Uni] (s : Str) : Except Err (List Token) := do
  let ns ← ValueParser.parse s
  tok none [] (items ns)

/-! ### options as a mapping -/

/-- option values; Python `None` is `Option.none` where it can occur; options.py:333-337 -/
inductive Val where
  | bool (b : Bool)
  | int (n : Int)
  | str (s : Str)
  deriving DecidableEq, Repr

/-- `Options`, options.py:222-241. Option names are modelled as single characters. -/
structure Opts where
  tokens : List Token
  optstring : Str
  defaults : List (Char × Val)
  deriving DecidableEq, Repr

/-- `_valid_option`, options.py:250-265 (for one-character names) -/
def valid (optstring : Str) (name : Char) : Bool := (optstring.filter (· != ':')).contains name

/-- `_requires_argument`, options.py:267-281: the first occurrence of the option in the option
string is followed by a colon. Only called for valid options. -/
def requiresArg (optstring : Str) (name : Char) : Bool :=
  match optstring with
  | [] => false
  | c :: cs => if c == name then cs.head? == some ':' else requiresArg cs name

/-- `t.value.startswith(f"-{name}")`, options.py:295-297 -/
def isOpt (name : Char) (t : Token) : Bool := startsWith t.value ['-', name]

/-- index of the argument token for a bare option at `i`, options.py:303-312 -/
def argIndex (ts : List Token) (i : Nat) : Option Nat :=
  let j := i + 1
  match ts[j]? with
  | none => none
  | some t =>
    let j := if t.type = .whitespace then j + 1 else j
    match ts[j]? with
    | none => none
    | some t => if startsWith t.value ['-'] then none else some j

/-- index of the last element satisfying `p`; `reversed(list(enumerate(..)))`; options.py:296 -/
def lastIdx {α : Type} (p : α → Bool) : List α → Option Nat
  | [] => none
  | x :: xs =>
    match lastIdx p xs with
    | some k => some (k + 1)
    | none => if p x then some 0 else none

/-- `_find_option`, options.py:283-313 -/
def find (o : Opts) (name : Char) : Option Nat × Option Nat :=
  match lastIdx (isOpt name) o.tokens with
  | none => (none, none)
  | some i =>
    if (o.tokens[i]?.map (·.value)) ≠ some ['-', name] then (some i, some i)
    else if !requiresArg o.optstring name then (some i, none)
    else (some i, argIndex o.tokens i)

/-- `string.whitespace`, options.py:318 -/
def isAsciiWs (c : Char) : Bool :=
  c == ' ' || c == '\t' || c == '\n' || c == '\r' || c == '\x0b' || c == '\x0c'

/-- `str(value)`, options.py:384-391 -/
def Val.text : Val → Str
  | .bool true => s% "True"
  | .bool false => s% "False"
  | .int n => intStr n
  | .str s => s

/-- `_needs_quoting`, options.py:315-318 -/
def needsQuoting (v : Val) : Bool := v.text.any isAsciiWs

/-- type of the token for a new value, options.py:197-203, 364-368 -/
def valueType (v : Val) : TokenType := if needsQuoting v then .doubleQuoted else .default

/-- `int(value) if value.isnumeric() else value`; `int` raises `ValueError` for numeric characters
that are not decimal digits; options.py:107 and 335-337 -/
def readValue [Uni] (s : Str) : Except Err Val :=
  if !s.isEmpty && s.all Uni.isNumeric then
    if s.all Uni.isDecimal then .ok (.int (decVal s)) else .error .valueError
  else .ok (.str s)

/-- value of the token at an index, options.py:329-331 -/
def valueAt (ts : List Token) (i : Nat) : Str := ((ts[i]?).map (·.value)).getD []

/-- `Options.__getattr__`, options.py:320-337, for a valid option; `none` is Python's `None` -/
def get [Uni] (o : Opts) (name : Char) : Except Err (Option Val) :=
  match find o name with
  | (none, _) =>
    if requiresArg o.optstring name then .ok ((o.defaults.find? (·.1 == name)).map (·.2))
    else .ok (some (.bool false))
  | (some i, j) =>
    let value :=
      match j with
      | some j => if j > i then valueAt o.tokens j else (valueAt o.tokens i).drop 2
      | none => (valueAt o.tokens i).drop 2
    if value.isEmpty then .ok (some (.bool true))
    else (readValue value).map some

/-- there is a token at `k` and it is whitespace, options.py:129, 132, 403 and 406 -/
def isWsAt (ts : List Token) (k : Nat) : Bool := (ts[k]?.map (·.type)) == some .whitespace

/-- `Options.__delattr__`, options.py:393-411, for a valid option -/
def del (o : Opts) (name : Char) : Opts :=
  match find o name with
  | (none, _) => o
  | (some i, j) =>
    let (i, j) :=
      if i = 0 then
        match j with
        | some j => if isWsAt o.tokens (j + 1) then (i, some (j + 1)) else (i, some j)
        | none => (i, none)
      else if isWsAt o.tokens (i - 1) then (i - 1, j)
      else (i, j)
    match j with
    | some j => if j > i then { o with tokens := o.tokens.take i ++ o.tokens.drop (j + 1) }
                else { o with tokens := o.tokens.eraseIdx i }
    | none => { o with tokens := o.tokens.eraseIdx i }

/-- The edits of `Options.__setattr__`, options.py:350-391; `none` is Python's `None` -/
def write (o : Opts) (name : Char) (value : Option Val) : Opts :=
  match find o name with
    | (none, _) =>
      let sp := if o.tokens.isEmpty then [] else [⟨.whitespace, [' ']⟩]
      match value with
      | none => o
      | some (.bool false) => o
      | some (.bool true) => { o with tokens := o.tokens ++ sp ++ [⟨.default, ['-', name]⟩] }
      | some (.int n) =>
        { o with tokens := o.tokens ++ sp ++ [⟨.default, '-' :: name :: intStr n⟩] }
      | some (.str s) =>
        { o with tokens := o.tokens ++ sp ++ [⟨.default, ['-', name]⟩, ⟨.whitespace, [' ']⟩,
          ⟨valueType (.str s), s⟩] }
    | (some i, j) =>
      match value with
      | none => del o name
      | some (.bool false) => del o name
      | some v =>
        let sep : Option Nat := match j with
          | some j => if j > i then some j else none
          | none => none
        match sep with
        | some j =>
          let ty (t : TokenType) : TokenType :=
            if needsQuoting v then
              if t = .quoted ∨ t = .doubleQuoted then t else .doubleQuoted
            else .default
          { o with tokens := o.tokens.modify j (fun t => ⟨ty t.type, v.text⟩) }
        | none =>
          if needsQuoting v then
            let ts := o.tokens.modify i (fun t => { t with value := t.value.take 2 })
            { o with tokens := ts.take (i + 1) ++
              [⟨.whitespace, [' ']⟩, ⟨.doubleQuoted, v.text⟩] ++ ts.drop (i + 1) }
          else
            { o with tokens :=
              o.tokens.modify i (fun t => { t with value := t.value.take 2 ++ v.text }) }

/-- `Options.__setattr__`, options.py:339-391, for a valid option -/
def set (o : Opts) (name : Char) (value : Option Val) : Except Err Opts :=
  let isBool := match value with | some (.bool _) => true | _ => false
  if requiresArg o.optstring name && isBool then .error .optionsException
  else if !requiresArg o.optstring name && !isBool && value.isSome then .error .optionsException
  else .ok (write o name value)

/-- the letter of a token that specifies a recognized option, options.py:414-422 -/
def optLetter (optstring : Str) (t : Token) : Option Char :=
  if t.type = .whitespace then none
  else match t.value with
    | '-' :: c :: _ => if valid optstring c then some c else none
    | _ => none

/-- distinct elements, first occurrences (the size of the Python set is its length);
options.py:415-422 -/
def distinct : List Char → List Char
  | [] => []
  | c :: cs => let r := distinct cs; if r.contains c then r else c :: r

/-- `Options.__len__`, options.py:413-423 -/
def len (o : Opts) : Nat := (distinct (o.tokens.filterMap (optLetter o.optstring))).length

/-- `Options.__iter__`, options.py:443-447 -/
def keys (o : Opts) : List Char :=
  (o.optstring.filter (· != ':')).filter (fun c => (find o c).1.isSome)

/-! ### positional arguments -/

/-- the token is an option whose argument is the next non-whitespace token, options.py:161-171 -/
def takesNext (optstring : Str) (t : Token) : Bool :=
  match t.value with
  | ['-', c] => valid optstring c && requiresArg optstring c
  | _ => false

/-- `Positionals._get_items`, options.py:144-175, starting at token `k` -/
def posIdx (optstring : Str) : Nat → List Token → List Nat
  | _, [] => []
  | k, t :: ts =>
    if t.type = .whitespace then posIdx optstring (k + 1) ts
    else if startsWith t.value ['-'] then
      if takesNext optstring t then
        match ts with
        | [] => []
        | w :: ts =>
          if w.type = .whitespace then
            match ts with
            | [] => []
            | _ :: ts => posIdx optstring (k + 3) ts
          else posIdx optstring (k + 2) ts
      else posIdx optstring (k + 1) ts
    else k :: posIdx optstring (k + 1) ts

/-- `_get_items` from the first token on, options.py:144-175 -/
def positionalIdx (o : Opts) : List Nat := posIdx o.optstring 0 o.tokens

/-- the values of the positional arguments as text, options.py:97-107 -/
def positionalValues (o : Opts) : List Str := (positionalIdx o).map (valueAt o.tokens)

/-- `Positionals.__getitem__` with an integer, options.py:106-107 -/
def posGet [Uni] (o : Opts) (i : Int) : Except Err Val :=
  match pyIndex (positionalIdx o).length i with
  | none => .error .indexError
  | some k => readValue (valueAt o.tokens ((positionalIdx o).getD k 0))

/-- `Positionals.__setitem__` with an integer, options.py:122-123 -/
def posSet (o : Opts) (i : Int) (v : Val) : Except Err Opts :=
  match pyIndex (positionalIdx o).length i with
  | none => .error .indexError
  | some k =>
    let index := (positionalIdx o).getD k 0
    .ok { o with tokens := o.tokens.modify index (fun t => { t with value := v.text }) }

/-- `delete` in `Positionals.__delitem__`, options.py:126-135 -/
def delToken (ts : List Token) (index : Nat) : List Token :=
  if index = 0 then
    if isWsAt ts 1 then (ts.eraseIdx 1).eraseIdx 0 else ts.eraseIdx 0
  else if isWsAt ts (index - 1) then (ts.eraseIdx (index - 1)).eraseIdx (index - 1)
  else ts.eraseIdx index

/-- `Positionals.__delitem__` with an integer, options.py:141-142 -/
def posDel (o : Opts) (i : Int) : Except Err Opts :=
  match pyIndex (positionalIdx o).length i with
  | none => .error .indexError
  | some k => .ok { o with tokens := delToken o.tokens ((positionalIdx o).getD k 0) }

/-- `Positionals.insert`, options.py:177-207 -/
def posInsert (o : Opts) (i : Int) (v : Val) : Except Err Opts :=
  let idx := positionalIdx o
  let put (index : Nat) : Opts :=
    let sp := if index > 0 then [⟨.whitespace, [' ']⟩] else []
    { o with tokens := o.tokens.take index ++ sp ++ [⟨valueType v, v.text⟩] ++ o.tokens.drop index }
  if i < idx.length then
    -- `items and i < len(items)`; for an empty list and negative `i` the else branch is taken
    if idx.isEmpty then .ok (put o.tokens.length)
    else match pyIndex idx.length i with
      | none => .error .indexError
      | some k =>
        let index := idx.getD k 0
        .ok (put (if index > 0 && isWsAt o.tokens (index - 1) then index - 1 else index))
  else .ok (put o.tokens.length)

end Options
end Specfile
