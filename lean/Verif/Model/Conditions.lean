import Verif.Py.Err
import Verif.Py.Int
import Verif.Regex.Core
/-
Model of /repo/specfile/conditions.py.

`Macros.expand` / `Specfile.expand` is the oracle `ex : Nat → Str → Except Err Str`; its first
argument is the index of the line being processed, so the answer may depend on everything that
happened before (the very first call also parses the spec file).
-/
namespace Specfile
open Py Regex
namespace Conditions

/-- expansion of a string while the line with the given index is processed,
conditions.py:31-37 and 80-84 -/
abbrev Oracle := Nat → Str → Except Err Str

/-- groups of the condition regex, conditions.py:95-112 -/
inductive G | kwd | expr | fin
  deriving DecidableEq, Repr

/-- `%((el)?if(n?(arch|os))?|endif|else)`, conditions.py:99 -/
def kwdRe : Re G :=
  ch '%' ⬝ ((opt (lit (s% "el")) ⬝ lit (s% "if") ⬝
      opt (opt (ch 'n') ⬝ (lit (s% "arch") ∣∣ lit (s% "os")))) ∣∣
    (lit (s% "endif") ∣∣ lit (s% "else")))

/-- `condition_regex`, conditions.py:95-112 -/
def condRe : Re G :=
  .bos ⬝ star isSpace ⬝ .grp .kwd kwdRe ⬝ star isSpace ⬝
    opt (plus isSpace ⬝ .grp .expr (starL dot) ⬝ .grp .fin (star isSpace ∣∣ ch '\\')) ⬝ .eos

/-- the test `any(t for t in expand(expression).split() if t == target)`: the generator yields the
matching words themselves, which are non-empty and therefore true; conditions.py:52 and 56 -/
def listed (target : Str) (text : Str) : Bool := (words text).any (· == target)

/-- `resolve_expression`, conditions.py:15-59 -/
def resolve [Uni] (ex : Str → Except Err Str) (keyword expression : Str) : Except Err Bool :=
  if keyword == s% "%if" || keyword == s% "%elif" then
    match ex (s% "%{expr:" ++ expression ++ ['}']) with
    | .error .rpmException => .ok false
    | .error e => .error e
    | .ok r =>
      if startsWith r (s% "%{expr:") then .ok false
      else match parseInt r with
        | some i => .ok (decide (i ≠ 0))
        | none => .ok true
  else if endsWith keyword (s% "arch") then
    match ex (s% "%{_target_cpu}") with
    | .error e => .error e
    | .ok cpu => match ex expression with
      | .error e => .error e
      | .ok l => .ok (if keyword == s% "%ifnarch" then !listed cpu l else listed cpu l)
  else if endsWith keyword (s% "os") then
    match ex (s% "%{_target_os}") with
    | .error e => .error e
    | .ok os => match ex expression with
      | .error e => .error e
      | .ok l => .ok (if keyword == s% "%ifnos" then !listed os l else listed os l)
  else .ok false

/-- `range(position, position + n)` as the pair of its bounds; conditions.py:90-94 -/
abbrev Range := Nat × Nat

/-- `any(index in r for r in excluded_lines)`, conditions.py:119 -/
def isExcluded (excluded : List Range) (i : Nat) : Bool :=
  excluded.any (fun r => decide (r.1 ≤ i) && decide (i < r.2))

/-- `expand(line)` with the original line in case of failure, conditions.py:122-126 -/
def expandLine (ex : Str → Except Err Str) (line : Str) : Except Err Str :=
  match ex line with
  | .ok l => .ok l
  | .error .rpmException => .ok line
  | .error e => .error e

/-- the `while expression.endswith("\\") and indexed_lines` loop, conditions.py:146-149:
the final expression and the number of lines consumed -/
def continuation (expression : Str) : List Str → Str × Nat
  | [] => (expression, 0)
  | l :: ls =>
    if endsWith expression ['\\'] then
      let r := continuation (expression.dropLast ++ l) ls
      (r.1, r.2 + 1)
    else (expression, 0)

/-- the expression of an `%if`/`%elif` line, conditions.py:142-149: the text passed to
`resolve_expression` and the number of lines consumed -/
def expression (expr fin : Option Str) (rest : List Str) : Str × Nat :=
  match expr with
  | none => (s% "0", 0)
  | some e =>
    if e.isEmpty then (s% "0", 0)
    else
      let r := continuation (if fin = some ['\\'] then e ++ ['\\'] else e) rest
      (if r.1.isEmpty then s% "0" else r.1, r.2)

/-- One round of the loop, conditions.py:117-158, for the line with index `i`: the flags of this
line and of the lines consumed with it, and the new branch stack (innermost first). -/
def step [Uni] (ex : Oracle) (excluded : List Range) (i : Nat) (line : Str) (rest : List Str)
    (branches : List Bool) : Except Err (Bool × List Bool × List Bool) :=
  match branches with
  | [] => .error .indexError
  | top :: outer =>
    if isExcluded excluded i then .ok (top, [], branches)
    else match expandLine (ex i) line with
    | .error e => .error e
    | .ok l =>
      match rmatch condRe l with
      | none => .ok (top, [], branches)
      | some m =>
        let keyword := (m.get .kwd).getD []
        if keyword == s% "%endif" then
          match outer with
          | [] => .error .indexError
          | b :: _ => .ok (b, [], outer)
        else if startsWith keyword (s% "%el") then
          match outer with
          | [] => .error .indexError
          | b :: _ =>
            let top' := if b then !top else top
            if startsWith keyword (s% "%elif") then
              let e := expression (m.get .expr) (m.get .fin) rest
              match (if !top' then .ok false else resolve (ex i) keyword e.1) with
              | .error er => .error er
              | .ok branch => .ok (b, List.replicate e.2 top', branch :: outer)
            else .ok (b, [], top' :: outer)
        else if startsWith keyword (s% "%if") then
          let e := expression (m.get .expr) (m.get .fin) rest
          match (if !top then .ok false else resolve (ex i) keyword e.1) with
          | .error er => .error er
          | .ok branch => .ok (top, List.replicate e.2 top, branch :: top :: outer)
        else .ok (top, [], branches)

/-- the main loop, conditions.py:116-158. Lines consumed as a continuation are not processed again:
`skip` holds the flags recorded for them. -/
def loop [Uni] (ex : Oracle) (excluded : List Range) : Nat → List Bool → List Bool → List Str →
    Except Err (List (Str × Bool))
  | _, _, _, [] => .ok []
  | i, f :: skip, branches, l :: ls =>
    match loop ex excluded (i + 1) skip branches ls with
    | .error e => .error e
    | .ok r => .ok ((l, f) :: r)
  | i, [], branches, l :: ls =>
    match step ex excluded i l ls branches with
    | .error e => .error e
    | .ok (flag, skip, branches') =>
      match loop ex excluded (i + 1) skip branches' ls with
      | .error e => .error e
      | .ok r => .ok ((l, flag) :: r)

/-- `process_conditions`, conditions.py:62-159; `excluded` are the lines of macro definition bodies
(`MacroDefinitions.excluded`). -/
def processConditions [Uni] (ex : Oracle) (excluded : List Range) (lines : List Str) :
    Except Err (List (Str × Bool)) :=
  loop ex excluded 0 [] [true] lines

end Conditions
end Specfile
