import Verif.Py.Seq
import Verif.Model.Utils
import Verif.Model.Conditions
/-
Model of /repo/specfile/macro_definitions.py.
-/
namespace Specfile
open Py Regex

/-- `CommentOutStyle`, macro_definitions.py:18-28 -/
inductive CommentOutStyle | dnl | hash | other
  deriving DecidableEq, Repr

/-- `MacroDefinition`, macro_definitions.py:31-83. Objects are values: mutation of a shared object is
not modelled. -/
structure MacroDefinition where
  name : Str
  body : Str
  isGlobal : Bool
  commentedOut : Bool
  style : CommentOutStyle
  ws0 : Str
  ws1 : Str
  ws2 : Str
  ws3 : Str
  pfx : Str
  valid : Bool
  preceding : List Str
  deriving DecidableEq, Repr

/-- `MacroDefinitions`, macro_definitions.py:152-175. Simplified: the constructor is supposed to set its attributes, which
it does unless a definition is called `_remainder`; see `Attributes.init` in `Verif.Model.Attributes` for that. -/
structure MacroDefinitions where
  data : List MacroDefinition
  remainder : List Str
  deriving DecidableEq, Repr

namespace MacroDefinition

/-- `__eq__`, macro_definitions.py:85-97: everything but `valid` -/
def eqv (a b : MacroDefinition) : Bool :=
  a.name == b.name && a.body == b.body && a.isGlobal == b.isGlobal &&
  a.commentedOut == b.commentedOut && a.style == b.style &&
  (a.ws0 == b.ws0 && a.ws1 == b.ws1 && a.ws2 == b.ws2 && a.ws3 == b.ws3) &&
  a.pfx == b.pfx && a.preceding == b.preceding

/-- `dnl`, macro_definitions.py:109-113 and 136-140 -/
def dnlStr (m : MacroDefinition) : Str :=
  if m.commentedOut && decide (m.style = .dnl) then s% "%dnl" else []

/-- `sc`, macro_definitions.py:110-115 and 137-142 -/
def scStr (m : MacroDefinition) : Str :=
  if m.commentedOut && decide (m.style = .hash) then ['#'] else ['%']

/-- `macro`, macro_definitions.py:116 and 143 -/
def kwStr (m : MacroDefinition) : Str := if m.isGlobal then s% "global" else s% "define"

/-- everything up to the body, macro_definitions.py:117 and 146 -/
def head (m : MacroDefinition) : Str :=
  m.ws0 ++ m.dnlStr ++ m.pfx ++ m.scStr ++ m.kwStr ++ m.ws1 ++ m.name ++ m.ws2

/-- `__str__`, macro_definitions.py:107-117 -/
def str (m : MacroDefinition) : Str := m.head ++ m.body ++ m.ws3

/-- `get_raw_data`, macro_definitions.py:133-149 -/
def raw (m : MacroDefinition) : List Str :=
  match splitC '\n' (m.body ++ m.ws3) with
  | [] => m.preceding ++ [m.head]      -- unreachable: `str.split` with a separator is never empty
  | b :: bs => m.preceding ++ (m.head ++ b) :: bs

end MacroDefinition

namespace MacroDefinitions

/-- `get_raw_data`, macro_definitions.py:398-403 -/
def raw (m : MacroDefinitions) : List Str := (m.data.map (·.raw)).flatten ++ m.remainder

/-- `container.index(self)` (`list.index`, by equality), macro_definitions.py:130 -/
def index (data : List MacroDefinition) (x : MacroDefinition) : Option Nat :=
  data.findIdx? (fun y => y.eqv x)

/-- `MacroDefinition.get_position`, macro_definitions.py:119-131 -/
def position (m : MacroDefinitions) (x : MacroDefinition) : Except Err Nat :=
  match index m.data x with
  | none => .error .valueError
  | some i => .ok (((m.data.take i).map (fun y => y.raw.length)).sum + x.preceding.length)

/-- `__contains__`, macro_definitions.py:181-187 -/
def contains (m : MacroDefinitions) (name : Str) : Bool := m.data.any (fun y => y.name == name)

/-- the loop of `find` without position, macro_definitions.py:271-278; `first` is `first_match` -/
def findLoop (name : Str) : Nat → Option Nat → List MacroDefinition → Option Nat
  | _, first, [] => first
  | i, first, x :: xs =>
    if x.name == name then
      if x.valid then some i
      else findLoop name (i + 1) (if first.isNone then some i else first) xs
    else findLoop name (i + 1) first xs

/-- the loop of `find` with a position, macro_definitions.py:271-280 -/
def findPosLoop (m : MacroDefinitions) (name : Str) (pos : Nat) :
    Nat → List MacroDefinition → Except Err Nat
  | _, [] => .error .valueError
  | i, x :: xs =>
    if x.name == name then
      match m.position x with
      | .error e => .error e
      | .ok p => if p = pos then .ok i else findPosLoop m name pos (i + 1) xs
    else findPosLoop m name pos (i + 1) xs

/-- `find`, macro_definitions.py:253-283 -/
def find (m : MacroDefinitions) (name : Str) (pos : Option Nat) : Except Err Nat :=
  match pos with
  | none => match findLoop name 0 none m.data with
    | none => .error .valueError
    | some i => .ok i
  | some p => findPosLoop m name p 0 m.data

/-- `get`, macro_definitions.py:250-251 -/
def get (m : MacroDefinitions) (name : Str) (pos : Option Nat) : Except Err MacroDefinition :=
  match m.find name pos with
  | .error e => .error e
  | .ok i => match m.data[i]? with
    | none => .error .indexError
    | some x => .ok x

/-- `__setattr__` with a string, macro_definitions.py:197-206. For a name that is not defined the definitions stay as
they are and the string becomes an attribute of the Python object, see `Verif.Model.Attributes`. -/
def setBody (m : MacroDefinitions) (name body : Str) : Except Err MacroDefinitions :=
  if !m.contains name then .ok m
  else match m.find name none with
  | .error _ => .error .attributeError
  | .ok i => .ok { m with data := m.data.modify i (fun x => { x with body := body }) }

/-- outcome of a mutating operation: the state it leaves behind and the exception, if any;
macro_definitions.py:197-245 -/
abbrev Res := MacroDefinitions × Option Err

/-- `delete` in `__delitem__`, macro_definitions.py:231-239 -/
def delItem (m : MacroDefinitions) (i : Int) : Res :=
  match pyIndex m.data.length i with
  | none => (m, some .indexError)
  | some k =>
    let lines := ((m.data[k]?).map (·.preceding)).getD []
    let data := m.data.eraseIdx k
    if i < data.length then
      match pyIndex data.length i with
      | none => ({ m with data := data }, some .indexError)
      | some j =>
        ({ m with data := data.modify j (fun x => { x with preceding := lines ++ x.preceding }) }, none)
    else ({ data := data, remainder := lines ++ m.remainder }, none)

/-- the loop over the indices of a slice, macro_definitions.py:242-243 (`l` already reversed) -/
def delAll (m : MacroDefinitions) : List Nat → Res
  | [] => (m, none)
  | i :: l =>
    match delItem m i with
    | (m', some e) => (m', some e)
    | (m', none) => delAll m' l

/-- `__delitem__` with a slice, macro_definitions.py:241-243 -/
def delSlice (m : MacroDefinitions) (start stop step : Option Int) : Res :=
  match sliceIndices m.data.length start stop step with
  | .error e => (m, some e)
  | .ok l => delAll m l.reverse

/-- `__delattr__`, macro_definitions.py:208-214; a name that is not defined is taken to be no attribute of the Python
object either, see `Verif.Model.Attributes` -/
def delAttr (m : MacroDefinitions) (name : Str) : Res :=
  match m.find name none with
  | .error _ => (m, some .attributeError)
  | .ok i => ({ m with data := m.data.eraseIdx i }, none)

/-! ### parsing -/

/-- `md_regex`, macro_definitions.py:306-322; the groups are numbered as in the code -/
def mdRe [Uni] : Re Nat :=
  .bos ⬝ .grp 1 (star isSpace) ⬝ opt (.grp 2 (lit (s% "%dnl"))) ⬝
    .grp 3 (.ifgrp 2 (starL dot ⬝ ch '%') (ch '%' ∣∣ (ch '#' ⬝ opt (starL dot ⬝ ch '%')))) ⬝
    .grp 4 (lit (s% "global") ∣∣ lit (s% "define")) ⬝ .grp 5 (plus isSpace) ⬝
    .grp 6 (plus isWord ⬝ opt (ch '(' ⬝ starL dot ⬝ ch ')')) ⬝ .grp 7 (plus isSpace) ⬝
    .grp 8 (starL dot) ⬝ .grp 9 (star isSpace ∣∣ ch '\\') ⬝ .eos

/-- `[^\S\n]`, macro_definitions.py:342 -/
def inlineSpace (c : Char) : Bool := isSpace c && c != '\n'

/-- `re.split(r"([^\S\n]+)$", body, maxsplit=1)` and what is made of it, macro_definitions.py:342-347:
the body and the whitespace to be put before `ws3`. -/
def splitTrailing (body : Str) : Str × Str :=
  match search (.grp 1 (plus inlineSpace) ⬝ .eos : Re Nat) body with
  | none => (body, [])
  | some f => (f.before, (f.st.get 1).getD [])

/-- `bc > 0 or pc > 0 or body.endswith("\\")`, macro_definitions.py:338 -/
def open_ (body : Str) : Bool :=
  decide ((Utils.countBrackets body).1 > 0) || decide ((Utils.countBrackets body).2 > 0) ||
    endsWith body ['\\']

/-- the `while` loop, macro_definitions.py:338-341: the body and the number of lines consumed -/
def takeBody (body : Str) : List (Str × Bool) → Str × Nat
  | [] => (body, 0)
  | l :: ls =>
    if open_ body then
      let r := takeBody (body ++ '\n' :: l.1) ls
      (r.1, r.2 + 1)
    else (body, 0)

/-- macro_definitions.py:330-368: the definition for a line that matches, and the number of
further lines consumed -/
def build (t : St Nat) (valid : Bool) (buffer : List Str) (rest : List (Str × Bool)) :
    MacroDefinition × Nat :=
  let g := fun k => (t.get k).getD []
  let dnl := (t.get 2).isSome
  let sc := g 3
  let escaped := decide (sc.length > 1) && endsWith sc (s% "%%")
  let hashed := endsWith sc ['#']
  let continues := !dnl && !escaped && !hashed
  let body := if continues && g 9 == ['\\'] then g 8 ++ g 9 else g 8
  let ws3 := if continues && g 9 == ['\\'] then [] else g 9
  let r := if continues then takeBody body rest else (body, 0)
  let s := splitTrailing r.1
  ({ name := g 6, body := s.1, isGlobal := g 4 == s% "global"
     commentedOut := dnl || hashed || (escaped && sc.contains '#')
     style := if hashed then .hash else if escaped && sc.contains '#' then .other else .dnl
     ws0 := g 1, ws1 := g 5, ws2 := g 7, ws3 := s.2 ++ ws3
     pfx := if sc.length > 1 then sc.dropLast else []
     valid := valid, preceding := buffer }, r.2)

/-- the main loop of `_parse`, macro_definitions.py:323-372; `skip` is the number of lines already
consumed by the body of the previous definition -/
def parseLoop [Uni] (buffer : List Str) : Nat → List (Str × Bool) → MacroDefinitions
  | _, [] => ⟨[], buffer⟩
  | skip + 1, _ :: ls => parseLoop buffer skip ls
  | 0, l :: ls =>
    match rmatch mdRe l.1 with
    | none => parseLoop (buffer ++ [l.1]) 0 ls
    | some t =>
      let d := build t l.2 buffer ls
      let r := parseLoop [] d.2 ls
      ⟨d.1 :: r.data, r.remainder⟩

/-- `_parse` for lines with validity flags, macro_definitions.py:285-372 -/
def parseFlagged [Uni] (lines : List (Str × Bool)) : MacroDefinitions := parseLoop [] 0 lines

/-- `_parse` for plain lines: every definition is valid, macro_definitions.py:299-304 -/
def parseLines [Uni] (lines : List Str) : MacroDefinitions :=
  parseFlagged (lines.map (fun l => (l, true)))

/-- the excluded ranges, conditions.py:90-94. `get_position` cannot fail for an element of the
list. -/
def excluded (m : MacroDefinitions) : List Conditions.Range :=
  m.data.map (fun x =>
    let p := match m.position x with | .ok p => p | .error _ => 0
    (p, p + (splitC '\n' x.body).length))

/-- `parse`, macro_definitions.py:374-396; `ex` as in `Model/Conditions.lean` -/
def parse [Uni] (ex : Conditions.Oracle) (withConditions : Bool) (lines : List Str) :
    Except Err MacroDefinitions :=
  if !withConditions then .ok (parseLines lines)
  else match Conditions.processConditions ex (parseLines lines).excluded lines with
    | .error e => .error e
    | .ok ls => .ok (parseFlagged ls)

end MacroDefinitions
end Specfile
