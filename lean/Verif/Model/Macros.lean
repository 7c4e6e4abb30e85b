import Verif.Regex.Core
import Verif.Py.Int
import Verif.Py.Err
/-
Model of /repo/specfile/macros.py. RPM itself is external: `Rpm`.
-/
namespace Specfile
open Py Regex

/-- `Macro`, macros.py:30-72 -/
structure Macro where
  name : Str
  options : Option Str
  body : Str
  level : Int
  used : Bool
  deriving DecidableEq, Repr

namespace Macros

/-- the values of `MacroLevel`, macros.py:18-27 -/
def levels : List Int := [-20, -15, -13, -11, -7, -5, -3, -1, 0]

/-- `MacroLevel.RPMRC`, `MacroLevel.OLDSPEC`; macros.py:22 and 26 -/
def rpmrc : Int := -11
/-- macros.py:26 -/
def oldspec : Int := -1

/-! ### `%dump` -/

/-- `macro_regex`, macros.py:90-92; groups: 1 `l`, 2 `u`, 3 `n`, 4 `o`, 5 `b` -/
def dumpRe [Uni] : Re Nat :=
  .bos ⬝ star isSpace ⬝ .grp 1 (opt (ch '-') ⬝ plus Uni.isDecimal) ⬝ .grp 2 (ch '=' ∣∣ ch ':') ⬝ ch ' ' ⬝
    .grp 3 (plus isWord) ⬝ opt (.grp 4 (ch '(' ⬝ plusL dot ⬝ ch ')')) ⬝ ch '\t' ⬝ .grp 5 (star dot) ⬝ .eos

/-- one joined line without newline, macros.py:99-115; the list of macros is reversed -/
def addLine [Uni] (result : List Macro) (line : Str) : Except Err (List Macro) :=
  match rmatch dumpRe line with
  | some t =>
    match parseInt ((t.get 1).getD []) with
    | none => .error .valueError
    | some l =>
      if levels.contains l then
        .ok (⟨(t.get 3).getD [], t.get 4, (t.get 5).getD [], l, t.get 2 == some ['=']⟩ :: result)
      else .error .valueError
  | none =>
    match result with
    | [] => .ok []
    | m :: ms => .ok ({ m with body := (if m.body.isEmpty then m.body else m.body ++ ['\n']) ++ line } :: ms)

/-- the loop, macros.py:93-116; `pending` is a line that ended in a backslash, without that ending -/
def parseLoop [Uni] (pending : Option Str) (result : List Macro) : List Str → Except Err (List Macro)
  | [] =>
    match pending with
    | none => .ok result.reverse
    | some _ => .error .indexError
  | x :: xs =>
    let line := pending.getD [] ++ x
    if endsWith line (s% "\\\n") then parseLoop (some line.dropLast.dropLast) result xs
    else
      match addLine result line.dropLast with
      | .error e => .error e
      | .ok result => parseLoop none result xs

/-- `_parse`, macros.py:76-116; the last line is dropped -/
def parse [Uni] (dump : List Str) : Except Err (List Macro) :=
  match dump with
  | [] => .error .indexError
  | _ => parseLoop none [] dump.dropLast

/-! ### the macro context -/

/-- The global macro context: for every name a stack of definitions, the active one first.
See macros.py:118-131. -/
abbrev Table := Str → List Macro

/-- What RPM does. Simplified: an expansion does not change the macro context.
See macros.py:130, 149, 170, 196 and 207. -/
structure Rpm where
  /-- `rpm.expandMacro`, with `rpm.error` replaced as in `Macros.expand`, macros.py:133-151 -/
  expand : Table → Str → Except Err Str
  /-- what `rpm.expandMacro("%dump")` prints, as lines with their ends, macros.py:118-131 -/
  dump : Table → List Str
  /-- the macro context after `rpm.reloadConfig()` -/
  config : Table

/-- replace the stack of one name, macros.py:170 and 196 -/
def assign (T : Table) (name : Str) (l : List Macro) : Table := fun n => if n = name then l else T n

/-- `rpm.delMacro`: the active definition is removed; macros.py:170 -/
def del (T : Table) (name : Str) : Table := assign T name (T name).tail

/-- `rpm.addMacro`, macros.py:196 -/
def add (T : Table) (name body : Str) : Table := assign T name (⟨name, none, body, oldspec, false⟩ :: T name)

/-- `s.replace("%%", "%")`; macros.py:172 -/
def unescape : Str → Str
  | '%' :: '%' :: s => '%' :: unescape s
  | c :: s => c :: unescape s
  | [] => []

/-- `%{name}`, macros.py:172 -/
def reference (name : Str) : Str := '%' :: '{' :: (name ++ ['}'])

/-- `MAX_REMOVAL_RETRIES`, macros.py:15 -/
def maxRetries : Nat := 20

/-- `remove`, macros.py:153-181. The loop need not end, `fuel` bounds the number of iterations. -/
def removeLoop (R : Rpm) (name : Str) : Nat → Nat → Table → Table × Option Err
  | 0, _, T => (T, some .outOfFuel)
  | fuel + 1, retry, T =>
    if retry < maxRetries then
      match R.expand (del T name) (reference name) with
      | .ok s => if s = reference (unescape name) then (del T name, none) else removeLoop R name fuel retry (del T name)
      | .error .rpmException => removeLoop R name fuel (retry + 1) (del T name)
      | .error e => (del T name, some e)
    else (T, some .macroRemoval)

/-- `remove` with enough fuel, macros.py:153-181 -/
def remove (R : Rpm) (fuel : Nat) (name : Str) (T : Table) : Table × Option Err := removeLoop R name fuel 0 T

/-- `define`, macros.py:183-196 -/
def define (R : Rpm) (fuel : Nat) (name body : Str) (T : Table) : Table × Option Err :=
  match remove R fuel name T with
  | (T', none) => (add T' name body, none)
  | r => r

/-- the loop of `reinit`, macros.py:208-210 -/
def removeAbove (R : Rpm) (fuel : Nat) (threshold : Int) : List Macro → Table → Table × Option Err
  | [], T => (T, none)
  | m :: ms, T =>
    if m.level > threshold then
      match remove R fuel m.name T with
      | (T', none) => removeAbove R fuel threshold ms T'
      | r => r
    else removeAbove R fuel threshold ms T

/-- `reinit`, macros.py:198-210; the old macro context is of no importance -/
def reinit [Uni] (R : Rpm) (fuel : Nat) (threshold : Int) (_ : Table) : Table × Option Err :=
  match parse (R.dump R.config) with
  | .error e => (R.config, some e)
  | .ok ms => removeAbove R fuel threshold ms R.config

end Macros
end Specfile
