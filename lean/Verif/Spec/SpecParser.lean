import Verif.Model.SpecParser
import Verif.Spec.Macros
/-
Histories of parsers, and what the source directory looks like while dummy sources exist.
-/
namespace Specfile.Spec
open Py SpecParser

/-- no link points to nothing -/
def NoDangling (fs : Files) : Prop := ∀ n t, fs n = some (.link t) → fs t ≠ none

/-- a file is written completely or not at all, only `OSError` is raised then, and files can be removed -/
def Benign (F : Faults) : Prop := (∀ n, F.write n = .none ∨ F.write n = .refused) ∧ ∀ n, F.unlink n = none

/-- `fs'` has everything of `fs`, and maybe additional plain files -/
def MoreFiles (fs fs' : Files) : Prop :=
  ∀ n, fs' n = fs n ∨ (fs n = none ∧ ∃ c, fs' n = some (.file c))

/-- `n` is the name of a source of the list, a file name -/
def Named (sources : List Str) (n : Str) : Prop := n ≠ [] ∧ ∃ s ∈ sources, Utils.filenameFromLocation s = n

open Classical in
/-- the source directory with dummy sources -/
noncomputable def faked (F : Faults) (sources nonEmpty : List Str) (fs : Files) : Files := fun n =>
  match fs n with
  | some e => some e
  | none =>
    if Named sources n ∧ F.write n = .none then some (.file (magic n))
    else if Named nonEmpty n ∧ F.write n = .none then some (.file dummyText)
    else none

/-- the first bytes that RPM expects, by file name extension -/
def rpmSignatures : List (Str × List Nat) :=
  [(s% ".bz2", [0x42, 0x5a, 0x68]), (s% ".zip", [0x50, 0x4b, 0x30, 0x30]), (s% ".xz", [0xfd, 0x37, 0x7a, 0x58, 0x5a, 0x00]),
   (s% ".zst", [0x28, 0xb5, 0x2f]), (s% ".lz", [0x4c, 0x5a, 0x49, 0x50]), (s% ".lrz", [0x4c, 0x52, 0x5a, 0x49]),
   (s% ".gz", [0x1f, 0x8b]), (s% ".7z", [0x37, 0x7a, 0xbc, 0xaf, 0x27, 0x1c])]

/-- the world with `LANG` and `LC_ALL` set -/
def inCLocale (w : World) : World :=
  ⟨w.table, w.files, fun k => if k = s% "LC_ALL" then some (s% "C.UTF-8") else if k = s% "LANG" then some (s% "C.UTF-8") else w.env k⟩

/-- a macro whose definitions all have one of the given bodies never expands to what an undefined macro is left as -/
def NeverDisguised (R : Macros.Rpm) (name : Str) (bodies : List Str) : Prop :=
  ∀ T : Macros.Table, T name ≠ [] → (∀ m ∈ T name, m.body ∈ bodies) → ∀ n, Unescaped name n →
    R.expand T ('%' :: '{' :: (name ++ ['}'])) ≠ .ok ('%' :: '{' :: (n ++ ['}']))

/-- the last value given for a name -/
def lastValue (l : List (Str × Option Str)) (n : Str) : Option (Option Str) :=
  (l.reverse.find? (fun p => p.1 == n)).map (·.2)

/-- the definitions that a macro has when RPM begins to parse: the source directory, the last value given by the user,
or what is configured up to the level of `rpmrc` -/
def startContext (config : Macros.Table) (given : List (Str × Option Str)) (sourcedir : Str) : Macros.Table := fun n =>
  if n = s% "_sourcedir" then [⟨n, none, sourcedir, -1, false⟩]
  else
    match lastValue given n with
    | some (some body) => [⟨n, none, body, -1, false⟩]
    | some none => []
    | none =>
      match config n with
      | [] => []
      | m :: l => if m.level ≤ -11 then m :: l else []

/-- all bodies that definitions of `n` have in the configuration or get from the user -/
def allBodies (config : Macros.Table) (given : List (Str × Option Str)) (sourcedir : Str) (n : Str) : List Str :=
  sourcedir :: ((config n).map (·.body) ++ given.filterMap (·.2))

/-- the state after creating and copying parsers, changing their attributes, letting them go, and parsing, with the ids
that were used. A copy gets an id that was never used before, parsing is not interrupted, and nothing else changes the
macro context, the source directory or the environment. -/
inductive ParserReach [Uni] (E : Env) (w : World) : List Nat → Sys E → Prop
  | start : ParserReach E w [] ⟨fun _ => none, none, w⟩
  | new (id inp) : ParserReach E w u s → ParserReach E w (id :: u) (new id inp s)
  | copy (src id) : ParserReach E w u s → id ∉ u → ParserReach E w (id :: u) (copy src id s)
  | drop (id) : ParserReach E w u s → ParserReach E w u (s.update id none)
  | change (id p inp) : ParserReach E w u s → s.parsers id = some p →
      ParserReach E w u (s.update id (some { p with inputs := inp }))
  | parse (id content extra shape) : ParserReach E w u s →
      (SpecParser.parse id content extra shape s).2 ≠ some .keyboardInterrupt →
      ParserReach E w u (SpecParser.parse id content extra shape s).1

end Specfile.Spec
