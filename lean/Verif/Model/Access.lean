import Verif.Py.Str
import Verif.Py.Err
/-
Model of the accessors of `Specfile`, /repo/specfile/specfile.py:224-427, as programs of nested `with` blocks:
`lines`, `macro_definitions`, `sections`, the accessors of one section: `tags`, `changelog`, `prep`, and the accessors of
the preamble together with lists: `sources`, `patches`.

`Verif.Model.Context` models how contexts are opened and closed. `Verif.Props.Context` shows that a `with` block of an accessor that is open already yields the same object and writes
nothing back, and that otherwise the object is created at the beginning and written back at the end of the block
also in case of an exception; the programs are interpreted accordingly. Parsing and formatting are parameters. Not
modelled: `reload` inside of a block, failing to save. An exception of a parser is assumed
not to be a `KeyError`, it would be swallowed if the lines or sections are open already.
-/
namespace Specfile.Access
open Py

/-- what the accessors need: parsers and their inverses. `Child` are the accessors of one section together with
their serialized arguments (`ContextManager.__call__`), `Group` are `sources` and `patches` with theirs.
See specfile.py:246-253, 263-268, 289-296, 365-386. -/
structure Codec where
  Sec : Type
  Macros : Type
  X : Type
  Child : Type
  parseMacros : List Str → Except Err Macros
  rawMacros : Macros → List Str
  parseSections : List Str → Except Err (List Sec)
  rawSections : List Sec → List Str
  parse : Child → Sec → Except Err X
  /-- `section.data = ....get_raw_section_data()` -/
  store : Child → X → Sec → Sec
  Group : Type
  L : Type
  /-- `tags()`, specfile.py:365 -/
  preamble : Child
  preambleAt : List (Nat × Sec) → Except Err (Option Nat)
  /-- `s.id == "sourcelist"`, specfile.py:369, or `"patchlist"`, specfile.py:410 -/
  isList : Group → Sec → Bool
  /-- `Sourcelist.parse`, specfile.py:367 -/
  parseList : Sec → Except Err L
  /-- `section.data = sourcelist.get_raw_section_data()`, specfile.py:385-386 -/
  storeList : L → Sec → Sec

variable (C : Codec)

/-- the state behind the accessors, specfile.py:224-427, context_management.py:85-90 -/
structure State where
  /-- `_lines`, the object that `lines()` yields -/
  lines : List Str
  /-- a `lines()` block is open -/
  linesOpen : Bool
  macros : Option C.Macros
  /-- the object that `sections()` yields; sections have an identity, which is a number here -/
  sections : Option (List (Nat × C.Sec))
  /-- the open accessors of sections with the identity of the section and the object -/
  children : List (C.Child × Option (Nat × C.X))
  /-- the open blocks of `sources` and `patches` with their lists -/
  groups : List (C.Group × List (Nat × C.L))
  autosave : Bool
  /-- the lines in the file -/
  file : List Str

/-- a block of code that uses accessors, specfile.py:224-427 seen from the caller -/
inductive Prog where
  | skip
  | seq (p q : Prog)
  | raise (e : Err)
  | editLines (u : List Str → List Str)
  | editMacros (u : C.Macros → C.Macros)
  | editSections (u : List (Nat × C.Sec) → List (Nat × C.Sec))
  | editChild (c : C.Child) (u : C.X → C.X)
  | withLines (p : Prog)
  | withMacros (p : Prog)
  | withSections (p : Prog)
  /-- `c` are the serialized arguments, the function tells which section is accessed: its index, or `none` if the
  accessor yields `None` -/
  | withChild (c : C.Child) (target : List (Nat × C.Sec) → Except Err (Option Nat)) (p : Prog)
  /-- change the tags and the lists through the object of `sources` or `patches` -/
  | editGroup (g : C.Group) (u : C.X → List C.L → C.X × List C.L)
  | withGroup (g : C.Group) (p : Prog)

variable {C}

/-- the state that a block leaves behind and the exception, if any; specfile.py:250-253 -/
abbrev Res (C : Codec) := State C × Option Err

/-- the block of an accessor that is open already, context_management.py:121-127: a `KeyError` is swallowed -/
def shared (r : Res C) : Res C := (r.1, if r.2 = some .keyError then none else r.2)

/-- an exception that was raised first is kept, context_management.py:136-143 -/
def keep (r : Res C) (s : State C) : Res C := (s, r.2)

/-- `lines`, specfile.py:224-236, used by another accessor. An exception in the block of that accessor does not pass through
here, because generators are resumed normally (context_management.py:140). -/
def needLines (s : State C) (body : State C → Res C) : Res C :=
  if s.linesOpen then body s
  else
    let r := body { s with linesOpen := true }
    keep r { r.1 with linesOpen := false, file := if r.1.autosave then r.1.lines else r.1.file }

/-- `lines`, specfile.py:224-236 -/
def inLines (s : State C) (body : State C → Res C) : Res C :=
  if s.linesOpen then shared (body s) else needLines s body

/-- the part of `macro_definitions` between parsing and writing back, specfile.py:247-253 -/
def inMacros (s : State C) (body : State C → Res C) : Res C :=
  match s.macros with
  | some _ => shared (body s)
  | none => needLines s (fun s =>
      match C.parseMacros s.lines with
      | .error e => (s, some e)
      | .ok m =>
        let r := body { s with macros := some m }
        keep r { r.1 with macros := none, lines := match r.1.macros with
          | some m => C.rawMacros m
          | none => r.1.lines })

/-- number the sections, sections.py:286-299 -/
def number {α : Type} : Nat → List α → List (Nat × α)
  | _, [] => []
  | n, x :: l => (n, x) :: number (n + 1) l

/-- `sections`, specfile.py:255-268, used by another accessor -/
def needSections (s : State C) (body : State C → Res C) : Res C :=
  match s.sections with
  | some _ => body s
  | none => needLines s (fun s =>
      match C.parseSections s.lines with
      | .error e => (s, some e)
      | .ok ss =>
        let r := body { s with sections := some (number 0 ss) }
        keep r { r.1 with sections := none, lines := match r.1.sections with
          | some ss => C.rawSections (ss.map (·.2))
          | none => r.1.lines })

/-- `sections`, specfile.py:255-268 -/
def inSections (s : State C) (body : State C → Res C) : Res C :=
  if s.sections.isSome then shared (body s) else needSections s body

/-- `section.data = ...` for the section with this identity, if it is still there;
specfile.py:296, 325 and 345 -/
def storeAt (c : C.Child) (id : Nat) (x : C.X) (ss : List (Nat × C.Sec)) : List (Nat × C.Sec) :=
  ss.map (fun p => if p.1 = id then (p.1, C.store c x p.2) else p)

/-- write back the innermost accessor of a section, specfile.py:293-296, 322-325 and 342-345 -/
def closeChild (s : State C) : State C :=
  match s.children with
  | (c, some (id, x)) :: rest => { s with children := rest, sections := s.sections.map (storeAt c id x) }
  | _ :: rest => { s with children := rest }
  | [] => s

/-- the body of `tags`, `changelog`, `prep` inside `with self.sections()`: choose the section, build the object, write it
back; specfile.py:289-296, 312-325 and 335-345 -/
def openChild (c : C.Child) (target : List (Nat × C.Sec) → Except Err (Option Nat)) (body : State C → Res C)
    (s : State C) : Res C :=
  match s.sections with
  | none => (s, none)
  | some ss =>
    match target ss with
    | .error e => (s, some e)
    | .ok none =>
      let r := body { s with children := (c, none) :: s.children }
      keep r (closeChild r.1)
    | .ok (some i) =>
      match ss[i]? with
      | none => (s, none)
      | some p =>
        match C.parse c p.2 with
        | .error e => (s, some e)
        | .ok x =>
          let r := body { s with children := (c, some (p.1, x)) :: s.children }
          keep r (closeChild r.1)

/-- `tags`, `changelog`, `prep`, specfile.py:275-345 -/
def inChild [DecidableEq C.Child] (s : State C) (c : C.Child)
    (target : List (Nat × C.Sec) → Except Err (Option Nat)) (body : State C → Res C) : Res C :=
  if s.children.any (fun p => p.1 == c) then shared (body s) else needSections s (openChild c target body)

/-- `tags` used by another accessor, specfile.py:275-296 and 365 -/
def needChild [DecidableEq C.Child] (c : C.Child) (target : List (Nat × C.Sec) → Except Err (Option Nat))
    (body : State C → Res C) (s : State C) : Res C :=
  if s.children.any (fun p => p.1 == c) then body s else needSections s (openChild c target body)

/-- the lists of all sections of the right kind, specfile.py:366-370 and 407-411 -/
def listsOf (g : C.Group) : List (Nat × C.Sec) → Except Err (List (Nat × C.L))
  | [] => .ok []
  | p :: ss =>
    if C.isList g p.2 then
      match C.parseList p.2 with
      | .error e => .error e
      | .ok l =>
        match listsOf g ss with
        | .error e => .error e
        | .ok ls => .ok ((p.1, l) :: ls)
    else listsOf g ss

/-- write one list into its section, specfile.py:386 and 427 -/
def storeListAt (q : Nat × C.L) (ss : List (Nat × C.Sec)) : List (Nat × C.Sec) :=
  ss.map (fun p => if p.1 = q.1 then (p.1, C.storeList q.2 p.2) else p)

/-- write back the lists of the innermost `sources` or `patches`, specfile.py:384-386 and 425-427 -/
def closeGroup (s : State C) : State C :=
  match s.groups with
  | (_, ls) :: rest => { s with groups := rest, sections := s.sections.map (fun ss => ls.foldl (fun ss q => storeListAt q ss) ss) }
  | [] => s

/-- the body of `sources` and `patches`, specfile.py:366-386 and 407-427 -/
def openGroup (g : C.Group) (body : State C → Res C) (s : State C) : Res C :=
  match s.sections with
  | none => (s, none)
  | some ss =>
    match listsOf g ss with
    | .error e => (s, some e)
    | .ok ls =>
      let r := body { s with groups := (g, ls) :: s.groups }
      keep r (closeGroup r.1)

/-- `sources`, `patches`, specfile.py:347-427 -/
def inGroup [DecidableEq C.Child] [DecidableEq C.Group] (s : State C) (g : C.Group) (body : State C → Res C) : Res C :=
  if s.groups.any (fun p => p.1 == g) then shared (body s)
  else needSections s (needChild C.preamble C.preambleAt (openGroup g body))

/-- change the object of an accessor,
specfile.py:233, 251, 266, 294, 323 and 343 (what is yielded) -/
def editAt [DecidableEq C.Child] (c : C.Child) (u : C.X → C.X) :
    List (C.Child × Option (Nat × C.X)) → List (C.Child × Option (Nat × C.X))
  | [] => []
  | (c', o) :: l => if c' = c then (c', o.map (fun p => (p.1, u p.2))) :: l else (c', o) :: editAt c u l

/-- the object of an accessor, specfile.py:294 -/
def objectOf [DecidableEq C.Child] (c : C.Child) : List (C.Child × Option (Nat × C.X)) → Option C.X
  | [] => none
  | (c', o) :: l => if c' = c then o.map (·.2) else objectOf c l

/-- the lists of an accessor, specfile.py:374-378 -/
def listsAt [DecidableEq C.Group] (g : C.Group) : List (C.Group × List (Nat × C.L)) → List C.L
  | [] => []
  | (g', ls) :: l => if g' = g then ls.map (·.2) else listsAt g l

/-- change lists in place: their number stays the same; specfile.py:374-378 -/
def refill {α : Type} : List (Nat × α) → List α → List (Nat × α)
  | p :: l, x :: r => (p.1, x) :: refill l r
  | l, _ => l

/-- change the lists of an accessor, specfile.py:372-383 and 413-424 (what is yielded) -/
def editLists [DecidableEq C.Group] (g : C.Group) (new : List C.L) :
    List (C.Group × List (Nat × C.L)) → List (C.Group × List (Nat × C.L))
  | [] => []
  | (g', ls) :: l => if g' = g then (g', refill ls new) :: l else (g', ls) :: editLists g new l

/-- an edit through the object of `sources` or `patches`, which refers to the object of `tags()` and to the lists;
specfile.py:372-383 and 413-424 -/
def editSources [DecidableEq C.Child] [DecidableEq C.Group] (g : C.Group) (u : C.X → List C.L → C.X × List C.L)
    (s : State C) : State C :=
  match objectOf C.preamble s.children with
  | none => s
  | some x =>
    { s with
      children := editAt C.preamble (fun _ => (u x (listsAt g s.groups)).1) s.children
      groups := editLists g (u x (listsAt g s.groups)).2 s.groups }

/-- run a program; edits need the accessor to be open; specfile.py:224-427 -/
def run [DecidableEq C.Child] [DecidableEq C.Group] : Prog C → State C → Res C
  | .skip, s => (s, none)
  | .seq p q, s =>
    match run p s with
    | (s', none) => run q s'
    | r => r
  | .raise e, s => (s, some e)
  | .editLines u, s => ({ s with lines := u s.lines }, none)
  | .editMacros u, s => ({ s with macros := s.macros.map u }, none)
  | .editSections u, s => ({ s with sections := s.sections.map u }, none)
  | .editChild c u, s => ({ s with children := editAt c u s.children }, none)
  | .withLines p, s => inLines s (run p)
  | .withMacros p, s => inMacros s (run p)
  | .withSections p, s => inSections s (run p)
  | .withChild c t p, s => inChild s c t (run p)
  | .editGroup g u, s => (editSources g u s, none)
  | .withGroup g p, s => inGroup s g (run p)

end Specfile.Access
