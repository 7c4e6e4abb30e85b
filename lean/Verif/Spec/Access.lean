import Verif.Model.Access
/-
What nested `with` blocks should do: every object that is open is edited in its own place, no part of the file is open
twice, and the end of a block puts its object into its place in the surrounding one.
-/
namespace Specfile.Spec
open Py Access

/-- objects of single sections, with the identity of the section -/
abbrev Objects (C : Codec) := List (C.Child × Option (Nat × C.X))

/-- the lists of open `sources()` and `patches()` blocks, with the identities of their sections -/
abbrev Groups (C : Codec) := List (C.Group × List (Nat × C.L))

variable {C : Codec}

/-- what is open: the lines, or the macro definitions, or the sections with objects for some of them -/
inductive Focus (C : Codec) where
  /-- the lines; `inside` tells whether they are accessed or nothing is -/
  | lines (inside : Bool) (ls : List Str)
  | macros (m : C.Macros)
  | sections (ss : List (Nat × C.Sec)) (os : Objects C) (gs : Groups C)

/-- a `KeyError` is lost in a repeated block -/
def swallow (r : Focus C × Option Err) : Focus C × Option Err := (r.1, if r.2 = some .keyError then none else r.2)

/-- put the object into the section with this identity -/
def put (c : C.Child) (o : Option (Nat × C.X)) (ss : List (Nat × C.Sec)) : List (Nat × C.Sec) :=
  match o with
  | none => ss
  | some (id, x) => ss.map (fun p => (p.1, if p.1 = id then C.store c x p.2 else p.2))

/-- put lists into the sections with these identities -/
def putLists : List (Nat × C.L) → List (Nat × C.Sec) → List (Nat × C.Sec)
  | [], ss => ss
  | q :: ls, ss => putLists ls (ss.map (fun p => (p.1, if p.1 = q.1 then C.storeList q.2 p.2 else p.2)))

/-- get the object of a section -/
def object (c : C.Child) (target : List (Nat × C.Sec) → Except Err (Option Nat)) (ss : List (Nat × C.Sec)) :
    Except Err (Option (Nat × C.X)) :=
  match target ss with
  | .error e => .error e
  | .ok none => .ok none
  | .ok (some i) =>
    match ss[i]? with
    | none => .ok none
    | some p =>
      match C.parse c p.2 with
      | .error e => .error e
      | .ok x => .ok (some (p.1, x))

/-- the error of a list section that cannot be read -/
def listError (p : Nat × C.Sec) : Option Err :=
  match C.parseList p.2 with
  | .error e => some e
  | .ok _ => none

/-- the list of a section that can be read -/
def listOf (p : Nat × C.Sec) : Option (Nat × C.L) :=
  match C.parseList p.2 with
  | .error _ => none
  | .ok l => some (p.1, l)

/-- get the lists of all sections of this kind -/
def lists (g : C.Group) (ss : List (Nat × C.Sec)) : Except Err (List (Nat × C.L)) :=
  match (ss.filter (fun p => C.isList g p.2)).findSome? listError with
  | some e => .error e
  | none => .ok ((ss.filter (fun p => C.isList g p.2)).filterMap listOf)

/-- the section with this identity is not open -/
def Unopened (os : Objects C) (gs : Groups C) (id : Nat) : Bool :=
  os.all (fun q => match q.2 with
    | some (id', _) => id' != id
    | none => true) &&
  gs.all (fun q => q.2.all (fun r => r.1 != id))

/-- the section is not accessed yet -/
def Free (os : Objects C) (gs : Groups C) : Option (Nat × C.X) → Bool
  | none => true
  | some (id, _) => Unopened os gs id

/-- the target exists if there is one -/
def InRange (target : List (Nat × C.Sec) → Except Err (Option Nat)) (ss : List (Nat × C.Sec)) : Bool :=
  match target ss with
  | .ok (some i) => decide (i < ss.length)
  | _ => true

/-- what happens to the sections and to the open objects inside of a block -/
abbrev InSections (C : Codec) := List (Nat × C.Sec) → Objects C → Groups C →
  Option (List (Nat × C.Sec) × Objects C × Groups C × Option Err)

/-- the block of an accessor of a section -/
def childBlock (c : C.Child) (t : List (Nat × C.Sec) → Except Err (Option Nat)) (body : InSections C) : InSections C :=
  fun ss os gs =>
    match object c t ss with
    | .error e => some (ss, os, gs, some e)
    | .ok o =>
      if Free os gs o && InRange t ss then
        match body ss ((c, o) :: os) gs with
        | some (ss', (c', o') :: os', gs', e) => some (put c' o' ss', os', gs', e)
        | _ => none
      else none

/-- the block of an accessor of lists -/
def groupBlock (g : C.Group) (body : InSections C) : InSections C :=
  fun ss os gs =>
    match lists g ss with
    | .error e => some (ss, os, gs, some e)
    | .ok ls =>
      if ls.all (fun q => Unopened os gs q.1) && decide (ls.map (·.1)).Nodup then
        match body ss os ((g, ls) :: gs) with
        | some (ss', os', (_, ls') :: gs', e) => some (putLists ls' ss', os', gs', e)
        | _ => none
      else none

/-- the block of the sections -/
def sectionBlock (b : Bool) (body : InSections C) (ls : List Str) : Option (Focus C × Option Err) :=
  match C.parseSections ls with
  | .error e => some (.lines b ls, some e)
  | .ok ss =>
    match body (number 0 ss) [] [] with
    | some (ss', [], [], e) => some (.lines b (C.rawSections (ss'.map (·.2))), e)
    | _ => none

/-- what happens if the sections are open -/
def inner (f : Focus C → Option (Focus C × Option Err)) : InSections C :=
  fun ss os gs =>
    match f (.sections ss os gs) with
    | some (.sections ss' os' gs', e) => some (ss', os', gs', e)
    | _ => none

/-- the other way round -/
def outer (f : InSections C) (ss : List (Nat × C.Sec)) (os : Objects C) (gs : Groups C) : Option (Focus C × Option Err) :=
  match f ss os gs with
  | some (ss', os', gs', e) => some (.sections ss' os' gs', e)
  | none => none

variable [DecidableEq C.Child] [DecidableEq C.Group]

/-- change the object of an open accessor, `none` if it is not open -/
def update (c : C.Child) (u : C.X → C.X) : Objects C → Option (Objects C)
  | [] => none
  | (c', o) :: os => if c' = c then some ((c', o.map (fun p => (p.1, u p.2))) :: os) else (update c u os).map ((c', o) :: ·)

/-- the object of an open accessor -/
def objectIn (c : C.Child) (os : Objects C) : Option C.X :=
  match os.find? (fun q => q.1 = c) with
  | some (_, some (_, x)) => some x
  | _ => none

/-- the lists of an open accessor -/
def listsIn (g : C.Group) (gs : Groups C) : Option (List C.L) := (gs.find? (fun q => q.1 = g)).map (fun q => q.2.map (·.2))

/-- replace lists, their identities and number stay -/
def replace (ls : List (Nat × C.L)) (new : List C.L) : List (Nat × C.L) :=
  ls.mapIdx (fun i p => (p.1, new[i]?.getD p.2))

/-- change the lists of an open accessor -/
def updateLists (g : C.Group) (new : List C.L) : Groups C → Groups C
  | [] => []
  | (g', ls) :: gs => if g' = g then (g', replace ls new) :: gs else (g', ls) :: updateLists g new gs

/-- an edit through the object of `sources()` or `patches()`: it changes the tags of the preamble and the lists -/
def updateGroup (g : C.Group) (u : C.X → List C.L → C.X × List C.L) : InSections C :=
  fun ss os gs =>
    match objectIn C.preamble os, listsIn g gs with
    | some x, some ls =>
      match update C.preamble (fun _ => (u x ls).1) os with
      | some os' => some (ss, os', updateLists g (u x ls).2 gs, none)
      | none => none
    | _, _ => none

/-- the block of `sources()` and `patches()`: that of `tags()`, if it is not open yet, and inside of it that of the lists -/
def sourcesBlock (g : C.Group) (body : InSections C) : InSections C :=
  fun ss os gs =>
    if os.any (fun q => q.1 == C.preamble) then groupBlock g body ss os gs
    else childBlock C.preamble C.preambleAt (groupBlock g body) ss os gs

/-- What a program does to what is open. `none` if it does not keep to the rules: it edits lines while something else is
open, sections while objects for them are open, or what is not open, it opens a section twice, or mixes macro definitions
with sections. -/
def effect : Prog C → Focus C → Option (Focus C × Option Err)
  | .skip, φ => some (φ, none)
  | .seq p q, φ =>
    match effect p φ with
    | some (φ', none) => effect q φ'
    | r => r
  | .raise e, φ => some (φ, some e)
  | .editLines u, .lines true ls => some (.lines true (u ls), none)
  | .editLines _, _ => none
  | .editMacros u, .macros m => some (.macros (u m), none)
  | .editMacros _, _ => none
  | .editSections u, .sections ss [] [] => some (.sections (u ss) [] [], none)
  | .editSections _, _ => none
  | .editChild c u, .sections ss os gs =>
    match update c u os with
    | some os' => some (.sections ss os' gs, none)
    | none => none
  | .editChild _ _, _ => none
  | .editGroup g u, .sections ss os gs => outer (updateGroup g u) ss os gs
  | .editGroup _ _, _ => none
  | .withLines p, .lines false ls =>
    match effect p (.lines true ls) with
    | some (.lines _ ls', e) => some (.lines false ls', e)
    | _ => none
  | .withLines p, φ => (effect p φ).map swallow
  | .withMacros p, .lines b ls =>
    match C.parseMacros ls with
    | .error e => some (.lines b ls, some e)
    | .ok m =>
      match effect p (.macros m) with
      | some (.macros m', e) => some (.lines b (C.rawMacros m'), e)
      | _ => none
  | .withMacros p, .macros m => (effect p (.macros m)).map swallow
  | .withMacros _, _ => none
  | .withSections p, .lines b ls => sectionBlock b (inner (effect p)) ls
  | .withSections _, .macros _ => none
  | .withSections p, φ => (effect p φ).map swallow
  | .withChild c t p, .lines b ls => sectionBlock b (childBlock c t (inner (effect p))) ls
  | .withChild _ _ _, .macros _ => none
  | .withChild c t p, .sections ss os gs =>
    if os.any (fun q => q.1 == c) then (effect p (.sections ss os gs)).map swallow
    else outer (childBlock c t (inner (effect p))) ss os gs
  | .withGroup g p, .lines b ls => sectionBlock b (sourcesBlock g (inner (effect p))) ls
  | .withGroup _ _, .macros _ => none
  | .withGroup g p, .sections ss os gs =>
    if gs.any (fun q => q.1 == g) then (effect p (.sections ss os gs)).map swallow
    else outer (sourcesBlock g (inner (effect p))) ss os gs

omit [DecidableEq C.Child] [DecidableEq C.Group]

/-- the program edits nothing -/
def NoEdits : Prog C → Prop
  | .skip | .raise _ => True
  | .seq p q => NoEdits p ∧ NoEdits q
  | .editLines _ | .editMacros _ | .editSections _ | .editChild _ _ | .editGroup _ _ => False
  | .withLines p | .withMacros p | .withSections p | .withChild _ _ p | .withGroup _ p => NoEdits p

/-- reading these lines and writing them again changes nothing -/
def Lossless (C : Codec) (ls : List Str) : Prop :=
  (∀ m, C.parseMacros ls = .ok m → C.rawMacros m = ls) ∧
  (∀ ss, C.parseSections ls = .ok ss → C.rawSections ss = ls ∧
    ∀ sec ∈ ss, (∀ c x, C.parse c sec = .ok x → C.store c x sec = sec) ∧
      ∀ l, C.parseList sec = .ok l → C.storeList l sec = sec)

/-- the program edits the lines inside of blocks only -/
def EditsInside : Bool → Prog C → Prop
  | _, .skip | _, .raise _ => True
  | b, .seq p q => EditsInside b p ∧ EditsInside b q
  | b, .editLines _ => b = true
  | _, .editMacros _ | _, .editSections _ | _, .editChild _ _ | _, .editGroup _ _ => True
  | _, .withLines p | _, .withMacros p | _, .withSections p | _, .withChild _ _ p | _, .withGroup _ p => EditsInside true p

/-- no block is open -/
def Idle (s : State C) : Prop :=
  s.linesOpen = false ∧ s.macros = none ∧ s.sections = none ∧ s.children = [] ∧ s.groups = []

end Specfile.Spec
