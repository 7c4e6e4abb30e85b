import Verif.Model.ConstructRegex
import Verif.Model.MacroDefinitions
import Verif.Model.Tags
import Verif.Model.Sections
/-
Model of `Specfile.update_value` and `Specfile.update_tag`, /repo/specfile/specfile.py:719-929.
-/
namespace Specfile.Update
open Py Regex Template

/-- What the methods of `Specfile` depend on. `expand lines` are the results of `Specfile.expand` while the spec file has
these lines (specfile.py:188-209; C40 shows that they depend on nothing else), `oracle lines` those asked for by the parsers.
`isIdent` tells which names `re` accepts as names of groups. -/
structure World where
  expand : List Str → Str → Except Err Str
  oracle : List Str → Conditions.Oracle
  names : List Str
  isIdent : Str → Bool

/-- the lines and the outcome; lines are changed also if an exception is raised;
specfile.py:250-253 -/
abbrev Out (α : Type) := List Str × Except Err α

/-- a block `with self.macro_definitions()` outside of other blocks, specfile.py:238-253 -/
def withMacros [Uni] (W : World) {α : Type} (lines : List Str)
    (body : MacroDefinitions → MacroDefinitions × Except Err α) : Out α :=
  match MacroDefinitions.parse (W.oracle lines) true lines with
  | .error e => (lines, .error e)
  | .ok m => (MacroDefinitions.raw (body m).1, (body m).2)

/-- a block `with self.sections()` outside of other blocks, specfile.py:255-268 -/
def withSections [Uni] (W : World) {α : Type} (lines : List Str)
    (body : Sections → Sections × Except Err α) : Out α :=
  match Sections.parse (W.oracle lines) lines with
  | .error e => (lines, .error e)
  | .ok ss => (Sections.raw (body ss).1, (body ss).2)

/-- a block `with self.tags()` on sections that are given, specfile.py:289-296 -/
def tagsBlock [Uni] (W : World) {α : Type} (lines : List Str) (body : Tags → Tags × Except Err α) (ss : Sections) :
    Sections × Except Err α :=
  match Sections.find ss (s% "package") with
  | .error _ => (ss, .error .attributeError)
  | .ok i =>
    match ss[i]? with
    | none => (ss, .error .indexError)
    | some s =>
      match Tags.parse W.names (W.oracle lines) s.data with
      | .error e => (ss, .error e)
      | .ok t => (ss.set i { s with data := Tags.raw (body t).1 }, (body t).2)

/-- a block `with self.tags()` outside of other blocks, specfile.py:275-296 -/
def withTags [Uni] (W : World) {α : Type} (lines : List Str) (body : Tags → Tags × Except Err α) : Out α :=
  withSections W lines (tagsBlock W lines body)

/-- `Entity`, specfile.py:748-757; the type is either `Tag` or `MacroDefinition` -/
structure Entity where
  name : Str
  value : Str
  isTag : Bool
  position : Nat
  disabled : Bool := false
  locked : Bool := false
  updated : Bool := false
  flipPending : Bool := false
  deriving DecidableEq, Repr

/-- `md.commented_out or not expand(md.body)`, specfile.py:774 -/
def isDisabled (ex : Str → Except Err Str) (md : MacroDefinition) : Except Err Bool :=
  if md.commentedOut then .ok true
  else
    match ex md.body with
    | .error e => .error e
    | .ok s => .ok s.isEmpty

/-- the condition of specfile.py:777-779 -/
def eligible (prot : Str → Bool) (md : MacroDefinition) : Bool :=
  md.valid && !prot md.name && !endsWith md.name [')']

/-- the macro definitions as entities, specfile.py:766-781 -/
def macroEntities (ex : Str → Except Err Str) (prot : Str → Bool) (m : MacroDefinitions) :
    List MacroDefinition → Except Err (List Entity)
  | [] => .ok []
  | md :: mds =>
    if eligible prot md then
      match m.position md with
      | .error e => .error e
      | .ok p =>
        match isDisabled ex md with
        | .error e => .error e
        | .ok b =>
          match macroEntities ex prot m mds with
          | .error e => .error e
          | .ok es => .ok ({ name := md.name, value := md.body, isTag := false, position := p, disabled := b } :: es)
    else macroEntities ex prot m mds

/-- the tags as entities, specfile.py:782-789 -/
def tagEntities [Uni] (prot : Str → Bool) (t : Tags) : List Tag → Except Err (List Entity)
  | [] => .ok []
  | x :: xs =>
    if x.valid && !prot x.name then
      match t.position x with
      | .error e => .error e
      | .ok p =>
        match tagEntities prot t xs with
        | .error e => .error e
        | .ok es => .ok ({ name := Uni.lower x.name, value := x.value, isTag := true, position := p } :: es)
    else tagEntities prot t xs

/-- insertion after all entities that are not later, specfile.py:790 -/
def insertEntity (e : Entity) : List Entity → List Entity
  | [] => [e]
  | x :: xs => if e.position < x.position then e :: x :: xs else x :: insertEntity e xs

/-- `entities.sort(key=lambda e: e.position)`, specfile.py:790, which is stable -/
def sortEntities (es : List Entity) : List Entity := es.foldl (fun acc e => insertEntity e acc) []

/-- the test of specfile.py:803-807 -/
def isNamed [Uni] (e : Entity) (name : Str) : Bool := e.isTag && e.name == Uni.lower name || e.name == name

mutual
/-- `traverse`, specfile.py:793-812, on one node -/
def refersNode [Uni] (e : Entity) : Node → Bool
  | .sub _ n => isNamed e n
  | .encl _ n _ => isNamed e n
  | .cond _ n body => isNamed e n || refers e body
  | .lit _ => false
  | .shell _ => false
  | .expr _ => false
  | .builtin _ _ => false
/-- `traverse`, specfile.py:793-812 -/
def refers [Uni] (e : Entity) : List Node → Bool
  | [] => false
  | n :: ns => refersNode e n || refers e ns
end

/-- `find_reference`, specfile.py:792-814 -/
def findReference [Uni] (e : Entity) (value : Str) : Except Err Bool :=
  match ValueParser.parse value with
  | .error err => .error err
  | .ok ns => .ok (refers e ns)

/-- `modifiable_entities`, specfile.py:821-831 -/
def modifiable [Uni] (es : List Entity) (position : Nat) : List Str :=
  (es.filter (fun e => decide (e.position < position) && (!e.flipPending || e.disabled))).map (·.name) ++
    (es.filter (fun e => decide (e.position < position) && e.isTag)).map (fun e => Uni.upper e.name)

/-- `flippable_entities`, specfile.py:832-838 -/
def flippable (es : List Entity) (position : Nat) : List Str :=
  (es.filter (fun e => decide (e.position < position) && !e.isTag && !e.flipPending)).map (·.name)

/-- the condition of specfile.py:857-863 -/
def isTarget [Uni] (group : Str) (position : Nat) (e : Entity) : Bool :=
  decide (e.position < position) && (e.name == group && !e.isTag || e.name == Uni.lower group && e.isTag)

/-- index of the last element with the property, specfile.py:864 -/
def lastIdx {α : Type} (p : α → Bool) : Nat → List α → Option Nat
  | _, [] => none
  | i, x :: xs =>
    match lastIdx p (i + 1) xs with
    | some j => some j
    | none => if p x then some i else none

/-- the index of the closest matching entity, specfile.py:853-864 -/
def closest [Uni] (es : List Entity) (group : Str) (position : Nat) : Option Nat :=
  lastIdx (isTarget group position) 0 es

/-- the loop over the groups, specfile.py:850-876; `rec` is `update`. Yields whether all groups were processed (otherwise
`update` returns the requested value), and the entities. -/
def updateGroups [Uni] (rec : Str → Str → Nat → List Entity → Except Err (Str × List Entity)) (position : Nat) :
    List (Str × Str) → List Entity → Except Err (Bool × List Entity)
  | [], es => .ok (true, es)
  | (group, val) :: d, es =>
    if startsWith group (s% "sub_") then updateGroups rec position d es
    else
      match closest es group position with
      | none => .error .indexError
      | some i =>
        match es[i]? with
        | none => .error .indexError
        | some e =>
          if e.locked then .ok (false, es)
          else
            match findReference e val with
            | .error err => .error err
            | .ok true => .ok (false, es)
            | .ok false =>
              match rec e.value val e.position (es.modify i (fun e => { e with locked := true })) with
              | .error err => .error err
              | .ok (v, es') =>
                updateGroups rec position d
                  (es'.modify i (fun e => { e with value := v, locked := false, updated := true }))

/-- the marking of the entities to flip, specfile.py:877-879 -/
def flip (flips : List Str) (position : Nat) (es : List Entity) : List Entity :=
  es.map (fun e => if e.position < position ∧ flips.contains e.name then { e with flipPending := true } else e)

/-- `m.groupdict().items()`, specfile.py:849-850 -/
def groupItems (B : Built) (m : St Str) : List (Str × Str) := B.groups.filterMap (fun g => (m.get g).map (g, ·))

/-- specfile.py:849-880: what is done with a match -/
def applyMatch [Uni] (rec : Str → Str → Nat → List Entity → Except Err (Str × List Entity)) (requested : Str)
    (position : Nat) (es : List Entity) (B : Built) (flips : List Str) (m : St Str) : Except Err (Str × List Entity) :=
  match updateGroups rec position (groupItems B m) es with
  | .error e => .error e
  | .ok (false, es) => .ok (requested, es)
  | .ok (true, es) =>
    match substitute m.get B.template with
    | .error e => .error e
    | .ok v => .ok (v, flip flips position es)

/-- `update`, specfile.py:816-882. The recursion ends because every call locks another entity, see `C37_terminates`. -/
def update [Uni] (isIdent : Str → Bool) (ex : Str → Except Err Str) :
    Nat → Str → Str → Nat → List Entity → Except Err (Str × List Entity)
  | 0, _, _, _, _ => .error .outOfFuel
  | fuel + 1, value, requested, position, es =>
    if value = requested then .ok (requested, es)
    else
      match construct isIdent ex (modifiable es position) (flippable es position) value with
      | .error e => .error e
      | .ok (B, flips) =>
        match rmatch B.re requested with
        | some m => applyMatch (update isIdent ex fuel) requested position es B flips m
        | none =>
          match construct isIdent ex (modifiable es position) [] value with
          | .error e => .error e
          | .ok (B, flips) =>
            match rmatch B.re requested with
            | some m => applyMatch (update isIdent ex fuel) requested position es B flips m
            | none => .ok (requested, es)

/-- the changes of one macro definition, specfile.py:891-895 -/
def syncMacro (e : Entity) (md : MacroDefinition) : MacroDefinition :=
  if e.updated then { md with body := e.value, commentedOut := false }
  else if e.flipPending then { md with commentedOut := !e.disabled }
  else md

/-- the macro definitions are updated, specfile.py:886-895 -/
def syncMacros : List Entity → MacroDefinitions → MacroDefinitions × Option Err
  | [], m => (m, none)
  | e :: es, m =>
    if e.isTag then syncMacros es m
    else
      match m.find e.name (some e.position) with
      | .error err => (m, some err)
      | .ok i => syncMacros es { m with data := m.data.modify i (syncMacro e) }

/-- the tags are updated, specfile.py:896-902 -/
def syncTags [Uni] : List Entity → Tags → Tags × Option Err
  | [], t => (t, none)
  | e :: es, t =>
    if e.isTag then
      match t.find e.name (some e.position) with
      | .error err => (t, some err)
      | .ok i => syncTags es (if e.updated then t.setValueAt i e.value else t)
    else syncTags es t

/-- an exception, if any; specfile.py:886-903 -/
def result {α : Type} (x : α) : Option Err → Except Err α
  | none => .ok x
  | some e => .error e

/-- `update_value`, specfile.py:719-903; `prot` is the match of the regular expression of protected entities (specfile.py:759-763).
Simplified: the first expansion of a phase parses the spec file and later ones reuse the result (specfile.py:742-746,
value_parser.py:329-337), so that all expansions of a phase see the same lines. -/
def updateValue [Uni] (W : World) (prot : Str → Bool) (value requested : Str) (position : Nat) (lines : List Str) :
    Out Str :=
  match withMacros W lines (fun m => (m, macroEntities (W.expand lines) prot m m.data)) with
  | (l1, .error e) => (l1, .error e)
  | (l1, .ok ms) =>
    match withTags W l1 (fun t => (t, tagEntities prot t t.data)) with
    | (l2, .error e) => (l2, .error e)
    | (l2, .ok ts) =>
      match update W.isIdent (W.expand l2) ((sortEntities (ms ++ ts)).length + 1) value requested position
          (sortEntities (ms ++ ts)) with
      | .error e => (l2, .error e)
      | .ok (v, es) =>
        match withMacros W l2 (fun m => ((syncMacros es m).1, result () (syncMacros es m).2)) with
        | (l3, .error e) => (l3, .error e)
        | (l3, .ok ()) => withTags W l3 (fun t => ((syncTags es t).1, result v (syncTags es t).2))

/-- `getattr(tags, name)`; specfile.py:920 and 929 -/
def getTag [Uni] (t : Tags) (name : Str) : Except Err Nat :=
  match t.find name none with
  | .error _ => .error .attributeError
  | .ok i => .ok i

/-- specfile.py:920-922: value and position of a tag -/
def tagPlace [Uni] (name : Str) (t : Tags) : Except Err (Str × Nat) :=
  match getTag t name with
  | .error e => .error e
  | .ok i =>
    match t.data[i]? with
    | none => .error .indexError
    | some x =>
      match t.position x with
      | .error e => .error e
      | .ok p => .ok (x.value, p)

/-- `getattr(tags, name).value = v`; specfile.py:929 -/
def assignTag [Uni] (name v : Str) (t : Tags) : Tags × Except Err Unit :=
  match getTag t name with
  | .error e => (t, .error e)
  | .ok i => (t.setValueAt i v, .ok ())

/-- `update_tag`, specfile.py:905-929 -/
def updateTag [Uni] (W : World) (prot : Str → Bool) (name value : Str) (lines : List Str) : Out Unit :=
  match withTags W lines (fun t => (t, tagPlace name t)) with
  | (l1, .error e) => (l1, .error e)
  | (l1, .ok (original, p)) =>
    match updateValue W prot original value p l1 with
    | (l2, .error e) => (l2, .error e)
    | (l2, .ok v) => withTags W l2 (assignTag name v)

end Specfile.Update
