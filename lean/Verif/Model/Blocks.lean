import Verif.Model.UpdateValue
import Verif.Model.Changelog
import Verif.Model.Prep
/-
Model of blocks `with spec.tags(section)`, `with spec.changelog()` and `with spec.prep()` outside of other blocks, one after
another, /repo/specfile/specfile.py:270-345.
-/
namespace Specfile.Blocks
open Py Update

/-- One block. `body` is what is done with the object, it does not depend on other parts of the spec file; it changes the
object and has a result or raises an exception. `absent` is what happens if `None` is yielded.
See specfile.py:270-345. -/
inductive Block (α : Type) where
  | tags (name : Str) (body : Tags → Tags × Except Err α)
  | changelog (body : Changelog → Changelog × Except Err α) (absent : Except Err α)
  | prep (body : Prep → Prep × Except Err α) (absent : Except Err α)

/-- `tags`, specfile.py:275-296, with the name of a section -/
def inTags [Uni] {α : Type} (W : World) (lines : List Str) (name : Str) (body : Tags → Tags × Except Err α) (ss : Sections) :
    Sections × Except Err α :=
  match Sections.find ss name with
  | .error _ => (ss, .error .attributeError)
  | .ok i =>
    match ss[i]? with
    | none => (ss, .error .indexError)
    | some s =>
      match Tags.parse W.names (W.oracle lines) s.data with
      | .error e => (ss, .error e)
      | .ok t => (ss.set i { s with data := Tags.raw (body t).1 }, (body t).2)

/-- `changelog`, specfile.py:298-325, without an argument -/
def inChangelog [Uni] {α : Type} (body : Changelog → Changelog × Except Err α) (absent : Except Err α) (ss : Sections) :
    Sections × Except Err α :=
  match Sections.find ss (s% "changelog") with
  | .error _ => (ss, absent)
  | .ok i =>
    match ss[i]? with
    | none => (ss, .error .indexError)
    | some s => (ss.set i { s with data := Changelog.raw (body (Changelog.parse s.data)).1 }, (body (Changelog.parse s.data)).2)

/-- `prep`, specfile.py:327-345 -/
def inPrep [Uni] {α : Type} (body : Prep → Prep × Except Err α) (absent : Except Err α) (ss : Sections) :
    Sections × Except Err α :=
  match Sections.find ss (s% "prep") with
  | .error _ => (ss, absent)
  | .ok i =>
    match ss[i]? with
    | none => (ss, .error .indexError)
    | some s =>
      match Prep.parse s.data with
      | .error e => (ss, .error e)
      | .ok p => (ss.set i { s with data := Prep.raw (body p).1 }, (body p).2)

/-- one block, specfile.py:255-345 -/
def run [Uni] {α : Type} (W : World) : Block α → List Str → Out α
  | .tags name body, lines => withSections W lines (inTags W lines name body)
  | .changelog body absent, lines => withSections W lines (inChangelog body absent)
  | .prep body absent, lines => withSections W lines (inPrep body absent)

/-- blocks one after another, each exception is caught: the lines and all results;
specfile.py:255-345 -/
def runAll [Uni] {α : Type} (W : World) : List (Block α) → List Str → List Str × List (Except Err α)
  | [], lines => (lines, [])
  | b :: bs, lines => ((runAll W bs (run W b lines).1).1, (run W b lines).2 :: (runAll W bs (run W b lines).1).2)

/-- `with spec.macro_definitions() as m: m.name = body`, specfile.py:238-253 and macro_definitions.py:197-206 -/
def setMacro [Uni] (W : World) (name body : Str) (lines : List Str) : Out Unit :=
  withMacros W lines (fun m =>
    match m.setBody name body with
    | .error e => (m, .error e)
    | .ok m' => (m', .ok ()))

end Specfile.Blocks
