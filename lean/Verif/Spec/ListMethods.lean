import Verif.Model.ListMethods
/-
Vocabulary for the list methods of containers.
-/
namespace Specfile.Spec
open Py

/-- How a container is written: the lines above all elements, the lines of each element, the lines below all elements.
`upwards`: the last element is written first. -/
structure Layout (C α : Type) where
  elements : C → List α
  above : C → List Str
  lines : α → List Str
  below : C → List Str
  upwards : Bool

/-- the lines of some elements, in the order they are written -/
def Layout.linesOf {C α : Type} (L : Layout C α) (l : List α) : List Str :=
  if L.upwards then (l.reverse.map L.lines).flatten else (l.map L.lines).flatten

/-- the lines of some elements, written next to each other, with those of other elements before and after them in the
container: upwards, what is before comes below -/
def Layout.around {C α : Type} (L : Layout C α) (c : C) (before : List α) (middle : List Str) (after : List α) : List Str :=
  if L.upwards then L.above c ++ L.linesOf after ++ middle ++ L.linesOf before ++ L.below c
  else L.above c ++ L.linesOf before ++ middle ++ L.linesOf after ++ L.below c

/-- a container is written as the layout says, and its elements can be assigned without changing anything else -/
structure Fits {C α : Type} [ListMethods.Listed C α] (L : Layout C α) (raw : C → List Str) : Prop where
  written : ∀ c, raw c = L.above c ++ L.linesOf (L.elements c) ++ L.below c
  data : ∀ c, ListMethods.Listed.data c = L.elements c
  elements : ∀ c l, L.elements (ListMethods.Listed.withData c l) = l
  above : ∀ c l, L.above (ListMethods.Listed.withData c l) = L.above c
  below : ∀ c l, L.below (ListMethods.Listed.withData c l) = L.below c

/-- the lines above and below all elements are kept -/
def RestKept {C α : Type} (L : Layout C α) (c c' : C) : Prop := L.above c' = L.above c ∧ L.below c' = L.below c

/-- the index `i`, counted from the end if negative, denotes the position `k` among `n` elements -/
def DenotesAt (n : Nat) (i : Int) (k : Nat) : Prop := k < n ∧ (i = k ∨ i = (k : Int) - n)

/-- the position `list.insert` uses: an index out of range stands for the nearest end -/
def InsertsAt (n : Nat) (i : Int) (k : Nat) : Prop :=
  (0 ≤ i ∧ i ≤ n ∧ (k : Int) = i) ∨ (n < i ∧ k = n) ∨ (i < 0 ∧ 0 ≤ i + n ∧ (k : Int) = i + n) ∨ (i + n < 0 ∧ k = 0)

/-- entries of a changelog, the newest one last and on top -/
def changelogLayout : Layout Changelog ChangelogEntry where
  elements c := c.data
  above c := c.predecessor
  lines e := [e.header] ++ e.content ++ e.following
  below _ := []
  upwards := true

/-- macro definitions, each with the lines between it and the one above -/
def definitionsLayout : Layout MacroDefinitions MacroDefinition where
  elements c := c.data
  above _ := []
  lines := MacroDefinition.raw
  below c := c.remainder
  upwards := false

/-- macros in %prep, each with the lines between it and the one above -/
def prepLayout : Layout Prep PrepMacro where
  elements c := c.data
  above _ := []
  lines := Prep.macroRaw
  below c := c.remainder
  upwards := false

/-- sections -/
def sectionsLayout [Uni] : Layout Sections Section where
  elements c := c
  above _ := []
  lines := Sections.rawSection
  below _ := []
  upwards := false

/-- listed sources, each with the lines between it and the one above, the comments last -/
def sourcelistLayout : Layout Sourcelist SourcelistEntry where
  elements c := c.data
  above _ := []
  lines e := e.comments.preceding ++ e.comments.data.map (fun x => x.pfx ++ x.text) ++ [e.location]
  below c := c.remainder
  upwards := false

/-- tags, each with the lines between it and the one above, the comments last -/
def tagsLayout : Layout Tags Tag where
  elements c := c.data
  above _ := []
  lines t := t.comments.preceding ++ t.comments.data.map (fun x => x.pfx ++ x.text) ++
    splitC '\n' (t.pfx ++ t.name ++ t.sep ++ t.value ++ t.sfx)
  below c := c.remainder
  upwards := false

/-- comments above a tag -/
def commentsLayout : Layout Comments Comment where
  elements c := c.data
  above c := c.preceding
  lines x := [x.pfx ++ x.text]
  below _ := []
  upwards := false

/-- `y`, with `a` before and `b` after it, is the first of the elements that is equal to `x`, and comparing does not fail
before it is reached -/
def FirstEqual {α : Type} (eq : α → α → Except Err Bool) (x : α) (l a : List α) (y : α) (b : List α) : Prop :=
  l = a ++ y :: b ∧ eq y x = .ok true ∧ ∀ z ∈ a, eq z x = .ok false

/-- the parts of a tag: its comments and its text, without the lines above the comments -/
def tagParts (t : Tag) : Str × Str × Str × List Comment × Str × Str := (t.name, t.value, t.sep, t.comments.data, t.pfx, t.sfx)

end Specfile.Spec
