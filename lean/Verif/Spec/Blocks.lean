import Verif.Model.Blocks
import Verif.Spec.Sections
/-
Specification for C99: what blocks make of the sections of a spec file, regardless of their order.
-/
namespace Specfile.Spec
open Py Update Blocks

/-- the name of the section that a block accesses -/
def sectionOf {α : Type} : Block α → Str
  | .tags name _ => name
  | .changelog _ _ => s% "changelog"
  | .prep _ _ => s% "prep"

/-- the section with index `i` is the first one with this name -/
def FirstNamed [Uni] (ss : Sections) (name : Str) (i : Nat) : Prop :=
  (∃ s, ss[i]? = some s ∧ Sections.normalizedId s = Uni.lower name) ∧
    ∀ j s, j < i → ss[j]? = some s → Sections.normalizedId s ≠ Uni.lower name

/-- `BlockMakes W lines b data data' r`: in a spec file with these lines, the block replaces `data` by `data'` and ends with
`r`. Lines that cannot be parsed stay. -/
inductive BlockMakes [Uni] {α : Type} (W : World) (lines : List Str) : Block α → List Str → List Str → Except Err α → Prop
  | tags {name body data t} : Tags.parse W.names (W.oracle lines) data = .ok t →
      BlockMakes W lines (.tags name body) data (Tags.raw (body t).1) (body t).2
  | noTags {name body data e} : Tags.parse W.names (W.oracle lines) data = .error e →
      BlockMakes W lines (.tags name body) data data (.error e)
  | changelog {body absent data} : BlockMakes W lines (.changelog body absent) data
      (Changelog.raw (body (Changelog.parse data)).1) (body (Changelog.parse data)).2
  | prep {body absent data p} : Prep.parse data = .ok p →
      BlockMakes W lines (.prep body absent) data (Prep.raw (body p).1) (body p).2
  | noPrep {body absent data e} : Prep.parse data = .error e → BlockMakes W lines (.prep body absent) data data (.error e)

/-- what happens without the section -/
def withoutSection {α : Type} : Block α → Except Err α
  | .tags _ _ => .error .attributeError
  | .changelog _ absent => absent
  | .prep _ absent => absent

/-- how the block ends on these sections -/
def BlockEnds [Uni] {α : Type} (W : World) (lines : List Str) (ss : Sections) (b : Block α) (r : Except Err α) : Prop :=
  (∃ i s d, FirstNamed ss (sectionOf b) i ∧ ss[i]? = some s ∧ BlockMakes W lines b s.data d r) ∨
    ((∀ s ∈ ss, Sections.normalizedId s ≠ Uni.lower (sectionOf b)) ∧ r = withoutSection b)

/-- Each block has changed its own section of `ss`, and nothing else was changed. The order of the blocks does not matter. -/
structure Merged [Uni] {α : Type} (W : World) (lines : List Str) (bs : List (Block α)) (ss ss' : Sections) : Prop where
  length : ss'.length = ss.length
  edited : ∀ b ∈ bs, ∀ i s, FirstNamed ss (sectionOf b) i → ss[i]? = some s →
    ∃ d r, BlockMakes W lines b s.data d r ∧ ss'[i]? = some { s with data := d }
  kept : ∀ i, (∀ b ∈ bs, ¬ FirstNamed ss (sectionOf b) i) → ss'[i]? = ss[i]?

/-- Blocks that are separate: they access different sections, put no headers of sections into them, and whichever of them
have been run, headers are outside of macro definitions and the conditions in the sections of the others mean the same. -/
structure Separate [Uni] {α : Type} (W : World) (lines : List Str) (ss : Sections) (bs : List (Block α)) : Prop where
  different : bs.Pairwise (fun a b => Uni.lower (sectionOf a) ≠ Uni.lower (sectionOf b))
  text : ∀ b ∈ bs, ∀ s ∈ ss, Sections.normalizedId s = Uni.lower (sectionOf b) → ∀ d r, BlockMakes W lines b s.data d r →
    ∀ l ∈ d, OneLine l ∧ ¬ HeaderLine l
  outside : ∀ part ss', part ⊆ bs → Merged W lines part ss ss' → HeadersOutside (Sections.raw ss')
  alike : ∀ part ss', part ⊆ bs → Merged W lines part ss ss' → ∀ name body, Block.tags name body ∈ bs →
    ∀ s ∈ ss, Sections.normalizedId s = Uni.lower name →
      Tags.parse W.names (W.oracle (Sections.raw ss')) s.data = Tags.parse W.names (W.oracle lines) s.data

end Specfile.Spec
