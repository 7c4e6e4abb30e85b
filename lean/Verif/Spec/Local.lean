import Verif.Model.Blocks
import Verif.Model.Operations
import Verif.Spec.Sections
/-
Specification for C99: edits that only have to do with some of the sections.
-/
namespace Specfile.Spec
open Py Update Ops

/-- a section without its lines -/
def emptied (s : Section) : Section := { s with data := [] }

/-- `f` only has to do with the sections whose header satisfies `P`: it does not add, remove or rename sections, leaves other
sections as they are, and neither its outcome nor the lines it writes depend on the lines of other sections. -/
structure LocalTo {α : Type} (P : Section → Prop) (f : Sections → Sections × Except Err α) : Prop where
  headers : ∀ ss, (f ss).1.map emptied = ss.map emptied
  kept : ∀ ss (i : Nat) s, ss[i]? = some s → ¬ P (emptied s) → (f ss).1[i]? = some s
  only : ∀ ss ss' : Sections, ss.map emptied = ss'.map emptied →
    (∀ (i : Nat) s, ss[i]? = some s → P (emptied s) → ss'[i]? = some s) →
    (f ss).2 = (f ss').2 ∧ ∀ (i : Nat) s, ss[i]? = some s → P (emptied s) → (f ss).1[i]? = (f ss').1[i]?

/-- the section has this name, regardless of case -/
def Called [Uni] (name : Str) (s : Section) : Prop := Sections.normalizedId s = Uni.lower name

/-- the section is a changelog -/
def IsChangelog [Uni] (s : Section) : Prop := Sections.normalizedId s = s% "changelog"

/-- the preamble and the sections with lists of sources, or of patches -/
def HasSources [Uni] (a : SourceArgs) (s : Section) : Prop := Called (s% "package") s ∨ Sections.id s = a.id

/-- `f`, run on these lines, leaves lines that can be read again: no line it writes is a header, and headers are outside of macro
definitions. What a later `g` does is not changed by `f` changing the lines it expands macros with. -/
structure Unrelated [Uni] {α β : Type} (W : World) (lines : List Str) (ss : Sections) (f : Sections → Sections × Except Err α)
    (g : List Str → Sections → Sections × Except Err β) : Prop where
  text : ∀ s ∈ (f ss).1, ∀ l ∈ s.data, OneLine l ∧ ¬ HeaderLine l
  outside : HeadersOutside (Sections.raw (f ss).1)
  alike : ∀ ss', g (Sections.raw (f ss).1) ss' = g lines ss'

/-- `ss'` is made of the sections of `ss` after `f`, those after `g`, and the sections neither of them has to do with -/
structure MadeOf (P Q : Section → Prop) (ss fs gs ss' : Sections) : Prop where
  length : ss'.length = ss.length
  first : ∀ (i : Nat) s, ss[i]? = some s → P (emptied s) → ss'[i]? = fs[i]?
  second : ∀ (i : Nat) s, ss[i]? = some s → Q (emptied s) → ss'[i]? = gs[i]?
  neither : ∀ (i : Nat) s, ss[i]? = some s → ¬ P (emptied s) → ¬ Q (emptied s) → ss'[i]? = some s

end Specfile.Spec
