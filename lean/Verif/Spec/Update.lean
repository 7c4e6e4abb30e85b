import Verif.Model.UpdateValue
/-
What an update of a value may do to a spec file.
-/
namespace Specfile.Spec
open Py Update

/-- the line on which the `i`-th macro definition begins -/
def definitionLine (m : MacroDefinitions) (i : Nat) : Nat :=
  ((m.data.take i).map (fun d => d.raw.length)).sum + ((m.data[i]?).map (fun d => d.preceding.length)).getD 0

/-- the place of the `i`-th tag, every earlier tag and every line before it counted as one -/
def tagLine (t : Tags) (i : Nat) : Nat :=
  ((t.data.take i).map (fun x => x.comments.raw.length + 1)).sum + ((t.data[i]?).map (fun x => x.comments.raw.length)).getD 0

/-- `m'` differs from `m` only in bodies of definitions that may be changed and in whether they are commented out -/
structure MacrosEdited (may : Nat → MacroDefinition → Prop) (m m' : MacroDefinitions) : Prop where
  remainder : m'.remainder = m.remainder
  length : m'.data.length = m.data.length
  each : ∀ (i : Nat) (d d' : MacroDefinition), m.data[i]? = some d → m'.data[i]? = some d' →
    d' = d ∨ may i d ∧ d' = { d with body := d'.body, commentedOut := d'.commentedOut }

/-- `t'` differs from `t` only in values of tags that may be changed -/
structure TagsEdited (may : Nat → Tag → Prop) (t t' : Tags) : Prop where
  remainder : t'.remainder = t.remainder
  length : t'.data.length = t.data.length
  each : ∀ (i : Nat) (x x' : Tag), t.data[i]? = some x → t'.data[i]? = some x' →
    x' = x ∨ may i x ∧ x' = { x with value := x'.value }

/-- The lines are read as macro definitions and written back, with nothing changed but what may be; or they cannot be read
and stay. -/
inductive MacroBlock [Uni] (W : World) (may : MacroDefinitions → Nat → MacroDefinition → Prop) (l : List Str) :
    List Str → Prop
  | unread {e} : MacroDefinitions.parse (W.oracle l) true l = .error e → MacroBlock W may l l
  | written {m m'} : MacroDefinitions.parse (W.oracle l) true l = .ok m → MacrosEdited (may m) m m' →
      MacroBlock W may l m'.raw

/-- The same for the tags of the first package section. -/
inductive TagBlock [Uni] (W : World) (may : Tags → Nat → Tag → Prop) (l : List Str) : List Str → Prop
  | unread {e} : Sections.parse (W.oracle l) l = .error e → TagBlock W may l l
  | sections {ss} : Sections.parse (W.oracle l) l = .ok ss → TagBlock W may l (Sections.raw ss)
  | written {ss i s t t'} : Sections.parse (W.oracle l) l = .ok ss → Sections.find ss (s% "package") = .ok i →
      ss[i]? = some s → Tags.parse W.names (W.oracle l) s.data = .ok t → TagsEdited (may t) t t' →
      TagBlock W may l (Sections.raw (ss.set i { s with data := t'.raw }))

/-- bodies of unprotected macro definitions are single lines -/
def SingleLines [Uni] (W : World) (prot : Str → Bool) (l : List Str) : Prop :=
  ∀ m, MacroDefinitions.parse (W.oracle l) true l = .ok m → ∀ d ∈ m.data, prot d.name = false → '\n' ∉ d.body

/-- no two tags have the same name, up to upper and lower case -/
def DistinctTagNames [Uni] (t : Tags) : Prop :=
  ∀ (i j : Nat) (x y : Tag), t.data[i]? = some x → t.data[j]? = some y →
    Uni.capitalize x.name = Uni.capitalize y.name → i = j

end Specfile.Spec
