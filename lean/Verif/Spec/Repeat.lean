import Verif.Spec.Reading
import Verif.Spec.ValueGrammar
import Verif.Spec.Update
/-
Values for which a repeated update is studied.
-/
namespace Specfile.Spec
open Py Update

/-- neither a conditional nor a macro whose name could be continued by the text after it -/
def Unconditional : Node → Prop
  | .lit s => '\n' ∉ s
  | .sub _ _ => False
  | .cond _ _ _ => False
  | _ => True

/-- a value on one line, without conditionals, all macros of which are enclosed: `1.%{minor}`, `%(date).%[1+2]` -/
def Simple [Uni] (v : Str) : Prop := ∃ ns, v = Node.strs ns ∧ GoodNodes ns ∧ ∀ n ∈ ns, Unconditional n

/-- Macros that cannot be changed expand in the same way: those in the value `v` on line `p` and in the values of entities
before it, unless they refer to an entity before them. -/
def SameConstants [Uni] (es : List Entity) (p : Nat) (v : Str) (ex ex' : Str → Except Err Str) : Prop :=
  ∀ s t q ns, Text es p v s t q → ValueParser.parse t = .ok ns → ∀ n ∈ ns, IsMacro n →
    (∀ x, RefersTo n x → ¬ Available es q x) → ex' n.str = ex n.str

/-- the same entity as it is found when it is looked for again; before line `p` it has the same value. It may have been
enabled meanwhile. -/
structure SameEntity (p : Nat) (e e' : Entity) : Prop where
  name : e'.name = e.name
  isTag : e'.isTag = e.isTag
  position : e'.position = e.position
  value : e.position < p → e'.value = e.value
  flipPending : e'.flipPending = false
  locked : e'.locked = false
  updated : e'.updated = false

/-- the same entities, those before line `p` with the same values -/
structure SameEntities (p : Nat) (es es' : List Entity) : Prop where
  length : es'.length = es.length
  each : ∀ (i : Nat) e e', es[i]? = some e → es'[i]? = some e' → SameEntity p e e'

/-- The definitions `m'` are `m` with the entities written into them: they have the same names on the same lines, and are
valid if they were. The body of an updated macro is its value; it is not commented out. Bodies of others before line `p` did
not change. -/
structure DefinitionsWritten (p : Nat) (es : List Entity) (m m' : MacroDefinitions) : Prop where
  length : m'.data.length = m.data.length
  same : ∀ (i : Nat) d d', m.data[i]? = some d → m'.data[i]? = some d' →
    d'.name = d.name ∧ d'.valid = d.valid ∧ definitionLine m' i = definitionLine m i
  updated : ∀ (i : Nat) d d' e, m.data[i]? = some d → m'.data[i]? = some d' → e ∈ es → e.isTag = false → e.name = d.name →
    e.updated = true → d'.body = e.value ∧ d'.commentedOut = false
  others : ∀ (i : Nat) d d' e, m.data[i]? = some d → m'.data[i]? = some d' → e ∈ es → e.isTag = false → e.name = d.name →
    e.updated = false → definitionLine m i < p → d'.body = d.body

/-- The tags `t'` are `t` with the entities before line `p` written into them. -/
structure TagsWritten [Uni] (p : Nat) (es : List Entity) (t t' : Tags) : Prop where
  length : t'.data.length = t.data.length
  same : ∀ (i : Nat) x x', t.data[i]? = some x → t'.data[i]? = some x' →
    x'.name = x.name ∧ x'.valid = x.valid ∧ tagLine t' i = tagLine t i
  updated : ∀ (i : Nat) x x' e, t.data[i]? = some x → t'.data[i]? = some x' → e ∈ es → e.isTag = true →
    e.name = Uni.lower x.name → e.updated = true → x'.value = e.value
  others : ∀ (i : Nat) x x' e, t.data[i]? = some x → t'.data[i]? = some x' → e ∈ es → e.isTag = true →
    e.name = Uni.lower x.name → e.updated = false → tagLine t i < p → x'.value = x.value

end Specfile.Spec
