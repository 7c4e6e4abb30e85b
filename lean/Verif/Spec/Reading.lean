import Verif.Spec.Template
import Verif.Spec.Update
/-
What it means that a value, updated together with the macros and tags it refers to, reads as requested.
-/
namespace Specfile.Spec
open Py Update

mutual
/-- names to whose value a node refers, also in the bodies of conditionals -/
def referred : Node → List Str
  | .sub p x => if p.count '!' % 2 = 0 then [x] else []
  | .encl p x [] => if p.count '!' % 2 = 0 then [x] else []
  | .cond _ _ body => referredAll body
  | _ => []
/-- the same for a list of nodes, in their order -/
def referredAll : List Node → List Str
  | [] => []
  | n :: ns => referred n ++ referredAll ns
end

mutual
/-- names that are tested by conditionals -/
def tested : Node → List Str
  | .cond _ x body => x :: testedAll body
  | _ => []
def testedAll : List Node → List Str
  | [] => []
  | n :: ns => tested n ++ testedAll ns
end

mutual
/-- all names of macros in a node, whether their value matters or only whether they are defined -/
def mentioned : Node → List Str
  | .sub _ x => [x]
  | .encl _ x _ => [x]
  | .cond _ x body => x :: mentionedAll body
  | _ => []
def mentionedAll : List Node → List Str
  | [] => []
  | n :: ns => mentioned n ++ mentionedAll ns
end

/-- the same for texts; a text that cannot be parsed refers to nothing -/
def references [Uni] (v : Str) : List Str :=
  match ValueParser.parse v with
  | .ok ns => referredAll ns
  | .error _ => []

def tests [Uni] (v : Str) : List Str :=
  match ValueParser.parse v with
  | .ok ns => testedAll ns
  | .error _ => []

/-- Is `x` a name of the entity? Tags can be written in upper and lower case. -/
def Designates [Uni] (x : Str) (e : Entity) : Prop := if e.isTag then e.name = Uni.lower x else e.name = x

/-- the last entity before `p` that is designated by `x` -/
def Closest [Uni] (es : List Entity) (x : Str) (p i : Nat) : Prop :=
  (∃ e, es[i]? = some e ∧ e.position < p ∧ Designates x e) ∧
    ∀ (j : Nat) (e : Entity), i < j → es[j]? = some e → e.position < p → ¬ Designates x e

/-- Is `x` a name of an entity before `p`, as written by the entity or in upper case for tags? -/
def Available [Uni] (es : List Entity) (p : Nat) (x : Str) : Prop :=
  ∃ e ∈ es, e.position < p ∧ (e.name = x ∨ e.isTag = true ∧ Uni.upper e.name = x)

/-- Is an entity `x` before `p` going to be enabled or disabled? -/
def Pending (es : List Entity) (p : Nat) (x : Str) : Prop :=
  ∃ e ∈ es, e.position < p ∧ e.name = x ∧ e.flipPending = true

/-- `text` does not mention the entity -/
def Independent [Uni] (e : Entity) (text : Str) : Prop :=
  ∃ ns, ValueParser.parse text = .ok ns ∧ ∀ x ∈ mentionedAll ns, x ≠ e.name ∧ (e.isTag = true → Uni.lower x ≠ e.name)

/-- `Reading ex old new p v w q`: the value `v` on line `p`, when replaced by `w`, reads as `q`. The entities were `old` and
are `new`. Either `w` is `q` itself, or `w` keeps all macros of `v`, and the closest entity of each reference was updated so
that it reads, in turn, as the text that is needed for it. -/
inductive Reading [Uni] (ex : Str → Except Err Str) (old new : List Entity) : Nat → Str → Str → Str → Prop
  | replaced {p v q} : Reading ex old new p v q q
  | rewritten {p : Nat} {v w q : Str} {nodes : List Node} {entities flips : List Str} {ps : List Part}
      {d : Str → Option Str} {target : Str → Nat} :
      ValueParser.parse v = .ok nodes →
      (∀ x, x ∈ referredAll nodes ∨ x ∈ testedAll nodes → (x ∈ entities ↔ Available old p x)) →
      (∀ x, x ∈ testedAll nodes → (x ∈ flips ↔ Pending new p x)) →
      Parts ex entities flips nodes ps → ¬ Unseparated ps → Rewritten d false ps w q →
      (∀ x s y, .reference x s ∈ ps → d x = some y → Closest new x p (target x) ∧
        ∃ e e', old[target x]? = some e ∧ new[target x]? = some e' ∧ e'.updated = true ∧ Independent e y) →
      (∀ x s y e e', .reference x s ∈ ps → d x = some y → old[target x]? = some e → new[target x]? = some e' →
        Reading ex old new e.position e.value e'.value y) →
      Reading ex old new p v w q

/-- the texts that can be looked at when the value `v` on line `p` is updated: `v` itself, and the values of the entities
before it, with their lines -/
def Text (es : List Entity) (p : Nat) (v : Str) : Option Nat → Str → Nat → Prop
  | none, t, q => t = v ∧ q = p
  | some i, t, q => ∃ e, es[i]? = some e ∧ e.position < p ∧ t = e.value ∧ q = e.position

/-- The value and the earlier entities depend on each other like a tree: no name is referred to twice, and what is tested
in one text is neither tested nor referred to in another. Names do not look like names of internal groups. -/
structure TreeLike [Uni] (es : List Entity) (p : Nat) (v : Str) : Prop where
  once : ∀ {s s' t t' q q'} {a b : Nat} {x y}, Text es p v s t q → Text es p v s' t' q' → (references t)[a]? = some x →
    (references t')[b]? = some y → Uni.lower x = Uni.lower y → s = s' ∧ a = b
  apart : ∀ {s s' t t' q q'} {x}, Text es p v s t q → Text es p v s' t' q' → x ∈ tests t →
    x ∈ tests t' ∨ x ∈ references t' → s = s'
  names : ∀ {s t q x}, Text es p v s t q → x ∈ references t → ¬ s% "sub_" <+: x

/-- the macro definitions as entities: valid, not protected and without options; with their lines if names are distinct, and
disabled if they are commented out or expand to nothing -/
inductive MacrosCollected (ex : Str → Except Err Str) (prot : Str → Bool) (m : MacroDefinitions) :
    List MacroDefinition → List Entity → Prop
  | nil : MacrosCollected ex prot m [] []
  | skip {d ds es} : d.valid = false ∨ prot d.name = true ∨ [')'] <:+ d.name → MacrosCollected ex prot m ds es →
      MacrosCollected ex prot m (d :: ds) es
  | take {d ds es p b} : d.valid = true → prot d.name = false → ¬ [')'] <:+ d.name →
      ((m.data.map (·.name)).Nodup → ∃ i, m.data[i]? = some d ∧ p = definitionLine m i) →
      (b = true ↔ d.commentedOut = true ∨ ex d.body = .ok []) → MacrosCollected ex prot m ds es →
      MacrosCollected ex prot m (d :: ds)
        ({ name := d.name, value := d.body, isTag := false, position := p, disabled := b, locked := false,
           updated := false, flipPending := false } :: es)

/-- the tags as entities: valid and not protected -/
inductive TagsCollected [Uni] (prot : Str → Bool) (t : Tags) : List Tag → List Entity → Prop
  | nil : TagsCollected prot t [] []
  | skip {x xs es} : x.valid = false ∨ prot x.name = true → TagsCollected prot t xs es → TagsCollected prot t (x :: xs) es
  | take {x xs es p} : x.valid = true → prot x.name = false →
      (DistinctTagNames t → ∃ i, t.data[i]? = some x ∧ p = tagLine t i) → TagsCollected prot t xs es →
      TagsCollected prot t (x :: xs)
        ({ name := Uni.lower x.name, value := x.value, isTag := true, position := p, disabled := false, locked := false,
           updated := false, flipPending := false } :: es)

/-- the same entities in the order of their lines; macros before tags, if they are on the same line -/
structure InOrder (unsorted es : List Entity) : Prop where
  perm : es.Perm unsorted
  sorted : es.Pairwise (fun a b => a.position ≤ b.position)
  stable : ∀ p, es.filter (fun e => e.position = p) = unsorted.filter (fun e => e.position = p)

/-- all entities of a spec file -/
def Collected [Uni] (ex : Str → Except Err Str) (prot : Str → Bool) (m : MacroDefinitions) (t : Tags) (es : List Entity) :
    Prop :=
  ∃ ms ts, MacrosCollected ex prot m m.data ms ∧ TagsCollected prot t t.data ts ∧ InOrder (ms ++ ts) es

/-- `m'` is `m` with the entities written into it: an updated macro gets its value and is no longer commented out, one that
is to be flipped is enabled if it was disabled and commented out otherwise -/
structure MacrosSynced (es : List Entity) (m m' : MacroDefinitions) : Prop where
  remainder : m'.remainder = m.remainder
  length : m'.data.length = m.data.length
  updated : ∀ (i : Nat) d d' e, m.data[i]? = some d → m'.data[i]? = some d' → e ∈ es → e.isTag = false → e.name = d.name →
    e.updated = true → d' = { d with body := e.value, commentedOut := false }
  enabled : ∀ (i : Nat) d d' e, m.data[i]? = some d → m'.data[i]? = some d' → e ∈ es → e.isTag = false → e.name = d.name →
    e.updated = false → e.flipPending = true → e.disabled = true → d' = { d with commentedOut := false }
  disabled : ∀ (i : Nat) d d' e, m.data[i]? = some d → m'.data[i]? = some d' → e ∈ es → e.isTag = false → e.name = d.name →
    e.updated = false → e.flipPending = true → e.disabled = false → d' = { d with commentedOut := true }
  untouched : ∀ (i : Nat) d d', m.data[i]? = some d → m'.data[i]? = some d' →
    (∀ e ∈ es, e.isTag = false → e.name = d.name → e.updated = false ∧ e.flipPending = false) → d' = d

/-- `t'` is `t` with the entities written into it -/
structure TagsSynced [Uni] (es : List Entity) (t t' : Tags) : Prop where
  remainder : t'.remainder = t.remainder
  length : t'.data.length = t.data.length
  updated : ∀ (i : Nat) x x' e, t.data[i]? = some x → t'.data[i]? = some x' → e ∈ es → e.isTag = true →
    Uni.capitalize e.name = Uni.capitalize x.name → e.updated = true → x' = { x with value := e.value }
  untouched : ∀ (i : Nat) x x', t.data[i]? = some x → t'.data[i]? = some x' →
    (∀ e ∈ es, e.isTag = true → Uni.capitalize e.name = Uni.capitalize x.name → e.updated = false) → x' = x

end Specfile.Spec
