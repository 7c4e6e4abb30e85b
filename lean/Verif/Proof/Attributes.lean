import Verif.Spec.Attributes
import Verif.Props.Sections
import Verif.Props.MacroDefinitions
/-
Lemmas about attributes of containers.
-/
namespace Specfile.Attributes
open Py Spec

/-- the elements of two lists correspond -/
def Alike {α : Type} (p v : α → Prop) (l l' : List α) : Prop :=
  ∀ (j : Nat) x, l[j]? = some x → ∃ y, l'[j]? = some y ∧ (p x ↔ p y) ∧ (v x ↔ v y)

theorem best_of_alike {α : Type} {p v : α → Prop} {l l' : List α} {k : Nat} (h1 : Alike p v l l') (h2 : Alike p v l' l)
    (h : Best p v l k) : Best p v l' k := by
  obtain ⟨d, hd, hp, hc⟩ := h
  obtain ⟨y, hy, hpy, hvy⟩ := h1 k d hd
  refine ⟨y, hy, hpy.1 hp, ?_⟩
  rcases hc with ⟨a, b⟩ | ⟨a, b⟩
  · refine .inl ⟨hvy.1 a, fun j x hj hx hpx hvx => ?_⟩
    obtain ⟨z, hz, e1, e2⟩ := h2 j x hx
    exact b j z hj hz (e1.1 hpx) (e2.1 hvx)
  · refine .inr ⟨fun x hx hpx hvx => ?_, fun j x hj hx hpx => ?_⟩
    · obtain ⟨j, hj⟩ := List.getElem?_of_mem hx
      obtain ⟨z, hz, e1, e2⟩ := h2 j x hj
      exact a z (List.mem_of_getElem? hz) (e1.1 hpx) (e2.1 hvx)
    · obtain ⟨z, hz, e1, e2⟩ := h2 j x hx
      exact b j z hj hz (e1.1 hpx)

theorem alike_modify {α : Type} {p v : α → Prop} (l : List α) (k : Nat) (f : α → α)
    (hp : ∀ x, l[k]? = some x → (p (f x) ↔ p x) ∧ (v (f x) ↔ v x)) :
    Alike p v l (l.modify k f) ∧ Alike p v (l.modify k f) l := by
  constructor
  · intro j x hx
    rw [List.getElem?_modify, hx]
    by_cases h : k = j
    · subst h
      have := hp x hx
      exact ⟨f x, by simp, this.1.symm, this.2.symm⟩
    · exact ⟨x, by simp [h], Iff.rfl, Iff.rfl⟩
  · intro j x hx
    rw [List.getElem?_modify] at hx
    cases hj : l[j]? with
    | none => simp [hj] at hx
    | some y =>
      rw [hj] at hx
      by_cases h : k = j
      · subst h
        simp at hx
        subst hx
        have := hp y hj
        exact ⟨y, rfl, this.1, this.2⟩
      · simp [h] at hx
        subst hx
        exact ⟨_, rfl, Iff.rfl, Iff.rfl⟩

theorem best_modify {α : Type} {p v : α → Prop} (l : List α) (k i : Nat) (f : α → α)
    (hp : ∀ x, l[k]? = some x → (p (f x) ↔ p x) ∧ (v (f x) ↔ v x)) :
    Best p v (l.modify k f) i ↔ Best p v l i := by
  obtain ⟨a, b⟩ := alike_modify l k f hp
  exact ⟨best_of_alike b a, best_of_alike a b⟩

theorem best_unique {α : Type} {p v : α → Prop} {l : List α} {i j : Nat} (hi : Best p v l i) (hj : Best p v l j) : i = j := by
  obtain ⟨x, hx, px, cx⟩ := hi
  obtain ⟨y, hy, py, cy⟩ := hj
  rcases Nat.lt_trichotomy i j with h | h | h
  · rcases cy with ⟨a, b⟩ | ⟨a, b⟩
    · rcases cx with ⟨c, d⟩ | ⟨c, d⟩
      · exact absurd c (b i x h hx px)
      · exact absurd a (c y (List.mem_of_getElem? hy) py)
    · exact absurd px (b i x h hx)
  · exact h
  · rcases cx with ⟨a, b⟩ | ⟨a, b⟩
    · rcases cy with ⟨c, d⟩ | ⟨c, d⟩
      · exact absurd c (b j y h hy py)
      · exact absurd a (c x (List.mem_of_getElem? hx) px)
    · exact absurd py (b j y h hy)

theorem definitions_find (l : List MacroDefinition) (n : Str) :
    (definitions.contains l n = true ↔ ∃ e ∈ l, DefinitionCalled n e) ∧
    (∀ k, definitions.find l n = .ok k ↔ Best (DefinitionCalled n) (fun d => d.valid = true) l k) ∧
    ((∃ e, definitions.find l n = .error e) ↔ ∀ e ∈ l, ¬ DefinitionCalled n e) := by
  obtain ⟨h1, h2, h3⟩ := Props.C21_find_definition ⟨l, []⟩ n
  refine ⟨by simp [definitions, MacroDefinitions.contains, DefinitionCalled], fun k => ?_, ?_⟩
  · refine (h1 k).trans ?_
    simp [Best, DefinitionCalled]
  · constructor
    · rintro ⟨e, he⟩
      have := h3 e he
      subst this
      exact h2.1 he
    · intro h
      exact ⟨_, h2.2 h⟩

theorem sections_find [Uni] (l : List Section) (n : Str) :
    (Sections.contains l n = true ↔ ∃ e ∈ l, SectionCalled n e) ∧
    (∀ k, Sections.find l n = .ok k ↔ Best (SectionCalled n) (fun _ => True) l k) ∧
    ((∃ e, Sections.find l n = .error e) ↔ ∀ e ∈ l, ¬ SectionCalled n e) := by
  refine ⟨by simp [Sections.contains, SectionCalled], fun k => ?_, ?_⟩
  · unfold Sections.find
    cases hi : l.findIdx? (fun s => Sections.normalizedId s == Uni.lower n) with
    | none =>
      rw [List.findIdx?_eq_none_iff] at hi
      simp only [reduceCtorEq, false_iff]
      rintro ⟨d, hd, hp, _⟩
      have := hi d (List.mem_of_getElem? hd)
      simp only [beq_eq_false_iff_ne] at this
      exact this hp
    | some i =>
      have hi' := (Find.findIdx_iff _ _ _).1 hi
      simp only [Except.ok.injEq]
      have hb : Best (SectionCalled n) (fun _ => True) l i := by
        obtain ⟨d, hd, hp, hm⟩ := hi'
        refine ⟨d, hd, by simpa [SectionCalled] using hp, .inl ⟨trivial, fun j x hj hx hpx => ?_⟩⟩
        have := hm j x hj hx
        simp only [beq_eq_false_iff_ne] at this
        exact absurd hpx this
      exact ⟨fun e => e ▸ hb, fun h => best_unique hb h⟩
  · unfold Sections.find
    cases hi : l.findIdx? (fun s => Sections.normalizedId s == Uni.lower n) with
    | none =>
      rw [List.findIdx?_eq_none_iff] at hi
      simpa [SectionCalled] using hi
    | some i =>
      obtain ⟨d, hd, hp, _⟩ := (Find.findIdx_iff _ _ _).1 hi
      simp only [reduceCtorEq, exists_false, false_iff]
      intro h
      exact h d (List.mem_of_getElem? hd) (by simpa [SectionCalled] using hp)

/-- what the three kinds of containers have in common -/
theorem laws [Uni] {K : Kind} {N : Naming K} (h : NamedKind K N) (l : List K.E) (hf : ∀ e ∈ l, N.fit e) (n : Str)
    (hn : N.fitName n) :
    (K.contains l n = true ↔ ∃ e ∈ l, N.called n e) ∧
    (∀ k, K.find l n = .ok k ↔ Best (N.called n) N.valid l k) ∧
    ((∃ e, K.find l n = .error e) ↔ ∀ e ∈ l, ¬ N.called n e) := by
  cases h with
  | definitions => exact definitions_find l n
  | tags =>
    obtain ⟨h1, h2, h3⟩ := Props.C21_find_tag ⟨l, []⟩ n
    have hc := Props.C21_contains_tag_partial ⟨l, []⟩ n hn.1 hn.2 hf
    have he : (∃ e, tags.find l n = .error e) ↔ ∀ e ∈ l, ¬ TagCalled n e := by
      constructor
      · rintro ⟨e, he⟩
        have := h3 e he
        subst this
        exact h2.1 he
      · intro h
        exact ⟨_, h2.2 h⟩
    refine ⟨?_, h1, he⟩
    refine hc.trans ?_
    constructor
    · rintro ⟨k, hk⟩
      obtain ⟨d, hd, hp, _⟩ := (h1 k).1 hk
      exact ⟨d, List.mem_of_getElem? hd, hp⟩
    · rintro ⟨e, he', hce⟩
      cases hfd : Tags.find ⟨l, []⟩ n none with
      | ok k => exact ⟨k, rfl⟩
      | error e' => exact absurd hce (he.1 ⟨e', hfd⟩ e he')
  | sections => exact sections_find l n

theorem part_laws [Uni] {K : Kind} {N : Naming K} (h : NamedKind K N) (e : K.E) (p : K.P) (n : Str) :
    (N.called n (K.part e p) ↔ N.called n e) ∧ (N.valid (K.part e p) ↔ N.valid e) ∧ (N.fit (K.part e p) ↔ N.fit e) := by
  cases h <;> exact ⟨Iff.rfl, Iff.rfl, Iff.rfl⟩

end Specfile.Attributes
