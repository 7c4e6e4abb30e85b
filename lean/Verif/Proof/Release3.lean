import Verif.Proof.Release2
import Verif.Proof.Tags
/-
Detecting %autorelease and %autochangelog.
-/
namespace Specfile.Release
open Py Regex Spec ValueParser

mutual
theorem flattenNode_refers {name : Str} (n : Node) :
    (flattenNode n).any (isMacro name) = true ↔ Refers name n := by
  cases n with
  | cond p c body =>
    rw [flattenNode, flatten_refers body]
    constructor
    · rintro ⟨n, hn, h⟩; exact .inside p c hn h
    · intro h; cases h with | inside _ _ hn h => exact ⟨_, hn, h⟩
  | sub p n =>
    simp only [flattenNode, List.any_cons, List.any_nil, Bool.or_false, isMacro, beq_iff_eq]
    constructor
    · rintro rfl; exact .bare p
    · intro h; cases h; rfl
  | encl p n args =>
    simp only [flattenNode, List.any_cons, List.any_nil, Bool.or_false, isMacro, beq_iff_eq]
    constructor
    · rintro rfl; exact .enclosed p args
    · intro h; cases h; rfl
  | lit v => simp only [flattenNode, List.any_cons, List.any_nil, Bool.or_false, isMacro]; constructor <;> intro h <;> cases h
  | shell v => simp only [flattenNode, List.any_cons, List.any_nil, Bool.or_false, isMacro]; constructor <;> intro h <;> cases h
  | expr v => simp only [flattenNode, List.any_cons, List.any_nil, Bool.or_false, isMacro]; constructor <;> intro h <;> cases h
  | builtin v w => simp only [flattenNode, List.any_cons, List.any_nil, Bool.or_false, isMacro]; constructor <;> intro h <;> cases h
theorem flatten_refers {name : Str} (ns : List Node) :
    (flatten ns).any (isMacro name) = true ↔ ∃ n ∈ ns, Refers name n := by
  cases ns with
  | nil => simp [flatten]
  | cons n ns =>
    rw [flatten, List.any_append, Bool.or_eq_true, flattenNode_refers n, flatten_refers ns]
    simp
end

theorem commentLine_iff {l : Str} : startsWith (lstrip l) ['#'] = true ↔ CommentLine l := by
  unfold startsWith lstrip
  rw [List.isPrefixOf_iff_prefix]
  constructor
  · rintro ⟨t, ht⟩
    refine ⟨l.takeWhile isSpace, t, ?_, fun c hc => List.all_eq_true.1 List.all_takeWhile c hc⟩
    have := List.takeWhile_append_dropWhile (p := isSpace) (l := l)
    rw [← ht] at this
    simpa using this.symm
  · rintro ⟨w, t, rfl, hw⟩
    rw [List.dropWhile_append_of_pos hw]
    exact ⟨t, by simp [isSpace]⟩

theorem contains_cons [Uni] (l : Str) (ls : List Str) :
    (SeenIn (s% "autochangelog") l ∧ containsAutochangelog (l :: ls) = .ok true) ∨
    (∃ e, Breaks l e ∧ containsAutochangelog (l :: ls) = .error e) ∨
    (¬ SeenIn (s% "autochangelog") l ∧ (∀ e, ¬ Breaks l e) ∧ containsAutochangelog (l :: ls) = containsAutochangelog ls) := by
  rw [containsAutochangelog]
  split
  · rename_i h
    rw [commentLine_iff] at h
    exact Or.inr (Or.inr ⟨fun h' => h'.1 h, fun e h' => h'.1 h, rfl⟩)
  · rename_i h
    rw [commentLine_iff] at h
    split
    · rename_i hp
      refine Or.inr (Or.inr ⟨?_, ?_, rfl⟩)
      · rintro ⟨-, ns, h1, -⟩; rw [hp] at h1; cases h1
      · rintro e ⟨-, h1, h2⟩; rw [hp] at h1; cases h1; exact h2 rfl
    · rename_i e hne hp
      exact Or.inr (Or.inl ⟨e, ⟨h, hp, fun h' => hne h'⟩, rfl⟩)
    · rename_i ns hp
      split
      · rename_i hr
        exact Or.inl ⟨⟨h, ns, hp, (flatten_refers ns).1 hr⟩, rfl⟩
      · rename_i hr
        refine Or.inr (Or.inr ⟨fun h' => ?_, fun e h' => ?_, rfl⟩)
        · obtain ⟨-, ns', h1, h2⟩ := h'
          rw [hp] at h1; cases h1
          exact hr ((flatten_refers ns).2 h2)
        · obtain ⟨-, h1, -⟩ := h'
          rw [hp] at h1; cases h1

theorem contains_true [Uni] (ls : List Str) : containsAutochangelog ls = .ok true ↔
    ∃ a l b, ls = a ++ l :: b ∧ SeenIn (s% "autochangelog") l ∧ ∀ x ∈ a, ∀ e, ¬ Breaks x e := by
  induction ls with
  | nil => simp [containsAutochangelog]
  | cons l ls ih =>
    rcases contains_cons l ls with ⟨hs, hc⟩ | ⟨e, hb, hc⟩ | ⟨hs, hb, hc⟩
    · rw [hc]
      exact ⟨fun _ => ⟨[], l, ls, rfl, hs, by simp⟩, fun _ => rfl⟩
    · rw [hc]
      refine ⟨fun h => (by cases h), ?_⟩
      rintro ⟨a, l', b, he, hs, ha⟩
      cases a with
      | nil =>
        simp at he
        obtain ⟨rfl, rfl⟩ := he
        obtain ⟨-, ns, h1, -⟩ := hs
        have := hb.2.1
        rw [h1] at this; cases this
      | cons x a =>
        simp at he
        obtain ⟨rfl, rfl⟩ := he
        exact absurd hb (ha l (by simp) e)
    · rw [hc, ih]
      constructor
      · rintro ⟨a, l', b, rfl, h1, h2⟩
        exact ⟨l :: a, l', b, rfl, h1, by
          intro x hx
          rcases List.mem_cons.1 hx with rfl | hx
          · exact hb
          · exact h2 x hx⟩
      · rintro ⟨a, l', b, he, h1, h2⟩
        cases a with
        | nil =>
          simp at he
          obtain ⟨rfl, rfl⟩ := he
          exact absurd h1 hs
        | cons x a =>
          simp at he
          obtain ⟨rfl, rfl⟩ := he
          exact ⟨a, l', b, rfl, h1, fun x hx => h2 x (List.mem_cons_of_mem _ hx)⟩

theorem contains_false [Uni] (ls : List Str) : containsAutochangelog ls = .ok false ↔
    ∀ l ∈ ls, ¬ SeenIn (s% "autochangelog") l ∧ ∀ e, ¬ Breaks l e := by
  induction ls with
  | nil => simp [containsAutochangelog]
  | cons l ls ih =>
    simp only [List.mem_cons, forall_eq_or_imp]
    rcases contains_cons l ls with ⟨hs, hc⟩ | ⟨e, hb, hc⟩ | ⟨hs, hb, hc⟩
    · rw [hc]
      exact ⟨fun h => (by cases h), fun h => absurd hs h.1.1⟩
    · rw [hc]
      exact ⟨fun h => (by cases h), fun h => absurd hb (h.1.2 e)⟩
    · rw [hc, ih]
      exact ⟨fun h => ⟨⟨hs, hb⟩, h⟩, fun h => h.2⟩

theorem contains_error [Uni] (ls : List Str) (e : Err) : containsAutochangelog ls = .error e ↔
    ∃ a l b, ls = a ++ l :: b ∧ Breaks l e ∧ ∀ x ∈ a, ¬ SeenIn (s% "autochangelog") x ∧ ∀ e, ¬ Breaks x e := by
  induction ls with
  | nil => simp [containsAutochangelog]
  | cons l ls ih =>
    rcases contains_cons l ls with ⟨hs, hc⟩ | ⟨e', hb, hc⟩ | ⟨hs, hb, hc⟩
    · rw [hc]
      refine ⟨fun h => (by cases h), ?_⟩
      rintro ⟨a, l', b, he, hb, ha⟩
      cases a with
      | nil =>
        simp at he
        obtain ⟨rfl, rfl⟩ := he
        obtain ⟨-, ns, h1, -⟩ := hs
        have := hb.2.1
        rw [h1] at this; cases this
      | cons x a =>
        simp at he
        obtain ⟨rfl, rfl⟩ := he
        exact absurd hs (ha l (by simp)).1
    · rw [hc]
      constructor
      · intro h; cases h; exact ⟨[], l, ls, rfl, hb, by simp⟩
      · rintro ⟨a, l', b, he, hb', ha⟩
        cases a with
        | nil =>
          simp at he
          obtain ⟨rfl, rfl⟩ := he
          have h1 := hb.2.1
          rw [hb'.2.1] at h1
          cases h1; rfl
        | cons x a =>
          simp at he
          obtain ⟨rfl, rfl⟩ := he
          exact absurd hb ((ha l (by simp)).2 e')
    · rw [hc, ih]
      constructor
      · rintro ⟨a, l', b, rfl, h1, h2⟩
        exact ⟨l :: a, l', b, rfl, h1, by
          intro x hx
          rcases List.mem_cons.1 hx with rfl | hx
          · exact ⟨hs, hb⟩
          · exact h2 x hx⟩
      · rintro ⟨a, l', b, he, h1, h2⟩
        cases a with
        | nil =>
          simp at he
          obtain ⟨rfl, rfl⟩ := he
          exact absurd h1 (hb e)
        | cons x a =>
          simp at he
          obtain ⟨rfl, rfl⟩ := he
          exact ⟨a, l', b, rfl, h1, fun x hx => h2 x (List.mem_cons_of_mem _ hx)⟩

end Specfile.Release
