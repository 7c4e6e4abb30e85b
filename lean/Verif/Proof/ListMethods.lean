import Verif.Spec.ListMethods
/-
Lemmas about the list methods of containers.
-/
namespace Specfile.ListMethods
open Py Spec

theorem denotesAt_iff {n : Nat} {i : Int} {k : Nat} : pyIndex n i = some k ↔ DenotesAt n i k := by
  unfold pyIndex DenotesAt
  constructor
  · intro h
    repeat' split at h
    all_goals simp at h
    all_goals omega
  · rintro ⟨h1, h2⟩
    repeat' split
    all_goals first | (simp; omega) | omega

theorem denotesAt_none {n : Nat} {i : Int} : pyIndex n i = none ↔ ∀ k, ¬ DenotesAt n i k := by
  constructor
  · intro h k hk
    rw [denotesAt_iff.2 hk] at h
    cases h
  · intro h
    cases hp : pyIndex n i with
    | none => rfl
    | some k => exact absurd (denotesAt_iff.1 hp) (h k)

theorem insertsAt_insertPos (n : Nat) (i : Int) : InsertsAt n i (insertPos n i) := by
  unfold InsertsAt insertPos
  split <;> omega

theorem insertsAt_le {n k : Nat} {i : Int} (h : InsertsAt n i k) : k ≤ n := by
  unfold InsertsAt at h
  omega

theorem split_at {α : Type} {l : List α} {k : Nat} (h : k < l.length) :
    ∃ a x b, l = a ++ x :: b ∧ a.length = k ∧ l[k]? = some x ∧ l.eraseIdx k = a ++ b ∧ ∀ y, l.set k y = a ++ y :: b := by
  refine ⟨l.take k, l[k], l.drop (k + 1), ?_, ?_, ?_, ?_, ?_⟩
  · rw [List.getElem_cons_drop, List.take_append_drop]
  · simp; omega
  · simp [h]
  · rw [List.eraseIdx_eq_take_drop_succ]
  · intro y; rw [List.set_eq_take_append_cons_drop, if_pos h]

theorem linesOf_append {C α : Type} (L : Layout C α) (a b : List α) : L.linesOf (a ++ b) =
    if L.upwards then L.linesOf b ++ L.linesOf a else L.linesOf a ++ L.linesOf b := by
  unfold Layout.linesOf
  split <;> simp

theorem linesOf_one {C α : Type} (L : Layout C α) (x : α) : L.linesOf [x] = L.lines x := by
  unfold Layout.linesOf
  split <;> simp

variable {C α : Type} [Listed C α] {L : Layout C α} {raw : C → List Str}

/-- what is written of a container with elements in the middle -/
theorem raw_withData (h : Fits L raw) (c : C) (a m b : List α) :
    raw (Listed.withData c (a ++ m ++ b)) = L.around c a (L.linesOf m) b := by
  rw [h.written, h.elements, h.above, h.below, linesOf_append, linesOf_append]
  unfold Layout.around
  split <;> simp [List.append_assoc]

theorem raw_around (h : Fits L raw) {c : C} {a m b : List α} (hc : L.elements c = a ++ m ++ b) :
    raw c = L.around c a (L.linesOf m) b := by
  rw [h.written, hc, linesOf_append, linesOf_append]
  unfold Layout.around
  split <;> simp [List.append_assoc]

theorem restKept (h : Fits L raw) (c : C) (l : List α) : RestKept L c (Listed.withData c l) := ⟨h.above c l, h.below c l⟩

theorem search_some {same : α → Except Err Bool} : ∀ {l : List α} {n k : Nat}, search same n l = .ok (some k) ↔
    ∃ a y b, l = a ++ y :: b ∧ k = n + a.length ∧ same y = .ok true ∧ ∀ z ∈ a, same z = .ok false
  | [], n, k => by simp [search]
  | y :: l, n, k => by
    rw [search]
    split
    next e he =>
      simp only [reduceCtorEq, false_iff]
      rintro ⟨a, z, b, h1, -, h3, h4⟩
      cases a with
      | nil => simp at h1; rw [← h1.1, he] at h3; cases h3
      | cons w a => simp at h1; rw [h1.1] at he; rw [h4 w (by simp)] at he; cases he
    next he =>
      constructor
      · intro h; simp at h; exact ⟨[], y, l, rfl, by simp [h], he, by simp⟩
      · rintro ⟨a, z, b, h1, h2, h3, h4⟩
        cases a with
        | nil => simp at h2; simp [h2]
        | cons w a => simp at h1; rw [h1.1] at he; rw [h4 w (by simp)] at he; cases he
    next he =>
      rw [search_some]
      constructor
      · rintro ⟨a, z, b, rfl, h2, h3, h4⟩
        refine ⟨y :: a, z, b, rfl, by simp; omega, h3, ?_⟩
        intro w hw
        rcases List.mem_cons.1 hw with rfl | hw
        · exact he
        · exact h4 w hw
      · rintro ⟨a, z, b, h1, h2, h3, h4⟩
        cases a with
        | nil => simp at h1; rw [h1.1, h3] at he; cases he
        | cons w a =>
          simp at h1
          exact ⟨a, z, b, h1.2, by simp at h2; omega, h3, fun v hv => h4 v (by simp [hv])⟩

theorem search_none {same : α → Except Err Bool} : ∀ {l : List α} {n : Nat}, search same n l = .ok none ↔
    ∀ z ∈ l, same z = .ok false
  | [], n => by simp [search]
  | y :: l, n => by
    rw [search]
    split
    next e he => simp [he]
    next he => simp [he]
    next he => rw [search_none]; simp [he]

theorem search_error {same : α → Except Err Bool} {e : Err} : ∀ {l : List α} {n : Nat}, search same n l = .error e ↔
    ∃ a y b, l = a ++ y :: b ∧ same y = .error e ∧ ∀ z ∈ a, same z = .ok false
  | [], n => by simp [search]
  | y :: l, n => by
    rw [search]
    split
    next e' he =>
      constructor
      · intro h; simp at h; exact ⟨[], y, l, rfl, by rw [he, h], by simp⟩
      · rintro ⟨a, z, b, h1, h3, h4⟩
        cases a with
        | nil => simp at h1; rw [← h1.1, he] at h3; simpa using h3
        | cons w a => simp at h1; rw [h1.1] at he; rw [h4 w (by simp)] at he; cases he
    next he =>
      simp only [reduceCtorEq, false_iff]
      rintro ⟨a, z, b, h1, h3, h4⟩
      cases a with
      | nil => simp at h1; rw [← h1.1, he] at h3; cases h3
      | cons w a => simp at h1; rw [h1.1] at he; rw [h4 w (by simp)] at he; cases he
    next he =>
      rw [search_error]
      constructor
      · rintro ⟨a, z, b, rfl, h3, h4⟩
        refine ⟨y :: a, z, b, rfl, h3, ?_⟩
        intro w hw
        rcases List.mem_cons.1 hw with rfl | hw
        · exact he
        · exact h4 w hw
      · rintro ⟨a, z, b, h1, h3, h4⟩
        cases a with
        | nil => simp at h1; rw [h1.1, h3] at he; cases he
        | cons w a =>
          simp at h1
          exact ⟨a, z, b, h1.2, h3, fun v hv => h4 v (by simp [hv])⟩

/-- if comparing never fails, `count` is the number of equal elements -/
theorem countLoop_ok {same : α → Except Err Bool} {p : α → Bool} : ∀ {l : List α}, (∀ z ∈ l, same z = .ok (p z)) →
    countLoop same l = .ok (l.countP p)
  | [], _ => rfl
  | y :: l, h => by
    rw [countLoop, h y (by simp), countLoop_ok (fun z hz => h z (by simp [hz]))]
    simp [List.countP_cons]
    cases p y <;> simp

end Specfile.ListMethods
