import Verif.Py.Seq
import Verif.Spec.Find
/-
The lookup that prefers valid items.
-/
namespace Specfile.Find
open Py Spec

variable {α : Type}

/-- the loop of `find` -/
def loop (p v : α → Bool) : Nat → Option Nat → List α → Option Nat
  | _, first, [] => first
  | i, first, x :: xs =>
    if p x then
      if v x then some i
      else loop p v (i + 1) (if first.isNone then some i else first) xs
    else loop p v (i + 1) first xs

theorem loop_spec (p v : α → Bool) (i : Nat) (first : Option Nat) (l : List α) :
    loop p v i first l =
      match l.findIdx? (fun x => p x && v x) with
      | some k => some (i + k)
      | none => match first with
        | some f => some f
        | none => (l.findIdx? p).map (i + ·) := by
  induction l generalizing i first with
  | nil => cases first <;> simp [loop]
  | cons x xs ih =>
    simp only [loop, List.findIdx?_cons]
    by_cases h : p x
    · by_cases hv : v x
      · simp [h, hv]
      · simp only [Bool.not_eq_true] at hv
        simp only [h, if_true, hv, Bool.false_eq_true, if_false, Bool.and_false, ih]
        cases xs.findIdx? (fun x => p x && v x) with
        | some k => simp; omega
        | none => cases first <;> simp
    · simp only [Bool.not_eq_true] at h
      simp only [h, Bool.false_eq_true, if_false, Bool.false_and, ih]
      cases xs.findIdx? (fun x => p x && v x) with
      | some k => simp; omega
      | none =>
        cases first with
        | some f => simp
        | none =>
          simp only [Option.map_none, Option.map_map]
          congr 1
          funext k
          simp; omega

theorem findIdx_iff (l : List α) (p : α → Bool) (k : Nat) : l.findIdx? p = some k ↔
    ∃ d, l[k]? = some d ∧ p d = true ∧ ∀ (j : Nat) x, j < k → l[j]? = some x → p x = false := by
  rw [List.findIdx?_eq_some_iff_getElem]
  constructor
  · rintro ⟨h, h1, h2⟩
    refine ⟨_, List.getElem?_eq_getElem h, h1, ?_⟩
    intro j x hj hx
    have := h2 j hj
    rw [List.getElem?_eq_getElem (by omega)] at hx
    cases hx
    simpa using this
  · rintro ⟨d, hd, h1, h2⟩
    obtain ⟨h, rfl⟩ := List.getElem?_eq_some_iff.1 hd
    refine ⟨h, h1, ?_⟩
    intro j hj
    have := h2 j _ hj (List.getElem?_eq_getElem (by omega))
    simpa using this

theorem best_unique {p v : α → Prop} {l : List α} {j k : Nat} (hj : Best p v l j) (hk : Best p v l k) : j = k := by
  obtain ⟨x, hx, px, h⟩ := hj
  obtain ⟨y, hy, py, h'⟩ := hk
  have mx := List.mem_of_getElem? hx
  have my := List.mem_of_getElem? hy
  rcases Nat.lt_trichotomy j k with hlt | heq | hgt
  · rcases h with ⟨a, b⟩ | ⟨a, b⟩ <;> rcases h' with ⟨a', b'⟩ | ⟨a', b'⟩
    · exact absurd a (b' j x hlt hx px)
    · exact absurd a (a' x mx px)
    · exact absurd a' (a y my py)
    · exact absurd px (b' j x hlt hx)
  · exact heq
  · rcases h with ⟨a, b⟩ | ⟨a, b⟩ <;> rcases h' with ⟨a', b'⟩ | ⟨a', b'⟩
    · exact absurd a' (b k y hgt hy py)
    · exact absurd a (a' x mx px)
    · exact absurd a' (a y my py)
    · exact absurd py (b k y hgt hy)

theorem loop_best (p v : α → Bool) (l : List α) :
    (∀ k, loop p v 0 none l = some k ↔ Best (fun x => p x = true) (fun x => v x = true) l k) ∧
    (loop p v 0 none l = none ↔ ∀ x ∈ l, p x = false) := by
  have hspec := loop_spec p v 0 none l
  cases hA : l.findIdx? (fun x => p x && v x) with
  | some k0 =>
    rw [hA] at hspec
    simp only [Nat.zero_add] at hspec
    obtain ⟨d, hd, hp, hmin⟩ := (findIdx_iff _ _ _).1 hA
    simp only [Bool.and_eq_true] at hp
    have hb : Best (fun x => p x = true) (fun x => v x = true) l k0 := by
      refine ⟨d, hd, hp.1, .inl ⟨hp.2, ?_⟩⟩
      intro j x hj hx hn
      have := hmin j x hj hx
      simp [hn] at this
      simp [this]
    rw [hspec]
    refine ⟨?_, ?_⟩
    · intro k
      constructor
      · intro h; cases h; exact hb
      · intro h; rw [best_unique hb h]
    · constructor
      · simp
      · intro h; have := h d (List.mem_of_getElem? hd); rw [hp.1] at this; simp at this
  | none =>
    have hnone : ∀ x ∈ l, p x = true → v x = false := by
      intro x hx hn
      have := List.findIdx?_eq_none_iff.1 hA x hx
      simpa [hn] using this
    rw [hA] at hspec
    simp only at hspec
    cases hB : l.findIdx? p with
    | none =>
      rw [hB] at hspec
      simp only [Option.map_none] at hspec
      have hno : ∀ x ∈ l, p x = false := by
        intro x hx
        have := List.findIdx?_eq_none_iff.1 hB x hx
        simpa using this
      rw [hspec]
      refine ⟨?_, ?_⟩
      · intro k
        constructor
        · simp
        · rintro ⟨d, hd, hn, _⟩
          rw [hno d (List.mem_of_getElem? hd)] at hn
          simp at hn
      · exact ⟨fun _ => hno, fun _ => rfl⟩
    | some k0 =>
      rw [hB] at hspec
      simp only [Option.map_some, Nat.zero_add] at hspec
      obtain ⟨d, hd, hp, hmin⟩ := (findIdx_iff _ _ _).1 hB
      have hb : Best (fun x => p x = true) (fun x => v x = true) l k0 := by
        refine ⟨d, hd, hp, .inr ⟨?_, ?_⟩⟩
        · intro x hx hpx; simp [hnone x hx hpx]
        · intro j x hj hx; simp [hmin j x hj hx]
      rw [hspec]
      refine ⟨?_, ?_⟩
      · intro k
        constructor
        · intro h; cases h; exact hb
        · intro h; rw [best_unique hb h]
      · constructor
        · simp
        · intro h; have := h d (List.mem_of_getElem? hd); rw [hp] at this; simp at this

/-- the loop of `find` with a position -/
def posLoop (p : α → Bool) (pos : α → Except Err Nat) (at_ : Nat) : Nat → List α → Except Err Nat
  | _, [] => .error .valueError
  | i, x :: xs =>
    if p x then
      match pos x with
      | .error e => .error e
      | .ok q => if q = at_ then .ok i else posLoop p pos at_ (i + 1) xs
    else posLoop p pos at_ (i + 1) xs

theorem posLoop_spec (p : α → Bool) (pos : α → Except Err Nat) (at_ : Nat) (l : List α) (place : Nat → Nat)
    (hpos : ∀ k x, l[k]? = some x → p x = true → pos x = .ok (place k))
    (hinc : ∀ j k, j < k → k < l.length → place j < place k) :
    (∀ k, posLoop p pos at_ 0 l = .ok k ↔ ∃ d, l[k]? = some d ∧ p d = true ∧ place k = at_) ∧
    (∀ e, posLoop p pos at_ 0 l = .error e → e = .valueError) := by
  have key : ∀ (xs : List α) (i : Nat), (∀ k, (xs[k]? = l[i + k]?)) →
      match posLoop p pos at_ i xs with
      | .ok k => i ≤ k ∧ ∃ d, l[k]? = some d ∧ p d = true ∧ place k = at_
      | .error e => e = .valueError ∧ ∀ k d, i ≤ k → l[k]? = some d → p d = true → place k ≠ at_ := by
    intro xs
    induction xs with
    | nil =>
      intro i h
      refine ⟨rfl, ?_⟩
      intro k d hk hd
      have := h (k - i)
      rw [show i + (k - i) = k by omega, hd] at this
      simp at this
    | cons x xs ih =>
      intro i h
      have hx : l[i]? = some x := by have := h 0; simpa using this.symm
      have ih := ih (i + 1) (fun k => by
        have := h (k + 1); rw [show i + 1 + k = i + (k + 1) by omega, ← this]; simp)
      have hlift : ∀ (hx' : ¬ (p x = true ∧ place i = at_)),
          match posLoop p pos at_ (i + 1) xs with
          | .ok k => i ≤ k ∧ ∃ d, l[k]? = some d ∧ p d = true ∧ place k = at_
          | .error e => e = .valueError ∧ ∀ k d, i ≤ k → l[k]? = some d → p d = true → place k ≠ at_ := by
        intro hx'
        generalize posLoop p pos at_ (i + 1) xs = r at ih
        cases r with
        | ok k => exact ⟨by omega, ih.2⟩
        | error e =>
          refine ⟨ih.1, ?_⟩
          intro k d hk hd hn hp
          rcases Nat.eq_or_lt_of_le hk with rfl | hlt
          · rw [hx] at hd; cases hd; exact hx' ⟨hn, hp⟩
          · exact ih.2 k d hlt hd hn hp
      unfold posLoop
      by_cases hn : p x = true
      · simp only [hn, if_true, hpos i x hx hn]
        by_cases hp : place i = at_
        · rw [if_pos hp]
          exact ⟨Nat.le_refl _, x, hx, hn, hp⟩
        · rw [if_neg hp]
          exact hlift (fun h => hp h.2)
      · simp only [hn, Bool.false_eq_true, if_false]
        exact hlift (fun h => hn h.1)
  have := key l 0 (by simp)
  generalize posLoop p pos at_ 0 l = r at this
  cases r with
  | error e =>
    refine ⟨?_, ?_⟩
    · intro k
      constructor
      · simp
      · rintro ⟨d, hd, hn, hp⟩
        exact absurd hp (this.2 k d (Nat.zero_le _) hd hn)
    · intro e' h; cases h; exact this.1
  | ok k0 =>
    refine ⟨?_, by simp⟩
    obtain ⟨_, d, hd, hn, hp⟩ := this
    intro k
    constructor
    · intro h; cases h; exact ⟨d, hd, hn, hp⟩
    · rintro ⟨d', hd', hn', hp'⟩
      have l1 := (List.getElem?_eq_some_iff.1 hd).1
      have l2 := (List.getElem?_eq_some_iff.1 hd').1
      rcases Nat.lt_trichotomy k k0 with hlt | heq | hgt
      · have := hinc k k0 hlt l1; omega
      · rw [heq]
      · have := hinc k0 k hgt l2; omega

end Specfile.Find
