import Verif.Spec.Slices
import Verif.Proof.ListMethods
/-
Lemmas about slices.
-/
namespace Specfile.Slices
open Py Spec ListMethods

theorem mem_rangeUp {s stop m : Nat} (hs : 0 < s) : ∀ {fuel k : Nat}, stop ≤ k + fuel →
    (m ∈ rangeUp s stop fuel k ↔ k ≤ m ∧ m < stop ∧ s ∣ m - k)
  | 0, k, h => by simp [rangeUp]; omega
  | fuel + 1, k, h => by
    rw [rangeUp]
    split
    next hk =>
      rw [List.mem_cons, mem_rangeUp hs (by omega)]
      constructor
      · rintro (rfl | ⟨h1, h2, h3⟩)
        · simp; omega
        · refine ⟨by omega, h2, ?_⟩
          have : m - k = (m - (k + s)) + s := by omega
          rw [this]; exact Nat.dvd_add h3 (Nat.dvd_refl s)
      · rintro ⟨h1, h2, h3⟩
        by_cases e : m = k
        · exact Or.inl e
        · have : s ≤ m - k := Nat.le_of_dvd (by omega) h3
          refine Or.inr ⟨by omega, h2, ?_⟩
          have h4 := Nat.dvd_sub h3 (Nat.dvd_refl s)
          rwa [show m - k - s = m - (k + s) by omega] at h4
    next hk => simp; omega

theorem pairwise_rangeUp {s stop : Nat} (hs : 0 < s) : ∀ {fuel k : Nat}, (rangeUp s stop fuel k).Pairwise (· < ·)
  | 0, k => by simp [rangeUp]
  | fuel + 1, k => by
    rw [rangeUp]
    split
    · rw [List.pairwise_cons]
      refine ⟨fun m hm => ?_, pairwise_rangeUp hs⟩
      have := rangeUp_mem hm
      omega
    · simp

theorem mem_rangeDown {s : Nat} {stop : Int} (hs : 0 < s) (hp : -1 ≤ stop) {m : Nat} : ∀ {fuel : Nat} {k : Int},
    k ≤ stop + fuel → (m ∈ rangeDown s stop fuel k ↔ stop < m ∧ (m : Int) ≤ k ∧ (s : Int) ∣ k - m)
  | 0, k, h => by simp [rangeDown]; omega
  | fuel + 1, k, h => by
    rw [rangeDown]
    split
    next hk =>
      rw [List.mem_cons, mem_rangeDown hs hp (by omega)]
      constructor
      · rintro (e | ⟨h1, h2, h3⟩)
        · have : (m : Int) = k := by omega
          exact ⟨by omega, by omega, by rw [this, Int.sub_self]; exact Int.dvd_zero _⟩
        · refine ⟨by omega, by omega, ?_⟩
          have : k - m = (k - s - m) + s := by omega
          rw [this]; exact Int.dvd_add h3 (Int.dvd_refl _)
      · rintro ⟨h1, h2, h3⟩
        by_cases e : (m : Int) = k
        · left; omega
        · have : (s : Int) ≤ k - m := Int.le_of_dvd (by omega) h3
          refine Or.inr ⟨by omega, by omega, ?_⟩
          have h4 := Int.dvd_sub h3 (Int.dvd_refl (s : Int))
          rwa [show k - m - (s : Int) = k - s - m by omega] at h4
    next hk => simp; omega

theorem rangeDown_mem {s : Nat} {stop : Int} (hp : -1 ≤ stop) {m : Nat} : ∀ {fuel : Nat} {k : Int},
    m ∈ rangeDown s stop fuel k → (m : Int) ≤ k
  | 0, k, h => by simp [rangeDown] at h
  | fuel + 1, k, h => by
    rw [rangeDown] at h
    split at h
    · rcases List.mem_cons.1 h with e | h
      · omega
      · have := rangeDown_mem hp h; omega
    · simp at h

theorem pairwise_rangeDown {s : Nat} {stop : Int} (hs : 0 < s) (hp : -1 ≤ stop) : ∀ {fuel : Nat} {k : Int},
    (rangeDown s stop fuel k).Pairwise (· > ·)
  | 0, k => by simp [rangeDown]
  | fuel + 1, k => by
    rw [rangeDown]
    split
    · rw [List.pairwise_cons]
      refine ⟨fun m hm => ?_, pairwise_rangeDown hs hp⟩
      have := rangeDown_mem hp hm
      omega
    · simp

theorem boundUp_clamp (n missing : Nat) (b : Option Int) : BoundUp n missing b ((b.map (clampBound n)).getD missing) := by
  cases b with
  | none => rfl
  | some b =>
    simp only [BoundUp, Option.map_some, Option.getD_some, InsertsAt, clampBound]
    split <;> omega

theorem boundUp_le {n missing k : Nat} {b : Option Int} (hm : missing ≤ n) (h : BoundUp n missing b k) : k ≤ n := by
  cases b with
  | none => simp only [BoundUp] at h; omega
  | some b => exact insertsAt_le h

theorem boundUp_unique {n missing k k' : Nat} {b : Option Int} (h : BoundUp n missing b k) (h' : BoundUp n missing b k') :
    k = k' := by
  cases b with
  | none => simp only [BoundUp] at h h'; omega
  | some b => simp only [BoundUp, InsertsAt] at h h'; omega

theorem boundDown_unique {n : Nat} {missing k k' : Int} {b : Option Int} (h : BoundDown n missing b k)
    (h' : BoundDown n missing b k') : k = k' := by
  cases b with
  | none => simp only [BoundDown] at h h'; omega
  | some b => simp only [BoundDown] at h h'; omega

theorem boundDown_clamp (n : Nat) (missing : Int) (b : Option Int) : BoundDown n missing b
    ((b.map (fun b : Int => if 0 ≤ b then min b ((n : Int) - 1) else max (b + n) (-1))).getD missing) := by
  cases b with
  | none => rfl
  | some b =>
    simp only [BoundDown, Option.map_some, Option.getD_some]
    split <;> omega

theorem boundDown_range {n : Nat} {missing k : Int} {b : Option Int} (hm : -1 ≤ missing ∧ missing < n)
    (h : BoundDown n missing b k) : -1 ≤ k ∧ k < n := by
  cases b with
  | none => simp only [BoundDown] at h; omega
  | some b => simp only [BoundDown] at h; omega

/-- lists that are sorted in the same way and have the same members are equal -/
theorem sorted_ext {r : Nat → Nat → Prop} (hr : ∀ a b, r a b → ¬ r b a) : ∀ {l m : List Nat}, l.Pairwise r → m.Pairwise r →
    (∀ k, k ∈ l ↔ k ∈ m) → l = m
  | [], m, _, _, h => by
    cases m with
    | nil => rfl
    | cons x m => simpa using (h x).2 (by simp)
  | x :: l, [], _, _, h => by simpa using (h x).1 (by simp)
  | x :: l, y :: m, hl, hm, h => by
    rw [List.pairwise_cons] at hl hm
    have irr : ∀ a, ¬ r a a := fun a ha => hr a a ha ha
    have e : x = y := by
      rcases List.mem_cons.1 ((h x).1 (by simp)) with e | hx
      · exact e
      · rcases List.mem_cons.1 ((h y).2 (by simp)) with e | hy
        · exact e.symm
        · exact absurd (hl.1 y hy) (hr _ _ (hm.1 x hx))
    subst e
    rw [sorted_ext hr hl.2 hm.2 (fun k => ?_)]
    constructor
    · intro hk
      rcases List.mem_cons.1 ((h k).1 (by simp [hk])) with e | h'
      · subst e; exact absurd (hl.1 _ hk) (irr _)
      · exact h'
    · intro hk
      rcases List.mem_cons.1 ((h k).2 (by simp [hk])) with e | h'
      · subst e; exact absurd (hm.1 _ hk) (irr _)
      · exact h'

theorem denotes_unique {n : Nat} {start stop step : Option Int} {ks ks' : List Nat} (h : Denotes n start stop step ks)
    (h' : Denotes n start stop step ks') : ks = ks' := by
  rcases h with ⟨h1, h2, lo, hi, h3, h4, h5⟩ | ⟨h1, h2, lo, hi, h3, h4, h5⟩
  · rcases h' with ⟨g1, g2, lo', hi', g3, g4, g5⟩ | ⟨g1, -⟩
    · obtain rfl := boundUp_unique h3 g3
      obtain rfl := boundUp_unique h4 g4
      exact sorted_ext (fun a b h => by omega) h2 g2 (fun k => (h5 k).trans (g5 k).symm)
    · omega
  · rcases h' with ⟨g1, -⟩ | ⟨g1, g2, lo', hi', g3, g4, g5⟩
    · omega
    · obtain rfl := boundDown_unique h3 g3
      obtain rfl := boundDown_unique h4 g4
      exact sorted_ext (fun a b h => by omega) h2 g2 (fun k => (h5 k).trans (g5 k).symm)

theorem sliceIndices_zero {n : Nat} {start stop step : Option Int} (h : step.getD 1 = 0) :
    sliceIndices n start stop step = .error .valueError := by
  simp [sliceIndices, h]

theorem sliceIndices_denotes (n : Nat) (start stop step : Option Int) (h : step.getD 1 ≠ 0) :
    ∃ ks, sliceIndices n start stop step = .ok ks ∧ Denotes n start stop step ks := by
  by_cases hp : 0 < step.getD 1
  · refine ⟨_, by simp only [sliceIndices]; rw [if_neg h, if_pos hp], Or.inl ⟨hp, pairwise_rangeUp (by omega), _, _,
      boundUp_clamp n 0 start, boundUp_clamp n n stop, fun k => mem_rangeUp (by omega) ?_⟩⟩
    have := boundUp_le (Nat.le_refl n) (boundUp_clamp n n stop)
    omega
  · have hs := boundDown_clamp n ((n : Int) - 1) start
    have ht := boundDown_clamp n (-1) stop
    have hs' := boundDown_range (by omega) hs
    have ht' := (boundDown_range (by omega) ht).1
    refine ⟨_, by simp only [sliceIndices]; rw [if_neg h, if_neg hp], Or.inr ⟨by omega, pairwise_rangeDown (by omega) ht', _, _,
      hs, ht, fun k => ?_⟩⟩
    rw [mem_rangeDown (by omega) ht' (by omega)]
    have : (((-(step.getD 1)).toNat : Nat) : Int) = -(step.getD 1) := by omega
    rw [this, Int.neg_dvd]

theorem sliceIndices_ok_iff {n : Nat} {start stop step : Option Int} {ks : List Nat} :
    sliceIndices n start stop step = .ok ks ↔ Denotes n start stop step ks := by
  by_cases h : step.getD 1 = 0
  · rw [sliceIndices_zero h]
    simp only [reduceCtorEq, false_iff]
    rintro (⟨h1, -⟩ | ⟨h1, -⟩) <;> omega
  · obtain ⟨ks', h1, h2⟩ := sliceIndices_denotes n start stop step h
    rw [h1]
    constructor
    · intro e; simp at e; exact e ▸ h2
    · intro e; rw [denotes_unique e h2]

theorem denotes_lt {n : Nat} {start stop step : Option Int} {ks : List Nat} (h : Denotes n start stop step ks) :
    ks.Nodup ∧ ∀ k ∈ ks, k < n := by
  rcases h with ⟨h1, h2, lo, hi, h3, h4, h5⟩ | ⟨h1, h2, lo, hi, h3, h4, h5⟩
  · refine ⟨h2.imp (fun h => by omega), fun k hk => ?_⟩
    have := boundUp_le (Nat.le_refl n) h4
    have := (h5 k).1 hk
    omega
  · refine ⟨h2.imp (fun h => by omega), fun k hk => ?_⟩
    have h6 := (h5 k).1 hk
    have : hi < n := by
      cases start with
      | none => simp only [BoundDown] at h3; omega
      | some b => simp only [BoundDown] at h3; omega
    omega

/-! ### positions -/

theorem pick_elementsAt {α : Type} (l : List α) : ∀ (ks : List Nat), (∀ k ∈ ks, k < l.length) → ElementsAt l ks (pick l ks)
  | [], _ => ⟨rfl, by simp⟩
  | k :: ks, h => by
    have hk : k < l.length := h k (by simp)
    obtain ⟨h1, h2⟩ := pick_elementsAt l ks (fun j hj => h j (by simp [hj]))
    have e : pick l (k :: ks) = l[k] :: pick l ks := by simp [pick, hk]
    rw [e]
    refine ⟨by simp [h1], fun j i hj => ?_⟩
    cases j with
    | zero => simp at hj; subst hj; exact ⟨l[k], by simp [hk], by simp⟩
    | succ j => simp at hj; obtain ⟨x, h3, h4⟩ := h2 j i hj; exact ⟨x, h3, by simpa using h4⟩

theorem elementsAt_unique {α : Type} {l m m' : List α} {ks : List Nat} (h : ElementsAt l ks m) (h' : ElementsAt l ks m') :
    m = m' := by
  apply List.ext_getElem?
  intro j
  by_cases hj : j < ks.length
  · obtain ⟨x, h1, h2⟩ := h.2 j ks[j] (by simp [hj])
    obtain ⟨y, h3, h4⟩ := h'.2 j ks[j] (by simp [hj])
    rw [h1] at h3
    rw [h2, h4, h3]
  · rw [List.getElem?_eq_none (by rw [h.1]; omega), List.getElem?_eq_none (by rw [h'.1]; omega)]

/-- consecutive positions -/
theorem elementsAt_range {α : Type} {a m b : List α} {ks : List Nat} (hs : ks.Pairwise (· < ·))
    (hk : ∀ k, k ∈ ks ↔ a.length ≤ k ∧ k < a.length + m.length) : ElementsAt (a ++ m ++ b) ks m := by
  have e : ks = (List.range m.length).map (a.length + ·) := by
    refine sorted_ext (r := (· < ·)) (fun a b h => by omega) hs ?_ (fun k => ?_)
    · rw [List.pairwise_map]
      exact List.pairwise_lt_range.imp (fun h => by omega)
    · rw [hk, List.mem_map]
      constructor
      · intro h; exact ⟨k - a.length, by simp; omega, by omega⟩
      · rintro ⟨j, hj, rfl⟩; simp at hj; omega
  subst e
  refine ⟨by simp, fun j k hj => ?_⟩
  rw [List.getElem?_map, Option.map_eq_some_iff] at hj
  obtain ⟨i, h1, rfl⟩ := hj
  have hi : i = j ∧ j < m.length := by
    by_cases hm : j < m.length
    · rw [List.getElem?_eq_getElem (by simpa using hm)] at h1; simp at h1; omega
    · rw [List.getElem?_eq_none (by simpa using hm)] at h1; cases h1
  obtain ⟨rfl, hm⟩ := hi
  refine ⟨m[i], ?_, by simp [hm]⟩
  rw [List.append_assoc, List.getElem?_append_right (by omega)]
  simp [List.getElem?_append_left, hm]

theorem setAll_length {α : Type} : ∀ (ks : List Nat) (xs l : List α), (setAll l ks xs).length = l.length
  | [], _, l => by simp [setAll]
  | _ :: _, [], l => by simp [setAll]
  | k :: ks, x :: xs, l => by rw [setAll, setAll_length ks xs]; simp

theorem setAll_other {α : Type} {i : Nat} : ∀ (ks : List Nat) (xs l : List α), i ∉ ks → (setAll l ks xs)[i]? = l[i]?
  | [], _, l, _ => by simp [setAll]
  | _ :: _, [], l, _ => by simp [setAll]
  | k :: ks, x :: xs, l, h => by
    simp at h
    rw [setAll, setAll_other ks xs _ h.2, List.getElem?_set_ne (by omega)]

theorem setAll_at {α : Type} : ∀ (ks : List Nat) (xs l : List α), ks.Nodup → (∀ k ∈ ks, k < l.length) →
    ks.length = xs.length → ElementsAt (setAll l ks xs) ks xs
  | [], [], l, _, _, _ => ⟨rfl, by simp⟩
  | [], x :: xs, l, _, _, h => by simp at h
  | k :: ks, [], l, _, _, h => by simp at h
  | k :: ks, x :: xs, l, hn, hk, h => by
    rw [List.nodup_cons] at hn
    obtain ⟨h1, h2⟩ := setAll_at ks xs (l.set k x) hn.2 (fun j hj => by simpa using hk j (by simp [hj])) (by simpa using h)
    refine ⟨by simpa using h.symm, fun j i hj => ?_⟩
    cases j with
    | zero =>
      simp at hj; subst hj
      refine ⟨x, ?_, by simp⟩
      rw [setAll, setAll_other ks xs _ hn.1, List.getElem?_set_self (hk k (by simp))]
    | succ j => simp at hj; obtain ⟨y, h3, h4⟩ := h2 j i hj; exact ⟨y, h3, by simpa using h4⟩

/-- positions that are not in the list, upwards -/
theorem dropAll_eq {α : Type} (ks : List Nat) : ∀ (l pre : List α),
    dropAll ks pre.length l = pick (pre ++ l) ((List.range' pre.length l.length).filter (fun k => !ks.contains k))
  | [], pre => by simp [dropAll, pick]
  | x :: l, pre => by
    have ih := dropAll_eq ks l (pre ++ [x])
    simp only [List.length_append, List.length_cons, List.length_nil, Nat.zero_add, List.append_assoc, List.cons_append,
      List.nil_append] at ih
    rw [dropAll, ih, List.length_cons, List.range'_succ, List.filter_cons]
    by_cases h : pre.length ∈ ks
    · simp [h]
    · simp [h, pick]

theorem replicate_getElem? {α : Type} (l : List α) : ∀ (n k : Nat), k < n * l.length →
    (List.replicate n l).flatten[k]? = l[k % l.length]?
  | 0, k, h => by simp at h
  | n + 1, k, h => by
    rw [List.replicate_succ, List.flatten_cons]
    by_cases hk : k < l.length
    · rw [List.getElem?_append_left hk, Nat.mod_eq_of_lt hk]
    · have h' : k - l.length < n * l.length := by rw [Nat.succ_mul] at h; omega
      rw [List.getElem?_append_right (by omega), replicate_getElem? l n _ h', ← Nat.mod_eq_sub_mod (by omega)]

/-! ### comments -/

theorem putAll_length : ∀ (ks : List Nat) (xs : List Item) (l : List Comment), (putAll ks xs l).1.length = l.length
  | [], _, l => by simp [putAll]
  | _ :: _, [], l => by simp [putAll]
  | k :: ks, x :: xs, l => by rw [putAll, putAll_length ks xs]; simp

theorem putAll_other {i : Nat} : ∀ (ks : List Nat) (xs : List Item) (l : List Comment), i ∉ ks →
    (putAll ks xs l).1[i]? = l[i]?
  | [], _, l, _ => by simp [putAll]
  | _ :: _, [], l, _ => by simp [putAll]
  | k :: ks, x :: xs, l, h => by
    simp at h
    rw [putAll, putAll_other ks xs _ h.2, List.getElem?_modify_ne _ _ (by omega)]

theorem putAll_at : ∀ (ks : List Nat) (xs : List Item) (l : List Comment), ks.Nodup → (∀ k ∈ ks, k < l.length) →
    ∀ (j k : Nat) (x : Item), ks[j]? = some k → xs[j]? = some x → ∃ y, l[k]? = some y ∧ (putAll ks xs l).1[k]? = some (x.put y)
  | [], _, l, _, _, j, k, x, h, _ => by simp at h
  | _ :: _, [], l, _, _, j, k, x, _, h => by simp at h
  | k :: ks, x :: xs, l, hn, hk, j, i, y, h1, h2 => by
    rw [List.nodup_cons] at hn
    cases j with
    | zero =>
      simp at h1 h2; subst h1 h2
      have hl := hk k (by simp)
      refine ⟨l[k], by simp [hl], ?_⟩
      rw [putAll, putAll_other ks xs _ hn.1]
      simp [hl]
    | succ j =>
      simp at h1 h2
      obtain ⟨z, h3, h4⟩ := putAll_at ks xs (l.modify k (fun c => x.put c)) hn.2
        (fun a ha => by simpa using hk a (by simp [ha])) j i y h1 h2
      have hne : k ≠ i := by
        intro e; subst e
        exact hn.1 (List.mem_of_getElem? h1)
      rw [List.getElem?_modify_ne _ _ hne] at h3
      exact ⟨z, h3, h4⟩

theorem putAll_error : ∀ (ks : List Nat) (xs : List Item) (l : List Comment),
    (putAll ks xs l).2 = if xs.length < ks.length then some .indexError else none
  | [], _, l => by simp [putAll]
  | _ :: _, [], l => by simp [putAll]
  | k :: ks, x :: xs, l => by rw [putAll, putAll_error ks xs]; simp

theorem putAll_assigned (ks : List Nat) (xs : List Item) (l : List Comment) (hn : ks.Nodup) (hk : ∀ k ∈ ks, k < l.length) :
    AssignedAt ks xs l (putAll ks xs l).1 := by
  intro j k x h1 h2
  obtain ⟨y, h3, h4⟩ := putAll_at ks xs l hn hk j k x h1 h2
  exact ⟨y, _, h3, h4, by cases x <;> simp [BecomesBy, Item.put]⟩

end Specfile.Slices
