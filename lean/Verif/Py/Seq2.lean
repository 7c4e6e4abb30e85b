import Verif.Py.Seq
/-
Slices: positions are in range and distinct.
-/
namespace Py

theorem rangeDown_mem {step : Nat} {stop : Int} {fuel : Nat} {k : Int} {m : Nat}
    (h : m ∈ rangeDown step stop fuel k) (hs : -1 ≤ stop) : (m : Int) ≤ k ∧ stop < m := by
  induction fuel generalizing k with
  | zero => simp [rangeDown] at h
  | succ fuel ih =>
    simp only [rangeDown] at h
    split at h
    · rcases List.mem_cons.1 h with rfl | h
      · omega
      · have := ih h; omega
    · simp at h

theorem rangeDown_decreasing {step : Nat} {stop : Int} {fuel : Nat} {k : Int} (hst : 0 < step) (hs : -1 ≤ stop) :
    (rangeDown step stop fuel k).Pairwise (· > ·) := by
  induction fuel generalizing k with
  | zero => simp [rangeDown]
  | succ fuel ih =>
    simp only [rangeDown]
    split
    · rw [List.pairwise_cons]
      refine ⟨?_, ih⟩
      intro m hm
      have := rangeDown_mem hm hs
      omega
    · simp

theorem increasing_pairwise' {n : Nat} : ∀ {l : List Nat}, Increasing n l → l.Pairwise (· < ·) ∧ ∀ k ∈ l, k < n
  | [], _ => by simp
  | [k], h => by simpa [Increasing] using h
  | k :: m :: l, h => by
    obtain ⟨h1, h2⟩ := h
    obtain ⟨h3, h4⟩ := increasing_pairwise' h2
    have hall := List.pairwise_cons.1 h3
    refine ⟨List.pairwise_cons.2 ⟨?_, h3⟩, ?_⟩
    · intro x hx
      rcases List.mem_cons.1 hx with rfl | hx
      · exact h1
      · have := hall.1 x hx; omega
    · intro x hx
      rcases List.mem_cons.1 hx with rfl | hx
      · have := h4 m (.head _); omega
      · exact h4 x hx

/-- the positions of a slice are in range and distinct -/
theorem sliceIndices_range {n : Nat} {start stop step : Option Int} {l : List Nat}
    (h : sliceIndices n start stop step = .ok l) : l.Nodup ∧ ∀ k ∈ l, k < n := by
  by_cases hs : 0 < step.getD 1
  · obtain ⟨h1, h2⟩ := increasing_pairwise' (sliceIndices_increasing hs h)
    refine ⟨?_, h2⟩
    exact h1.imp (fun h => Nat.ne_of_lt h)
  · unfold sliceIndices at h
    simp only at h
    split at h
    · cases h
    · simp only [Except.ok.injEq] at h
      subst h
      have hlo : ∀ b : Int, -1 ≤ (if 0 ≤ b then min b ((n : Int) - 1) else max (b + n) (-1)) ∧
          (if 0 ≤ b then min b ((n : Int) - 1) else max (b + n) (-1)) ≤ (n : Int) - 1 := by
        intro b; split <;> omega
      have hstop : ∀ o : Option Int, -1 ≤ ((o.map fun b => if 0 ≤ b then min b ((n : Int) - 1) else max (b + n) (-1)).getD (-1)) := by
        intro o; cases o
        · exact Int.le_refl _
        · exact (hlo _).1
      have hstart : ∀ o : Option Int, ((o.map fun b => if 0 ≤ b then min b ((n : Int) - 1) else max (b + n) (-1)).getD ((n : Int) - 1)) ≤ (n : Int) - 1 := by
        intro o; cases o
        · exact Int.le_refl _
        · exact (hlo _).2
      refine ⟨(rangeDown_decreasing (by omega) (hstop _)).imp (fun h => Nat.ne_of_gt h), ?_⟩
      intro k hk
      have h1 := (rangeDown_mem hk (hstop _)).1
      have h2 := hstart start
      omega

end Py
