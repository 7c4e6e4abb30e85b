import Verif.Py.Str
import Verif.Py.Err
/-
Python sequence indexing.
-/
namespace Py

/-- position denoted by the index `i` in a list of length `n`; `none` is an `IndexError` -/
def pyIndex (n : Nat) (i : Int) : Option Nat :=
  if 0 ≤ i then (if i.toNat < n then some i.toNat else none)
  else if 0 ≤ i + n then some (i + n).toNat else none

/-- position used by `list.insert(i, x)`: clamped -/
def insertPos (n : Nat) (i : Int) : Nat :=
  if 0 ≤ i then min i.toNat n else (i + n).toNat

theorem pyIndex_lt {n : Nat} {i : Int} {k : Nat} (h : pyIndex n i = some k) : k < n := by
  unfold pyIndex at h
  split at h
  · split at h
    · simp at h; omega
    · simp at h
  · split at h
    · simp at h; omega
    · simp at h

theorem pyIndex_ofNat {n k : Nat} (h : k < n) : pyIndex n (k : Int) = some k := by
  simp [pyIndex, h]

theorem pyIndex_neg {n k : Nat} (h : k < n) : pyIndex n ((k : Int) - n) = some k := by
  unfold pyIndex
  rw [if_neg (by omega), if_pos (by omega)]
  congr 1
  omega

/-- `l[i:]`-style clamping of a slice bound for a positive step -/
def clampBound (n : Nat) (b : Int) : Nat :=
  if 0 ≤ b then min b.toNat n else (b + n).toNat

/-- `range(start, stop, step)` for `step > 0`; `fuel` bounds the length -/
def rangeUp (step : Nat) (stop : Nat) : Nat → Nat → List Nat
  | 0, _ => []
  | fuel + 1, k => if k < stop then k :: rangeUp step stop fuel (k + step) else []

/-- `range(start, stop, -step)` for `step > 0`, `stop` exclusive lower bound plus one -/
def rangeDown (step : Nat) (stop : Int) : Nat → Int → List Nat
  | 0, _ => []
  | fuel + 1, k => if stop < k then k.toNat :: rangeDown step stop fuel (k - step) else []

/-- `range(n)[start:stop:step]` (slice objects with optional members) -/
def sliceIndices (n : Nat) (start stop step : Option Int) : Except Err (List Nat) :=
  let st := step.getD 1
  if st = 0 then .error .valueError
  else if 0 < st then
    .ok (rangeUp st.toNat ((stop.map (clampBound n)).getD n) n ((start.map (clampBound n)).getD 0))
  else
    let lo : Int → Int := fun b => if 0 ≤ b then min b ((n : Int) - 1) else max (b + n) (-1)
    .ok (rangeDown (-st).toNat ((stop.map lo).getD (-1)) n ((start.map lo).getD ((n : Int) - 1)))

/-- strictly increasing positions below `n` -/
def Increasing (n : Nat) : List Nat → Prop
  | [] => True
  | [k] => k < n
  | k :: m :: l => k < m ∧ Increasing n (m :: l)

theorem rangeUp_mem {step stop fuel k m : Nat} (h : m ∈ rangeUp step stop fuel k) :
    k ≤ m ∧ m < stop := by
  induction fuel generalizing k with
  | zero => simp [rangeUp] at h
  | succ fuel ih =>
    simp only [rangeUp] at h
    split at h
    · simp only [List.mem_cons] at h
      rcases h with rfl | h
      · omega
      · have := ih h; omega
    · simp at h

theorem rangeUp_increasing {step stop fuel k n : Nat} (hs : 0 < step) (hn : stop ≤ n) :
    Increasing n (rangeUp step stop fuel k) := by
  induction fuel generalizing k with
  | zero => simp [rangeUp, Increasing]
  | succ fuel ih =>
    simp only [rangeUp]
    split
    · rename_i hk
      cases h : rangeUp step stop fuel (k + step) with
      | nil => simp only [Increasing]; omega
      | cons m l =>
        refine ⟨?_, ?_⟩
        · have := rangeUp_mem (h ▸ List.mem_cons_self : m ∈ rangeUp step stop fuel (k + step))
          omega
        · rw [← h]; exact ih
    · simp [Increasing]

/-- a slice with positive step denotes increasing positions -/
theorem sliceIndices_increasing {n : Nat} {start stop step : Option Int} {l : List Nat}
    (hs : 0 < step.getD 1) (h : sliceIndices n start stop step = .ok l) : Increasing n l := by
  unfold sliceIndices at h
  simp only at h
  rw [if_neg (by omega), if_pos hs] at h
  simp only [Except.ok.injEq] at h
  subst h
  apply rangeUp_increasing
  · omega
  · cases stop with
    | none => simp
    | some b =>
      simp only [Option.map_some, Option.getD_some, clampBound]
      split <;> omega

end Py
