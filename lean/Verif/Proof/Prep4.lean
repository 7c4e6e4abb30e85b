import Verif.Proof.Prep3
/-
Deleting and inserting macros in %prep, adding and removing `%patch` macros.
-/
namespace Specfile

namespace Prep
open Py Regex Spec
open Options (Opts Val)

/-! ### lines -/

theorem raw_append (a b : List PrepMacro) (r : List Str) :
    raw ⟨a ++ b, r⟩ = raw ⟨a, []⟩ ++ raw ⟨b, r⟩ := by
  simp [raw]

theorem raw_cons (m : PrepMacro) (b : List PrepMacro) (r : List Str) :
    raw ⟨m :: b, r⟩ = m.preceding ++ line (settle m) :: raw ⟨b, r⟩ := by
  simp [raw, macroRaw]

theorem raw_above (a : List PrepMacro) (ls : List Str) : raw ⟨a, ls⟩ = raw ⟨a, []⟩ ++ ls := by
  simp [raw]

theorem split_at {α : Type} {l : List α} {k : Nat} {x : α} (h : l[k]? = some x) :
    l = l.take k ++ x :: l.drop (k + 1) := by
  obtain ⟨hk, rfl⟩ := List.getElem?_eq_some_iff.mp h
  rw [List.getElem_cons_drop, List.take_append_drop]

theorem lineAt {p : Prep} {k : Nat} {m : PrepMacro} (h : p.data[k]? = some m) :
    LineAt p k (raw ⟨p.data.take k, m.preceding⟩) (line (settle m)) (raw ⟨p.data.drop (k + 1), p.remainder⟩) := by
  refine ⟨?_, m, h, by simp [macroRaw], rfl⟩
  obtain ⟨d, r⟩ := p
  simp only at h ⊢
  conv => lhs; rw [split_at h]
  rw [raw_append, raw_cons, raw_above _ m.preceding]
  simp

/-! ### deleting -/

theorem prepend_bare (ls : List Str) (m : PrepMacro) : withoutLines (prepend ls m) = withoutLines m := rfl

theorem modify_bare (ls : List Str) (l : List PrepMacro) (k : Nat) :
    (l.modify k (prepend ls)).map withoutLines = l.map withoutLines := by
  induction l generalizing k with
  | nil => cases k <;> rfl
  | cons m l ih => cases k <;> simp [prepend_bare, ih]

theorem delItem_nat {p : Prep} {k : Nat} {m : PrepMacro} (h : p.data[k]? = some m) :
    delItem p k = (⟨p.data.take k ++ (putAll m.preceding ⟨p.data.drop (k + 1), p.remainder⟩).data,
      (putAll m.preceding ⟨p.data.drop (k + 1), p.remainder⟩).remainder⟩, none) := by
  obtain ⟨hk, e⟩ := List.getElem?_eq_some_iff.mp h
  unfold delItem
  rw [pyIndex_ofNat hk]
  simp only [h, Option.map_some, Option.getD_some, List.eraseIdx_eq_take_drop_succ]
  cases hd : p.data.drop (k + 1) with
  | nil =>
    have hl : p.data.length ≤ k + 1 := by
      have := List.drop_eq_nil_iff.mp hd; exact this
    rw [putAll_empty, if_neg (by simp; omega)]
  | cons x xs =>
    have hl : k + 1 < p.data.length := by
      have := congrArg List.length hd
      simp at this; omega
    have e1 : (p.data.take k ++ x :: xs).length = p.data.length - 1 := by
      rw [← hd, ← List.eraseIdx_eq_take_drop_succ, List.length_eraseIdx_of_lt hk]
    rw [if_pos (by rw [e1]; omega), pyIndex_ofNat (by rw [e1]; omega), putAll_cons]
    simp only
    congr 2
    have := Options.modify_here (p.data.take k) x xs (prepend m.preceding)
    rw [List.length_take, Nat.min_eq_left (Nat.le_of_lt hk)] at this
    exact this

theorem putAll_bare (ls : List Str) (p : Prep) : (putAll ls p).data.map withoutLines = p.data.map withoutLines := by
  obtain ⟨d, r⟩ := p
  cases d with
  | nil => rw [putAll_empty]
  | cons m ms => rw [putAll_cons]; rfl

theorem delItem_spec {p : Prep} {k : Nat} {m : PrepMacro} (h : p.data[k]? = some m) :
    ∃ p', delItem p k = (p', none) ∧
      raw p' = raw ⟨p.data.take k, m.preceding⟩ ++ raw ⟨p.data.drop (k + 1), p.remainder⟩ ∧
      p'.data.map withoutLines = (p.data.map withoutLines).eraseIdx k := by
  refine ⟨_, delItem_nat h, ?_, ?_⟩
  · rw [raw_append]
    show _ ++ raw (putAll _ _) = _
    rw [raw_putAll, raw_above _ m.preceding, List.append_assoc]
  · simp only [List.map_append]
    rw [putAll_bare]
    simp [List.eraseIdx_eq_take_drop_succ]

theorem delItem_out {p : Prep} {i : Int} (h : p.data.length ≤ i ∨ i < -(p.data.length : Int)) :
    delItem p i = (p, some .indexError) := by
  unfold delItem
  have : pyIndex p.data.length i = none := by
    unfold pyIndex
    rcases h with h | h
    · rw [if_pos (by omega), if_neg (by omega)]
    · rw [if_neg (by omega), if_neg (by omega)]
  rw [this]

/-! ### inserting -/

theorem insertIdx_split {α : Type} {l : List α} {i : Nat} (h : i ≤ l.length) (x : α) :
    l.insertIdx i x = l.take i ++ x :: l.drop i := by
  induction l generalizing i with
  | nil => simp at h; subst h; rfl
  | cons y l ih =>
    cases i with
    | zero => rfl
    | succ i => simp [List.insertIdx_succ_cons, ih (by simpa using h)]

theorem insert_lines (p : Prep) (i : Nat) (hi : i ≤ p.data.length) (m : PrepMacro) (hm : m.preceding = []) :
    (insert p i m).data = p.data.insertIdx i m ∧ (insert p i m).remainder = p.remainder ∧
    raw p = raw ⟨p.data.take i, []⟩ ++ raw ⟨p.data.drop i, p.remainder⟩ ∧
    raw (insert p i m) = raw ⟨p.data.take i, []⟩ ++ line (settle m) :: raw ⟨p.data.drop i, p.remainder⟩ := by
  have e : insertPos p.data.length i = i := by
    unfold insertPos
    rw [if_pos (by omega)]
    simp; omega
  have e2 : p.data.insertIdx i m = p.data.take i ++ m :: p.data.drop i := by
    exact insertIdx_split hi m
  refine ⟨by simp [insert, e], rfl, ?_, ?_⟩
  · rw [← raw_append, List.take_append_drop]
  · simp only [insert, e, e2]
    rw [raw_append, raw_cons, hm, List.nil_append]

/-! ### the place of a new macro -/

theorem patchNumbers_ok [Uni] {ms : List PrepMacro} {k : Nat} {nums : List (Nat × Int)}
    (h : patchNumbers k ms = .ok nums) (i : Nat) (n : Int) :
    (i, n) ∈ nums ↔ ∃ j m, i = k + j ∧ ms[j]? = some m ∧ m.kind = .patch ∧ number m = .ok n := by
  induction ms generalizing k nums with
  | nil => simp [patchNumbers] at h; subst h; simp
  | cons m ms ih =>
    unfold patchNumbers at h
    have shift : ∀ nums', patchNumbers (k + 1) ms = .ok nums' → ((i, n) ∈ nums' ↔
        ∃ j m', i = k + (j + 1) ∧ (m :: ms)[j + 1]? = some m' ∧ m'.kind = .patch ∧ number m' = .ok n) := by
      intro nums' h'
      rw [ih h']
      simp only [List.getElem?_cons_succ, Nat.add_assoc, Nat.add_comm 1]
    split at h
    · rename_i hk
      cases hn : number m with
      | error e => rw [hn] at h; simp at h
      | ok x =>
        rw [hn] at h
        simp only at h
        cases hr : patchNumbers (k + 1) ms with
        | error e => rw [hr] at h; simp at h
        | ok r =>
          rw [hr] at h
          simp only [Except.ok.injEq] at h
          subst h
          rw [List.mem_cons, shift r hr]
          constructor
          · rintro (h | ⟨j, m', h⟩)
            · simp only [Prod.mk.injEq] at h
              obtain ⟨rfl, rfl⟩ := h
              exact ⟨0, m, rfl, rfl, hk, hn⟩
            · exact ⟨j + 1, m', h⟩
          · rintro ⟨j, m', h1, h2, h3, h4⟩
            cases j with
            | zero =>
              simp only [List.getElem?_cons_zero, Option.some.injEq] at h2
              subst h2
              rw [hn] at h4
              simp only [Except.ok.injEq] at h4
              left; simp [h1, h4]
            | succ j => exact .inr ⟨j, m', h1, h2, h3, h4⟩
    · rename_i hk
      rw [shift nums h]
      constructor
      · rintro ⟨j, m', h⟩; exact ⟨j + 1, m', h⟩
      · rintro ⟨j, m', h1, h2, h3, h4⟩
        cases j with
        | zero =>
          simp only [List.getElem?_cons_zero, Option.some.injEq] at h2
          subst h2
          exact absurd h3 hk
        | succ j => exact ⟨j, m', h1, h2, h3, h4⟩

theorem patchNumbers_all [Uni] {ms : List PrepMacro} {k : Nat} {nums : List (Nat × Int)}
    (h : patchNumbers k ms = .ok nums) : ∀ m ∈ ms, m.kind = .patch → ∃ n, number m = .ok n := by
  induction ms generalizing k nums with
  | nil => simp
  | cons m ms ih =>
    unfold patchNumbers at h
    intro x hx hk
    rw [List.mem_cons] at hx
    split at h
    · rename_i hk'
      cases hn : number m with
      | error e => rw [hn] at h; simp at h
      | ok y =>
        rw [hn] at h
        simp only at h
        cases hr : patchNumbers (k + 1) ms with
        | error e => rw [hr] at h; simp at h
        | ok r =>
          rcases hx with rfl | hx
          · exact ⟨y, hn⟩
          · exact ih hr x hx hk
    · rename_i hk'
      rcases hx with rfl | hx
      · exact absurd hk hk'
      · exact ih h x hx hk

theorem patchNumbers_exists [Uni] {ms : List PrepMacro} (k : Nat)
    (h : ∀ m ∈ ms, m.kind = .patch → ∃ n, number m = .ok n) : ∃ nums, patchNumbers k ms = .ok nums := by
  induction ms generalizing k with
  | nil => exact ⟨[], rfl⟩
  | cons m ms ih =>
    obtain ⟨nums, hn⟩ := ih (k + 1) (fun x hx => h x (by simp [hx]))
    unfold patchNumbers
    split
    · rename_i hk
      obtain ⟨n, hm⟩ := h m (by simp) hk
      rw [hm, hn]
      exact ⟨_, rfl⟩
    · exact ⟨nums, hn⟩

/-- positions increase -/
theorem patchNumbers_sorted [Uni] {ms : List PrepMacro} {k : Nat} {nums : List (Nat × Int)}
    (h : patchNumbers k ms = .ok nums) : nums.Pairwise (fun a b => a.1 < b.1) := by
  induction ms generalizing k nums with
  | nil => simp [patchNumbers] at h; subst h; simp
  | cons m ms ih =>
    unfold patchNumbers at h
    split at h
    · cases hn : number m with
      | error e => rw [hn] at h; simp at h
      | ok y =>
        rw [hn] at h
        simp only at h
        cases hr : patchNumbers (k + 1) ms with
        | error e => rw [hr] at h; simp at h
        | ok r =>
          rw [hr] at h
          simp only [Except.ok.injEq] at h
          subst h
          refine List.pairwise_cons.mpr ⟨?_, ih hr⟩
          rintro ⟨i, n⟩ hx
          obtain ⟨j, _, e, _⟩ := (patchNumbers_ok hr i n).mp hx
          simp only
          omega
    · exact ih h

theorem nearest_none {n : Int} {l : List (Nat × Int)} : nearest n l = none ↔ l = [] := by
  cases l with
  | nil => simp [nearest]
  | cons x xs =>
    simp only [nearest]
    cases nearest n xs with
    | none => simp
    | some y => simp only; split <;> simp

theorem nearest_some {n : Int} {l : List (Nat × Int)} {x : Nat × Int} (hs : l.Pairwise (fun a b => a.1 < b.1))
    (h : nearest n l = some x) : x ∈ l ∧ ∀ y ∈ l, (x.2 - n).natAbs ≤ (y.2 - n).natAbs ∧
      ((x.2 - n).natAbs = (y.2 - n).natAbs → x.1 ≤ y.1) := by
  induction l generalizing x with
  | nil => simp [nearest] at h
  | cons z zs ih =>
    rw [List.pairwise_cons] at hs
    simp only [nearest] at h
    cases hz : nearest n zs with
    | none =>
      rw [hz] at h
      simp only [Option.some.injEq] at h
      subst h
      rw [nearest_none] at hz
      subst hz
      simp
    | some y =>
      rw [hz] at h
      simp only at h
      obtain ⟨h1, h2⟩ := ih hs.2 hz
      split at h
      · rename_i hlt
        simp only [Option.some.injEq] at h
        subst h
        refine ⟨by simp [h1], ?_⟩
        intro w hw
        rw [List.mem_cons] at hw
        rcases hw with rfl | hw
        · exact ⟨by omega, by omega⟩
        · exact h2 w hw
      · rename_i hlt
        simp only [Option.some.injEq] at h
        subst h
        refine ⟨by simp, ?_⟩
        intro w hw
        rw [List.mem_cons] at hw
        rcases hw with rfl | hw
        · exact ⟨by omega, by omega⟩
        · have := h2 w hw
          have := hs.1 w hw
          exact ⟨by omega, by omega⟩

theorem findNumber_spec [Uni] {n : Int} {ms : List PrepMacro} {k : Nat} :
    findNumber n k ms = .ok none ∧ (∀ m ∈ ms, m.kind = .patch → ∃ n', number m = .ok n' ∧ n' ≠ n) ∨
    (∃ j m, findNumber n k ms = .ok (some (k + j)) ∧ ms[j]? = some m ∧ m.kind = .patch ∧ number m = .ok n ∧
      ∀ (i : Nat) m', i < j → ms[i]? = some m' → m'.kind = .patch → ∃ n', number m' = .ok n' ∧ n' ≠ n) ∨
    (∃ j m e, findNumber n k ms = .error e ∧ ms[j]? = some m ∧ m.kind = .patch ∧ number m = .error e ∧
      ∀ (i : Nat) m', i < j → ms[i]? = some m' → m'.kind = .patch → ∃ n', number m' = .ok n' ∧ n' ≠ n) := by
  induction ms generalizing k with
  | nil => exact .inl ⟨rfl, by simp⟩
  | cons m ms ih =>
    unfold findNumber
    have pre : ∀ {j : Nat}, (m.kind = .patch → ∃ n', number m = .ok n' ∧ n' ≠ n) →
        (∀ (i : Nat) m', i < j → ms[i]? = some m' → m'.kind = .patch → ∃ n', number m' = .ok n' ∧ n' ≠ n) →
        ∀ (i : Nat) m', i < j + 1 → (m :: ms)[i]? = some m' → m'.kind = .patch → ∃ n', number m' = .ok n' ∧ n' ≠ n := by
      intro j h1 h2 i m' hi e hk
      cases i with
      | zero => simp only [List.getElem?_cons_zero, Option.some.injEq] at e; subst e; exact h1 hk
      | succ i => exact h2 i m' (by omega) (by simpa using e) hk
    have go : (m.kind = .patch → ∃ n', number m = .ok n' ∧ n' ≠ n) →
        findNumber n (k + 1) ms = .ok none ∧ (∀ x ∈ m :: ms, x.kind = .patch → ∃ n', number x = .ok n' ∧ n' ≠ n) ∨
        (∃ j x, findNumber n (k + 1) ms = .ok (some (k + j)) ∧ (m :: ms)[j]? = some x ∧ x.kind = .patch ∧
          number x = .ok n ∧ ∀ (i : Nat) m', i < j → (m :: ms)[i]? = some m' → m'.kind = .patch →
            ∃ n', number m' = .ok n' ∧ n' ≠ n) ∨
        (∃ j x e, findNumber n (k + 1) ms = .error e ∧ (m :: ms)[j]? = some x ∧ x.kind = .patch ∧
          number x = .error e ∧ ∀ (i : Nat) m', i < j → (m :: ms)[i]? = some m' → m'.kind = .patch →
            ∃ n', number m' = .ok n' ∧ n' ≠ n) := by
      intro hm
      rcases ih (k := k + 1) with ⟨h1, h2⟩ | ⟨j, x, h1, h2, h3, h4, h5⟩ | ⟨j, x, e, h1, h2, h3, h4, h5⟩
      · refine .inl ⟨h1, ?_⟩
        intro x hx hk
        rw [List.mem_cons] at hx
        rcases hx with rfl | hx
        · exact hm hk
        · exact h2 x hx hk
      · refine .inr (.inl ⟨j + 1, x, ?_, by simpa using h2, h3, h4, pre hm h5⟩)
        rw [h1]; congr 2; omega
      · exact .inr (.inr ⟨j + 1, x, e, h1, by simpa using h2, h3, h4, pre hm h5⟩)
    split
    · rename_i hk
      cases hn : number m with
      | error e =>
        exact .inr (.inr ⟨0, m, e, rfl, rfl, hk, hn, by intro i m' hi; omega⟩)
      | ok n' =>
        simp only
        split
        · rename_i he
          subst he
          exact .inr (.inl ⟨0, m, rfl, rfl, hk, hn, by intro i m' hi; omega⟩)
        · rename_i he
          exact go (fun _ => ⟨n', hn, he⟩)
    · rename_i hk
      exact go (fun h => absurd h hk)

end Prep
end Specfile
