import Verif.Regex.Core
/-
Lemmas that determine the first (= returned) match.
-/
namespace Regex
open Py

variable {κ : Type}

theorem splits_eq (p : Char → Bool) (s : Str) :
    splits p s = ((List.range ((s.takeWhile p).length + 1)).reverse).map
      (fun i => (s.take i, s.drop i)) := by
  induction s with
  | nil => simp [splits]
  | cons c cs ih =>
    by_cases h : p c = true
    · simp only [splits, h, if_true, ih, List.takeWhile_cons, List.length_cons, List.map_map]
      rw [List.range_succ_eq_map (n := (List.takeWhile p cs).length + 1)]
      simp [List.map_reverse, Function.comp_def]
    · simp [splits, h]

theorem takeWhile_length_le (p : Char → Bool) (s : Str) :
    (s.takeWhile p).length ≤ s.length :=
  (List.takeWhile_prefix p).length_le

theorem head_flatMap_of_first {α β : Type} {f : α → List β} {a b : List α} {x : α} {t : β}
    (ha : ∀ y ∈ a, f y = []) (hx : (f x).head? = some t) :
    ((a ++ x :: b).flatMap f).head? = some t := by
  have : a.flatMap f = [] := by simpa using ha
  rw [List.flatMap_append, this, List.nil_append, List.flatMap_cons, List.head?_append, hx]
  rfl

variable [DecidableEq κ]

theorem run_rep_lazy (p : Char → Bool) (n : Nat) (s : St κ) : run (.rep p n false) s =
    ((List.range ((s.rest.takeWhile p).length + 1)).filter (fun i => decide (n ≤ i))).map
      (fun i => s.adv (s.rest.take i) (s.rest.drop i)) := by
  simp only [run, splits_eq, Bool.false_eq_true, if_false]
  rw [← List.map_reverse, List.filter_map, ← List.map_reverse, List.filter_reverse,
    List.reverse_reverse, List.map_map]
  have : ∀ i ∈ List.range ((s.rest.takeWhile p).length + 1),
      (((fun x : Str × Str => decide (n ≤ x.1.length)) ∘ fun i => (s.rest.take i, s.rest.drop i)) i)
        = decide (n ≤ i) := by
    intro i hi
    simp only [List.mem_range] at hi
    have h1 : (s.rest.takeWhile p).length ≤ s.rest.length := takeWhile_length_le _ _
    simp only [Function.comp, List.length_take]
    congr 1
    apply propext
    omega
  rw [List.filter_congr this]
  rfl

theorem run_rep_greedy (p : Char → Bool) (n : Nat) (s : St κ) : run (.rep p n true) s =
    (((List.range ((s.rest.takeWhile p).length + 1)).filter (fun i => decide (n ≤ i))).map
      (fun i => s.adv (s.rest.take i) (s.rest.drop i))).reverse := by
  rw [← run_rep_lazy]
  simp [run]

theorem takeWhile_length_of_all {p : Char → Bool} {w r : Str} (h : w.all p = true) :
    w.length ≤ ((w ++ r).takeWhile p).length := by
  induction w with
  | nil => simp
  | cons c cs ih =>
    simp only [List.all_cons, Bool.and_eq_true] at h
    simp only [List.cons_append, List.takeWhile_cons, h.1, if_true, List.length_cons]
    have := ih h.2
    omega

theorem take_all_of_le {p : Char → Bool} {s : Str} {i : Nat} (h : i ≤ (s.takeWhile p).length) :
    (s.take i).all p = true := by
  induction s generalizing i with
  | nil => simp
  | cons c cs ih =>
    cases i with
    | zero => rfl
    | succ i =>
      simp only [List.takeWhile_cons] at h
      split at h
      · rename_i hc
        simp only [List.length_cons] at h
        simp [hc]
        have := ih (i := i) (by omega)
        simpa using this
      · simp at h

theorem range_filter_split {n i L : Nat} (hn : n ≤ i) (hi : i ≤ L) :
    ∃ a b, (List.range (L + 1)).filter (fun i => decide (n ≤ i)) = a ++ i :: b ∧
      (∀ j ∈ a, n ≤ j ∧ j < i) ∧ (∀ j ∈ b, i < j ∧ j ≤ L) := by
  refine ⟨(List.range i).filter (fun i => decide (n ≤ i)),
    ((List.range (L - i)).map (fun x => i + 1 + x)).filter (fun i => decide (n ≤ i)), ?_, ?_, ?_⟩
  · have e : L + 1 = i + (1 + (L - i)) := by omega
    rw [e, List.range_add, List.filter_append]
    congr 1
    rw [List.range_add]
    simp only [List.map_append, List.map_map, List.filter_append]
    have : (List.range 1) = [0] := rfl
    rw [this]
    simp only [List.map_cons, List.map_nil, Nat.add_zero]
    rw [List.filter_cons_of_pos (by simpa using hn)]
    simp only [List.filter_nil, List.cons_append, List.nil_append, List.cons.injEq, true_and]
    congr 1
    apply List.map_congr_left
    intro x _
    simp [Nat.add_assoc]
  · intro j hj
    simp only [List.mem_filter, List.mem_range, decide_eq_true_eq] at hj
    omega
  · intro j hj
    simp only [List.mem_filter, List.mem_map, List.mem_range, decide_eq_true_eq] at hj
    obtain ⟨⟨x, hx, rfl⟩, _⟩ := hj
    omega

/-- first match of a lazy repetition followed by anything: the shortest repetition after which the
rest matches -/
theorem head_rep_lazy {p : Char → Bool} {n : Nat} {β : Type} {f : St κ → List β} {s : St κ} {t : β}
    {w r' : Str} (hr : s.rest = w ++ r') (hw : w.all p = true) (hn : n ≤ w.length)
    (h1 : (f (s.adv w r')).head? = some t)
    (h2 : ∀ w' w'', w = w' ++ w'' → w'' ≠ [] → n ≤ w'.length →
      f (s.adv w' (w'' ++ r')) = []) :
    ((run (.rep p n false) s).flatMap f).head? = some t := by
  rw [run_rep_lazy]
  have hL : w.length ≤ (s.rest.takeWhile p).length := by rw [hr]; exact takeWhile_length_of_all hw
  obtain ⟨a, b, e, ha, hb⟩ := range_filter_split hn hL
  rw [e, List.map_append, List.map_cons]
  apply head_flatMap_of_first
  · intro y hy
    simp only [List.mem_map] at hy
    obtain ⟨j, hj, rfl⟩ := hy
    have := ha j hj
    rw [hr, List.take_append_of_le_length (by omega), List.drop_append_of_le_length (by omega)]
    apply h2 _ _ (List.take_append_drop j w).symm
    · intro h
      have := congrArg List.length h
      simp at this
      omega
    · simp; omega
  · rw [hr]; simpa using h1

/-- first match of a greedy repetition followed by anything: the longest repetition after which the
rest matches -/
theorem head_rep_greedy {p : Char → Bool} {n : Nat} {β : Type} {f : St κ → List β} {s : St κ} {t : β}
    {w r' : Str} (hr : s.rest = w ++ r') (hw : w.all p = true) (hn : n ≤ w.length)
    (h1 : (f (s.adv w r')).head? = some t)
    (h2 : ∀ w'' r'', r' = w'' ++ r'' → w'' ≠ [] → w''.all p = true →
      f (s.adv (w ++ w'') r'') = []) :
    ((run (.rep p n true) s).flatMap f).head? = some t := by
  rw [run_rep_greedy]
  have hL : w.length ≤ (s.rest.takeWhile p).length := by rw [hr]; exact takeWhile_length_of_all hw
  obtain ⟨a, b, e, ha, hb⟩ := range_filter_split hn hL
  rw [e, List.map_append, List.map_cons, List.reverse_append, List.reverse_cons, List.append_assoc,
    List.singleton_append]
  apply head_flatMap_of_first
  · intro y hy
    simp only [List.mem_reverse, List.mem_map] at hy
    obtain ⟨j, hj, rfl⟩ := hy
    have hj' := hb j hj
    have e1 : s.rest.take j = w ++ r'.take (j - w.length) := by
      rw [hr, List.take_append, List.take_of_length_le (by omega)]
    have e2 : s.rest.drop j = r'.drop (j - w.length) := by
      rw [hr, List.drop_append, List.drop_eq_nil_of_le (as := w) (by omega), List.nil_append]
    rw [e1, e2]
    have hlen : (s.rest.takeWhile p).length ≤ s.rest.length := takeWhile_length_le _ _
    apply h2 _ _ (List.take_append_drop _ r').symm
    · intro h
      have h3 := congrArg List.length h
      have h4 := congrArg List.length hr
      simp at h3 h4
      rcases h3 with h3 | h3
      · omega
      · subst h3; simp at h4; omega
    · have := take_all_of_le (p := p) (s := s.rest) (i := j) hj'.2
      rw [e1, List.all_append, Bool.and_eq_true] at this
      exact this.2
  · rw [hr]; simpa using h1

theorem run_grp_cat (k : κ) (a b : Re κ) (s : St κ) :
    run (.grp k a ⬝ b) s = (run a s).flatMap (fun t =>
      run b ⟨t.pre, t.rest, (k, s.rest.take (s.rest.length - t.rest.length)) :: t.caps⟩) := by
  simp only [run, List.flatMap_map]

theorem run_alt_cat (a b c : Re κ) (s : St κ) :
    run ((a ∣∣ b) ⬝ c) s = run (a ⬝ c) s ++ run (b ⬝ c) s := by
  simp

theorem run_opt_cat (a c : Re κ) (s : St κ) : run (opt a ⬝ c) s = run (a ⬝ c) s ++ run c s := by
  simp [opt]

theorem run_cat_assoc (a b c : Re κ) (s : St κ) : run ((a ⬝ b) ⬝ c) s = run (a ⬝ (b ⬝ c)) s := by
  simp only [run_cat, List.flatMap_assoc]
  rfl

theorem run_eq_nil_iff {r : Re κ} {s : St κ} : run r s = [] ↔ ∀ t, t ∉ run r s :=
  List.eq_nil_iff_forall_not_mem

omit [DecidableEq κ] in
theorem head_of_unique {l : List (St κ)} {t : St κ} (h : t ∈ l) (hu : ∀ u ∈ l, u = t) :
    l.head? = some t := by
  cases l with
  | nil => simp at h
  | cons a l => simp [hu a (by simp)]

omit [DecidableEq κ] in
theorem adv_take {s : St κ} {w r : Str} (h : s.rest = w ++ r) :
    s.rest.take (s.rest.length - (s.adv w r).rest.length) = w := by
  simp [St.adv, h]

end Regex
