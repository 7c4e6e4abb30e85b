import Verif.Regex.First
import Verif.Py.Lemmas
/-
More inversion and first-match lemmas.
-/
namespace Regex
open Py

variable {κ : Type} [DecidableEq κ]

theorem mem_lit {a : Str} {s t : St κ} : t ∈ run (lit a) s ↔
    ∃ r, s.rest = a ++ r ∧ t = ⟨a.reverse ++ s.pre, r, s.caps⟩ := by
  induction a generalizing s with
  | nil =>
    simp only [lit, mem_eps, List.nil_append, List.reverse_nil]
    constructor
    · rintro rfl; exact ⟨_, rfl, rfl⟩
    · rintro ⟨r, h, rfl⟩; cases s; simp at h; simp [h]
  | cons c cs ih =>
    cases cs with
    | nil =>
      simp only [lit, mem_ch]
      constructor
      · rintro ⟨r, h, rfl⟩; exact ⟨r, by simpa using h, by simp⟩
      · rintro ⟨r, h, rfl⟩; exact ⟨r, by simpa using h, by simp⟩
    | cons d ds =>
      simp only [lit, mem_cat, mem_ch, ih]
      constructor
      · rintro ⟨_, ⟨cs, h1, rfl⟩, r, h2, rfl⟩
        simp only at h2
        exact ⟨r, by simp [h1, h2], by simp⟩
      · rintro ⟨r, h1, rfl⟩
        exact ⟨_, ⟨_, h1, rfl⟩, r, rfl, by simp⟩

/-- a literal matches in at most one way -/
theorem run_lit_eq (a : Str) (s : St κ) : run (lit a) s =
    if a.isPrefixOf s.rest then [⟨a.reverse ++ s.pre, s.rest.drop a.length, s.caps⟩] else [] := by
  induction a generalizing s with
  | nil => simp [lit]
  | cons c cs ih =>
    cases cs with
    | nil =>
      simp only [lit, ch, run]
      cases h : s.rest with
      | nil => rfl
      | cons d ds =>
        by_cases hd : d = c
        · subst hd; simp
        · simp [Ne.symm hd, beq_eq_false_iff_ne.2 hd]
    | cons e es =>
      simp only [lit, run_cat]
      rw [show run (ch c) s = (match s.rest with
        | [] => []
        | d :: ds => if (d == c) = true then [⟨d :: s.pre, ds, s.caps⟩] else []) from rfl]
      cases h : s.rest with
      | nil => rfl
      | cons d ds =>
        by_cases hd : d = c
        · subst hd
          simp only [beq_self_eq_true, if_true, List.flatMap_cons, List.flatMap_nil,
            List.append_nil, ih, List.isPrefixOf_cons_cons, Bool.true_and]
          split <;> simp
        · simp [beq_eq_false_iff_ne.2 hd, Ne.symm hd]

/-- a literal in front: it must be there -/
theorem run_lit_cat (a : Str) (X : Re κ) (s : St κ) (r : Str) (h : s.rest = a ++ r) :
    run (lit a ⬝ X) s = run X ⟨a.reverse ++ s.pre, r, s.caps⟩ := by
  rw [run_cat, run_lit_eq, if_pos (by rw [h]; simp [List.isPrefixOf_iff_prefix])]
  simp [h]

theorem run_lit_cat_nil (a : Str) (X : Re κ) (s : St κ) (h : ¬ a <+: s.rest) :
    run (lit a ⬝ X) s = [] := by
  rw [run_cat, run_lit_eq, if_neg (by rwa [List.isPrefixOf_iff_prefix])]
  rfl

theorem run_ch_cat (c : Char) (X : Re κ) (s : St κ) (r : Str) (h : s.rest = c :: r) :
    run (ch c ⬝ X) s = run X ⟨c :: s.pre, r, s.caps⟩ := by
  rw [run_cat]
  simp [ch, run, h]

theorem run_ch_cat_nil (c : Char) (X : Re κ) (s : St κ) (h : s.rest.head? ≠ some c) :
    run (ch c ⬝ X) s = [] := by
  rw [run_cat]
  simp only [ch, run]
  cases hs : s.rest with
  | nil => rfl
  | cons d ds =>
    rw [hs] at h
    simp only [List.head?_cons, ne_eq, Option.some.injEq] at h
    simp [beq_eq_false_iff_ne.2 h]

theorem take_left_length (a b : Str) : (a ++ b).take ((a ++ b).length - b.length) = a := by
  rw [List.length_append, Nat.add_sub_cancel, List.take_left]

theorem run_grp_lit {k : κ} {a : Str} {s : St κ} {r : Str} (h : s.rest = a ++ r) :
    run (.grp k (lit a)) s = [⟨a.reverse ++ s.pre, r, (k, a) :: s.caps⟩] := by
  rw [run, run_lit_eq, if_pos (by rw [h]; simp [List.isPrefixOf_iff_prefix])]
  simp only [List.map_cons, List.map_nil, h, List.drop_left, take_left_length]

theorem run_grp_lit_nil {k : κ} {a : Str} {s : St κ} (h : ¬ a <+: s.rest) :
    run (.grp k (lit a)) s = [] := by
  rw [run, run_lit_eq, if_neg (by rwa [List.isPrefixOf_iff_prefix])]
  rfl

theorem run_grp_alt (k : κ) (a b : Re κ) (s : St κ) :
    run (.grp k (a ∣∣ b)) s = run (.grp k a) s ++ run (.grp k b) s := by
  simp [run]

theorem mem_grp_rep {k : κ} {p : Char → Bool} {n : Nat} {g : Bool} {s t : St κ} :
    t ∈ run (.grp k (.rep p n g)) s ↔ ∃ w r, s.rest = w ++ r ∧ w.all p = true ∧ n ≤ w.length ∧
      t = ⟨w.reverse ++ s.pre, r, (k, w) :: s.caps⟩ := by
  rw [mem_grp]
  constructor
  · rintro ⟨u, w, hu, hw, rfl⟩
    rw [mem_rep] at hu
    obtain ⟨w', r, h1, h2, h3, rfl⟩ := hu
    simp only [St.adv] at hw ⊢
    have : w = w' := List.append_cancel_right (hw.symm.trans h1)
    subst this
    exact ⟨w, r, h1, h2, h3, rfl⟩
  · rintro ⟨w, r, h1, h2, h3, rfl⟩
    exact ⟨s.adv w r, w, mem_rep.2 ⟨w, r, h1, h2, h3, rfl⟩, h1, rfl⟩

theorem mem_rep' {p : Char → Bool} {n : Nat} {g : Bool} {s t : St κ} :
    t ∈ run (.rep p n g : Re κ) s ↔ ∃ w r, s.rest = w ++ r ∧ w.all p = true ∧ n ≤ w.length ∧
      t = ⟨w.reverse ++ s.pre, r, s.caps⟩ := mem_rep

/-- no further character of the class follows -/
def NoMore (p : Char → Bool) (r : Str) : Prop := ∀ c ∈ r.head?, p c = false

theorem head_greedy {p : Char → Bool} {n : Nat} {β : Type} {f : St κ → List β} {s : St κ} {t : β}
    {w r' : Str} (hr : s.rest = w ++ r') (hw : w.all p = true) (hn : n ≤ w.length)
    (hm : NoMore p r')
    (h1 : (f ⟨w.reverse ++ s.pre, r', s.caps⟩).head? = some t) :
    ((run (.rep p n true) s).flatMap f).head? = some t := by
  apply head_rep_greedy hr hw hn h1
  intro w'' r'' e hne hall
  exfalso
  cases w'' with
  | nil => exact hne rfl
  | cons c cs =>
    have := hm c (by simp [e])
    simp at hall
    rw [hall.1] at this
    simp at this

/-- greedy group, then `X` -/
theorem head_grp_greedy {k : κ} {p : Char → Bool} {n : Nat} {X : Re κ} {s t : St κ}
    {w r' : Str} (hr : s.rest = w ++ r') (hw : w.all p = true) (hn : n ≤ w.length)
    (hm : NoMore p r')
    (h1 : (run X ⟨w.reverse ++ s.pre, r', (k, w) :: s.caps⟩).head? = some t) :
    (run (.grp k (.rep p n true) ⬝ X) s).head? = some t := by
  rw [run_grp_cat]
  apply head_greedy hr hw hn hm
  simpa [hr] using h1

theorem head_rep_cat {p : Char → Bool} {n : Nat} {X : Re κ} {s t : St κ}
    {w r' : Str} (hr : s.rest = w ++ r') (hw : w.all p = true) (hn : n ≤ w.length)
    (hm : NoMore p r')
    (h1 : (run X ⟨w.reverse ++ s.pre, r', s.caps⟩).head? = some t) :
    (run (.rep p n true ⬝ X) s).head? = some t := by
  rw [run_cat]
  exact head_greedy hr hw hn hm h1

/-- lazy group, then `X` -/
theorem head_grp_lazy {k : κ} {p : Char → Bool} {n : Nat} {X : Re κ} {s t : St κ}
    {w r' : Str} (hr : s.rest = w ++ r') (hw : w.all p = true) (hn : n ≤ w.length)
    (h1 : (run X ⟨w.reverse ++ s.pre, r', (k, w) :: s.caps⟩).head? = some t)
    (h2 : ∀ w' w'', w = w' ++ w'' → w'' ≠ [] → n ≤ w'.length →
      run X ⟨w'.reverse ++ s.pre, w'' ++ r', (k, w') :: s.caps⟩ = []) :
    (run (.grp k (.rep p n false) ⬝ X) s).head? = some t := by
  rw [run_grp_cat]
  apply head_rep_lazy hr hw hn
  · simpa [hr, St.adv] using h1
  · intro w' w'' e hne hl
    have := h2 w' w'' e hne hl
    have e2 : s.rest.take (s.rest.length - (w'' ++ r').length) = w' := by
      rw [hr, e]
      simp
    simp only [St.adv]
    rw [e2]; exact this

theorem head_lazy_cat {p : Char → Bool} {n : Nat} {X : Re κ} {s t : St κ}
    {w r' : Str} (hr : s.rest = w ++ r') (hw : w.all p = true) (hn : n ≤ w.length)
    (h1 : (run X ⟨w.reverse ++ s.pre, r', s.caps⟩).head? = some t)
    (h2 : ∀ w' w'', w = w' ++ w'' → w'' ≠ [] → n ≤ w'.length →
      run X ⟨w'.reverse ++ s.pre, w'' ++ r', s.caps⟩ = []) :
    (run (.rep p n false ⬝ X) s).head? = some t := by
  rw [run_cat]
  exact head_rep_lazy hr hw hn h1 h2

theorem run_bos_cat (X : Re κ) (v : Str) : run (.bos ⬝ X) (init v) = run X (init v) := by
  simp [run, init]

theorem head_append_left {α : Type} {a b : List α} {t : α} (h : a.head? = some t) :
    (a ++ b).head? = some t := by
  rw [List.head?_append, h]; rfl

theorem get_cons (k : κ) (w : Str) (pre rest : Str) (caps : List (κ × Str)) :
    (⟨pre, rest, (k, w) :: caps⟩ : St κ).get k = some w := by
  simp [St.get]

theorem get_cons_ne {k j : κ} (h : j ≠ k) (w : Str) (pre rest : Str) (caps : List (κ × Str)) :
    (⟨pre, rest, (j, w) :: caps⟩ : St κ).get k = (⟨pre, rest, caps⟩ : St κ).get k := by
  simp [St.get, h]

theorem get_nil {k : κ} (pre rest : Str) : (⟨pre, rest, []⟩ : St κ).get k = none := rfl

/-- `(\s*c\s*)`, then `X`: both runs of the class are taken completely -/
theorem head_grp_around {k : κ} {p : Char → Bool} {c : Char} {X : Re κ} {s t : St κ}
    {w1 w2 r' : Str} (hr : s.rest = w1 ++ c :: (w2 ++ r')) (h1 : w1.all p = true)
    (h2 : w2.all p = true) (hc : p c = false) (hm : NoMore p r')
    (h : (run X ⟨w2.reverse ++ c :: (w1.reverse ++ s.pre), r', (k, w1 ++ c :: w2) :: s.caps⟩).head? =
      some t) :
    (run (.grp k (.rep p 0 true ⬝ ch c ⬝ .rep p 0 true) ⬝ X) s).head? = some t := by
  rw [run_grp_cat, run_cat, List.flatMap_assoc]
  refine head_greedy (w := w1) (r' := c :: (w2 ++ r')) hr h1 (Nat.zero_le _) ?_ ?_
  · intro d hd; simp at hd; subst hd; exact hc
  · rw [run_ch_cat c _ _ (w2 ++ r') rfl]
    refine head_greedy (w := w2) (r' := r') rfl h2 (Nat.zero_le _) hm ?_
    have : s.rest.take (s.rest.length - r'.length) = w1 ++ c :: w2 := by
      rw [hr, show w1 ++ c :: (w2 ++ r') = (w1 ++ c :: w2) ++ r' by simp]
      exact take_left_length _ _
    simp only
    rw [this]
    exact h

/-- what `(\s*c\s*)` matches -/
theorem mem_grp_around {k : κ} {p : Char → Bool} {c : Char} {s t : St κ}
    (h : t ∈ run (.grp k (.rep p 0 true ⬝ ch c ⬝ .rep p 0 true)) s) :
    ∃ w1 w2 r, s.rest = w1 ++ c :: (w2 ++ r) ∧ w1.all p = true ∧ w2.all p = true ∧
      t = ⟨w2.reverse ++ c :: (w1.reverse ++ s.pre), r, (k, w1 ++ c :: w2) :: s.caps⟩ := by
  rw [mem_grp] at h
  obtain ⟨u, w, hu, hw, rfl⟩ := h
  rw [mem_cat] at hu
  obtain ⟨u1, hu1, hu⟩ := hu
  rw [mem_cat] at hu
  obtain ⟨u2, hu2, hu⟩ := hu
  rw [mem_rep'] at hu1 hu
  rw [mem_ch] at hu2
  obtain ⟨w1, r1, e1, a1, _, rfl⟩ := hu1
  obtain ⟨r2, e2, rfl⟩ := hu2
  obtain ⟨w2, r3, e3, a3, _, rfl⟩ := hu
  simp only at e2 e3 hw
  refine ⟨w1, w2, r3, by rw [e1, e2, e3], a1, a3, ?_⟩
  have : w = w1 ++ c :: w2 := by
    apply List.append_cancel_right (bs := r3)
    rw [← hw, e1, e2, e3]; simp
  subst this
  rfl

/-- greedy group of everything that is left, at the end of the pattern -/
theorem head_grp_rest {k : κ} {p : Char → Bool} {n : Nat} {s : St κ}
    (hw : s.rest.all p = true) (hn : n ≤ s.rest.length) :
    (run (.grp k (.rep p n true)) s).head? =
      some ⟨s.rest.reverse ++ s.pre, [], (k, s.rest) :: s.caps⟩ := by
  have := head_grp_greedy (k := k) (p := p) (n := n) (X := .eps) (s := s) (w := s.rest) (r' := [])
    (t := ⟨s.rest.reverse ++ s.pre, [], (k, s.rest) :: s.caps⟩) (by simp) hw hn
    (by intro c hc; simp at hc) (by simp)
  rw [run_cat, show (run (.eps : Re κ)) = (fun t => [t]) from rfl, List.flatMap_singleton'] at this
  exact this

end Regex
