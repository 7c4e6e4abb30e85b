import Verif.Proof.MacroDefinitions6
import Verif.Proof.Conditions4
import Verif.Spec.DefinitionText
/-
Layout of macro definitions: deletion, positions, excluded lines.
-/
namespace Specfile
open Py Regex Spec
namespace MacroDefinitions

theorem own_eq (d : MacroDefinition) : own d = definitionLines d := rfl

theorem without_eq (is : List Nat) (i : Nat) (ds : List MacroDefinition) :
    without is i ds = linesWithout is i ds := by
  induction ds generalizing i with
  | nil => rfl
  | cons d ds ih =>
    simp only [without, linesWithout, ih]
    split
    · simp
    · rw [raw_own, own_eq]

theorem linesWithout_nil (i : Nat) (ds : List MacroDefinition) :
    linesWithout [] i ds = (ds.map MacroDefinition.raw).flatten := by
  rw [← without_eq, without_none (by simp)]

theorem linesAbove_eq (m : MacroDefinitions) (k : Nat) :
    linesAbove m k = ((m.data.take k).map MacroDefinition.raw).flatten := linesWithout_nil _ _

theorem raw_eq_linesWithout (m : MacroDefinitions) : raw m = linesWithout [] 0 m.data ++ m.remainder := by
  rw [linesWithout_nil]; rfl

theorem splitC_append_left {c : Char} {h s : Str} (hh : c ∉ h) :
    ∃ b bs, splitC c s = b :: bs ∧ splitC c (h ++ s) = (h ++ b) :: bs := by
  by_cases hs : c ∈ s
  · obtain ⟨a, b, rfl, ha⟩ : ∃ a b, s = a ++ c :: b ∧ c ∉ a := by
      induction s with
      | nil => simp at hs
      | cons x xs ih =>
        by_cases hx : x = c
        · exact ⟨[], xs, by simp [hx], by simp⟩
        · obtain ⟨a, b, rfl, ha⟩ := ih (by simpa [Ne.symm hx] using hs)
          exact ⟨x :: a, b, rfl, by simp [ha, Ne.symm hx]⟩
    refine ⟨a, splitC c b, splitC_append_sep b ha, ?_⟩
    rw [← List.append_assoc]
    exact splitC_append_sep b (by simp [hh, ha])
  · exact ⟨s, [], splitC_of_not_mem hs, by rw [splitC_of_not_mem (by simp [hh, hs])]⟩

/-- the lines of `str(definition)` -/
theorem definitionLines_str {d : MacroDefinition} (h : '\n' ∉ d.head) :
    definitionLines d = splitC '\n' d.str := by
  obtain ⟨b, bs, h1, h2⟩ := raw_eq d
  rw [definitionLines, h2, List.drop_left]
  obtain ⟨b', bs', h3, h4⟩ := splitC_append_left (s := d.body ++ d.ws3) h
  rw [h1] at h3
  cases h3
  rw [MacroDefinition.str, List.append_assoc, h4]

theorem head_noNl {d : MacroDefinition} (h : OneLineHead d) : '\n' ∉ d.head := by
  obtain ⟨h0, h1, h2, h3, h4, _⟩ := h
  have a : '\n' ∉ d.dnlStr := by unfold MacroDefinition.dnlStr; split <;> decide
  have b : '\n' ∉ d.scStr := by unfold MacroDefinition.scStr; split <;> decide
  have c : '\n' ∉ d.kwStr := by unfold MacroDefinition.kwStr; split <;> decide
  simp [MacroDefinition.head, h0, h1, h2, h3, h4, a, b, c]

theorem splitC_append_right {c : Char} {s w : Str} (hw : c ∉ w) :
    (splitC c (s ++ w)).length = (splitC c s).length := by
  induction hn : s.length using Nat.strongRecOn generalizing s with
  | ind n ih =>
    by_cases hs : c ∈ s
    · obtain ⟨a, b, rfl, ha⟩ : ∃ a b, s = a ++ c :: b ∧ c ∉ a := by
        clear ih hn
        induction s with
        | nil => simp at hs
        | cons x xs ih =>
          by_cases hx : x = c
          · exact ⟨[], xs, by simp [hx], by simp⟩
          · obtain ⟨a, b, rfl, ha⟩ := ih (by simpa [Ne.symm hx] using hs)
            exact ⟨x :: a, b, rfl, by simp [ha, Ne.symm hx]⟩
      rw [List.append_assoc, List.cons_append, splitC_append_sep _ ha, splitC_append_sep _ ha,
        List.length_cons, List.length_cons, ih b.length (by simp at hn; omega) rfl]
    · rw [splitC_of_not_mem hs, splitC_of_not_mem (by simp [hs, hw])]; rfl

theorem definitionLines_length {d : MacroDefinition} (h : '\n' ∉ d.ws3) :
    (definitionLines d).length = (splitC '\n' d.body).length := by
  obtain ⟨b, bs, h1, h2⟩ := raw_eq d
  rw [definitionLines, h2, List.drop_left, ← splitC_append_right h, h1]
  rfl

theorem position_lines {m : MacroDefinitions} {k : Nat} {d : MacroDefinition} (hm : Distinct m)
    (hd : m.data[k]? = some d) :
    position m d = .ok ((linesAbove m k).length + d.preceding.length) := by
  rw [position_spec hd (fun j x hj hx => hm j k x d hj hx hd), linesAbove_eq, length_flatten_raw]

theorem isExcluded_iff {m : MacroDefinitions} (hm : Distinct m) (hw : ∀ d ∈ m.data, '\n' ∉ d.ws3) (i : Nat) :
    OwnLine m i ↔ Conditions.isExcluded (excluded m) i = true := by
  simp only [Conditions.isExcluded, excluded, List.any_map, List.any_eq_true, Function.comp_apply,
    Bool.and_eq_true, decide_eq_true_eq]
  constructor
  · rintro ⟨k, d, hd, h1, h2⟩
    have hmem : d ∈ m.data := List.mem_of_getElem? hd
    refine ⟨d, hmem, ?_⟩
    rw [position_lines hm hd]
    rw [definitionLines_length (hw d hmem)] at h2
    exact ⟨h1, h2⟩
  · rintro ⟨d, hmem, h⟩
    obtain ⟨k, hd⟩ := List.getElem?_of_mem hmem
    rw [position_lines hm hd] at h
    refine ⟨k, d, hd, h.1, ?_⟩
    rw [definitionLines_length (hw d hmem)]
    exact h.2

/-! ### the same layout -/

theorem sameLayout_above {ds ds' : List MacroDefinition} (h : SameLayout ds ds') (k i : Nat) :
    (linesWithout [] i (ds.take k)).length = (linesWithout [] i (ds'.take k)).length := by
  induction h generalizing k i with
  | done => rfl
  | @more d d' ds ds' h1 h2 _ ih =>
    cases k with
    | zero => rfl
    | succ k =>
      simp only [List.take_succ_cons, linesWithout, List.not_mem_nil, if_false, List.length_append, ih k, h1, h2]

theorem sameLayout_get {ds ds' : List MacroDefinition} (h : SameLayout ds ds') (k : Nat) :
    (∀ d, ds[k]? = some d → ∃ d', ds'[k]? = some d' ∧ d.preceding = d'.preceding ∧
      (definitionLines d).length = (definitionLines d').length) := by
  induction h generalizing k with
  | done => simp
  | @more d d' ds ds' h1 h2 _ ih =>
    cases k with
    | zero => intro x hx; simp at hx; subst hx; exact ⟨d', by simp, h1, h2⟩
    | succ k => simpa using ih k

theorem sameLayout_symm {ds ds' : List MacroDefinition} (h : SameLayout ds ds') : SameLayout ds' ds := by
  induction h with
  | done => exact .done
  | more h1 h2 _ ih => exact .more h1.symm h2.symm ih

theorem ownLine_of_sameLayout {m m' : MacroDefinitions} (h : SameLayout m.data m'.data) {i : Nat}
    (ho : OwnLine m i) : OwnLine m' i := by
  obtain ⟨k, d, hd, h1, h2⟩ := ho
  obtain ⟨d', hd', hp, hl⟩ := sameLayout_get h k d hd
  have ha : (linesAbove m k).length = (linesAbove m' k).length := sameLayout_above h k 0
  exact ⟨k, d', hd', by rw [← ha, ← hp]; exact h1, by rw [← ha, ← hp, ← hl]; exact h2⟩

/-- the lines at the given offset are the same, or belong to definitions -/
theorem sameOutside_append {P : Nat → Prop} {i : Nat} {a a' b b' : List Str}
    (h : SameOutside P i a a') (h' : SameOutside P (i + a.length) b b') :
    SameOutside P i (a ++ b) (a' ++ b') := by
  induction h with
  | done => simpa using h'
  | @same i l ls ls' _ ih =>
    refine .same (ih ?_)
    rw [List.length_cons, show i + (ls.length + 1) = i + 1 + ls.length by omega] at h'
    exact h'
  | @inBody i l l' ls ls' hi _ ih =>
    refine .inBody hi (ih ?_)
    rw [List.length_cons, show i + (ls.length + 1) = i + 1 + ls.length by omega] at h'
    exact h'

theorem sameOutside_refl {P : Nat → Prop} (i : Nat) (a : List Str) : SameOutside P i a a := by
  induction a generalizing i with
  | nil => exact .done
  | cons l ls ih => exact .same (ih _)

theorem sameOutside_body {P : Nat → Prop} {i : Nat} {a a' : List Str} (hl : a.length = a'.length)
    (h : ∀ k, k < a.length → P (i + k)) : SameOutside P i a a' := by
  induction a generalizing i a' with
  | nil => cases a' with
    | nil => exact .done
    | cons => simp at hl
  | cons l ls ih => cases a' with
    | nil => simp at hl
    | cons l' ls' =>
      refine .inBody (by simpa using h 0 (by simp)) (ih (by simpa using hl) ?_)
      intro k hk
      have := h (k + 1) (by simpa using hk)
      rwa [show i + 1 + k = i + (k + 1) by omega]

theorem sameOutside_defs {P : Nat → Prop} {ds ds' : List MacroDefinition} (h : SameLayout ds ds') {i : Nat} (j : Nat)
    (hP : ∀ k d, ds[k]? = some d → ∀ x, i + (linesWithout [] j (ds.take k)).length + d.preceding.length ≤ x →
      x < i + (linesWithout [] j (ds.take k)).length + d.preceding.length + (definitionLines d).length → P x) :
    SameOutside P i (linesWithout [] j ds) (linesWithout [] j ds') := by
  induction h generalizing i j with
  | done => exact .done
  | @more d d' ds ds' h1 h2 _ ih =>
    simp only [linesWithout, List.not_mem_nil, if_false, List.append_assoc]
    rw [← h1]
    refine sameOutside_append (sameOutside_refl _ _) (sameOutside_append (sameOutside_body h2 ?_) (ih _ ?_))
    · intro k hk
      exact hP 0 d (by simp) _ (by simp [linesWithout]) (by simp [linesWithout]; omega)
    · intro k e he x hx1 hx2
      refine hP (k + 1) e (by simpa using he) x ?_ ?_
      all_goals
        simp only [List.take_succ_cons, linesWithout, List.not_mem_nil, if_false, List.length_append]
        omega

theorem sameOutside_raw {m m' : MacroDefinitions} (h : SameLayout m.data m'.data)
    (hr : m.remainder = m'.remainder) : SameOutside (OwnLine m) 0 (raw m) (raw m') := by
  rw [raw_eq_linesWithout, raw_eq_linesWithout, hr]
  refine sameOutside_append (sameOutside_defs h 0 ?_) (sameOutside_refl _ _)
  intro k d hd x h1 h2
  exact ⟨k, d, hd, by simpa [linesAbove] using h1, by simpa [linesAbove] using h2⟩

theorem processConditions_congr_exc [Uni] {ex : Conditions.Oracle} {e e' : List Conditions.Range}
    (h : ∀ i, Conditions.isExcluded e i = Conditions.isExcluded e' i) (ls : List Str) (i : Nat) (skip br : List Bool) :
    Conditions.loop ex e i skip br ls = Conditions.loop ex e' i skip br ls := by
  induction ls generalizing i skip br with
  | nil => rfl
  | cons l ls ih =>
    cases skip with
    | cons f skip => rw [Conditions.loop_skip1, Conditions.loop_skip1, ih]
    | nil =>
      have hs : Conditions.step ex e i l ls br = Conditions.step ex e' i l ls br := by
        unfold Conditions.step; simp only [h]
      cases hx : Conditions.step ex e' i l ls br with
      | error er => simp [Conditions.loop, hs, hx]
      | ok x =>
        obtain ⟨f, sk, br'⟩ := x
        rw [Conditions.loop_step hx, Conditions.loop_step (hs.trans hx), ih]

end MacroDefinitions
end Specfile
