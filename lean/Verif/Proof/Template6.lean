import Verif.Proof.Template5
/-
C73: which macros are enabled or disabled.
-/
namespace Specfile.Template
open Py Regex Spec

/-- how `processed_entities` and `entities_to_flip` grow when the conditionals `rs` are reached -/
def Adds (ex : Str → Except Err Str) (flippable : List Str) (f : Flips) (rs : List (Str × Str)) (g : Flips) : Prop :=
  ∀ x ∈ flippable, (x ∈ g.processed ↔ x ∈ f.processed ∨ x ∈ rs.map (·.2)) ∧
    (x ∈ g.toFlip ↔ x ∈ f.toFlip ∨
      (x ∉ f.processed ∧ ∃ p, rs.find? (fun r => r.2 = x) = some (p, x) ∧ ¬ Succeeds ex [] p x))

theorem Adds.nil (ex : Str → Except Err Str) (flippable : List Str) (f : Flips) : Adds ex flippable f [] f := by
  intro x _
  simp

theorem Adds.append {ex : Str → Except Err Str} {flippable : List Str} {f g h : Flips} {rs qs : List (Str × Str)}
    (a : Adds ex flippable f rs g) (b : Adds ex flippable g qs h) : Adds ex flippable f (rs ++ qs) h := by
  intro x hx
  obtain ⟨a1, a2⟩ := a x hx
  obtain ⟨b1, b2⟩ := b x hx
  refine ⟨?_, ?_⟩
  · rw [b1, a1, List.map_append, List.mem_append, or_assoc]
  · rw [b2, a2, a1, List.find?_append]
    have hn : x ∉ rs.map (·.2) ↔ rs.find? (fun r => r.2 = x) = none := by
      rw [List.find?_eq_none]
      simp only [List.mem_map, not_exists, not_and, decide_eq_true_eq]
    by_cases hm : x ∈ rs.map (·.2)
    · cases hf : rs.find? (fun r => r.2 = x) with
      | none => exact absurd hm (hn.2 hf)
      | some r => simp [hm]
    · rw [hn.1 hm]
      simp [hm]

theorem evaluate_adds {ex : Str → Except Err Str} {modifiable flippable : List Str} {p x : Str} {f g : Flips} {b : Bool}
    (hf : Good modifiable flippable f) (h : evaluate ex modifiable flippable p x f = .ok (b, g)) (hx : x ∈ modifiable) :
    Adds ex flippable f [(p, x)] g := by
  unfold evaluate at h
  rw [if_neg (by simpa using hx)] at h
  split at h
  · cases h
  · rename_i d hd
    have suc : Succeeds ex [] p x ↔ ((d ≠ []) ↔ p.count '!' % 2 = 0) := by
      constructor
      · rintro ⟨d', hd', h'⟩
        rw [hd] at hd'
        cases hd'
        simpa using h'
      · intro h'; exact ⟨d, hd, by simpa using h'⟩
    have find : ∀ y q, List.find? (fun r => decide (r.2 = y)) [(p, x)] = some (q, y) ↔ (x = y ∧ p = q) := by
      intro y q
      by_cases hxy : x = y
      · subst hxy; simp
      · simp [List.find?, hxy]
    intro y hy
    simp only [find]
    simp only at h
    split at h
    · rename_i hc
      have hc : ¬ Succeeds ex [] p x := by
        rw [suc]
        rcases Nat.mod_two_eq_zero_or_one (p.count '!') with h0 | h0 <;> cases d <;> simp_all
      split at h
      · rename_i hfl
        cases h
        have hfl : x ∉ flippable := by simpa using hfl
        have hne : x ≠ y := fun e => hfl (e ▸ hy)
        simp [hne, Ne.symm hne]
      · split at h
        · rename_i hp
          cases h
          simp only [Bool.and_eq_true, Bool.not_eq_true', List.contains_eq_mem, decide_eq_false_iff_not, decide_eq_true_eq] at hp
          by_cases hxy : y = x
          · subst hxy; simp [hp]
          · simp [hxy, Ne.symm hxy]
        · rename_i hp
          cases h
          simp only [Bool.and_eq_true, Bool.not_eq_true', List.contains_eq_mem, decide_eq_false_iff_not, decide_eq_true_eq] at hp
          by_cases hxy : y = x
          · subst hxy
            simp only [List.mem_cons, true_or, List.map_cons, List.map_nil, or_true, true_and, exists_eq_left', hc,
              not_false_eq_true, and_true, true_iff]
            by_cases hy' : y ∈ f.processed
            · exact .inl (Classical.byContradiction fun hn => hp ⟨hy', hn⟩)
            · exact .inr hy'
          · simp [hxy, Ne.symm hxy, or_comm]
    · rename_i hc
      have hc : Succeeds ex [] p x := by
        rw [suc]
        rcases Nat.mod_two_eq_zero_or_one (p.count '!') with h0 | h0 <;> cases d <;> simp_all
      split at h
      · rename_i hfl
        cases h
        have hfl : x ∈ f.toFlip := by simpa using hfl
        by_cases hxy : y = x
        · subst hxy; simp [hf.sub y hfl, hfl]
        · simp [hxy, Ne.symm hxy]
      · cases h
        by_cases hxy : y = x
        · subst hxy; simp [hc]
        · simp [hxy, Ne.symm hxy]

mutual
theorem openNode_reached {ex : Str → Except Err Str} {modifiable flippable : List Str} : ∀ (n : Node) {f g : Flips}
    {ps : List Piece}, Good modifiable flippable f → openNode ex modifiable flippable n f = .ok (ps, g) →
    ∃ rs, Adds ex flippable f rs g ∧ ∀ F, Good modifiable flippable F → Later g F →
      ∀ ns qs, Reached ex modifiable F.toFlip ns qs → Reached ex modifiable F.toFlip (n :: ns) (rs ++ qs)
  | .cond p x body, f, g, ps, hf, h => by
    simp only [openNode] at h
    split at h
    · cases h
    · rename_i f1 he
      cases h
      obtain ⟨h1, h2, h3⟩ := evaluate_spec hf he
      by_cases hx : x ∈ modifiable
      · refine ⟨[(p, x)], evaluate_adds hf he hx, fun F hF hl ns qs hp => ?_⟩
        exact .closed hx ((h3 F hF hl).2 rfl hx) hp
      · refine ⟨[], ?_, fun F hF hl ns qs hp => .unknown hx hp⟩
        unfold evaluate at he
        rw [if_pos (by simpa using hx)] at he
        cases he
        exact .nil _ _ _
    · rename_i f1 he
      obtain ⟨h1, h2, h3⟩ := evaluate_spec hf he
      split at h
      · cases h
      · rename_i ps' f2 hb
        cases h
        obtain ⟨-, i2, -⟩ := openNodes_parts body h1 hb
        obtain ⟨rs, j1, j2⟩ := openNodes_reached body h1 hb
        obtain ⟨s1, -⟩ := (h3 f1 h1 (.refl _)).1 rfl
        refine ⟨[(p, x)] ++ rs, (evaluate_adds hf he s1).append j1, fun F hF hl ns qs hp => ?_⟩
        have := Reached.opened s1 ((h3 F hF (i2.trans hl)).1 rfl).2 (j2 F hF hl) hp
        simpa using this
  | .lit s, f, g, ps, hf, h => by
    simp only [openNode] at h; cases h
    exact ⟨[], .nil _ _ _, fun F _ _ ns qs hp => .other (by rintro _ _ _ ⟨⟩) hp⟩
  | .shell s, f, g, ps, hf, h => by
    simp only [openNode] at h; cases h
    exact ⟨[], .nil _ _ _, fun F _ _ ns qs hp => .other (by rintro _ _ _ ⟨⟩) hp⟩
  | .expr s, f, g, ps, hf, h => by
    simp only [openNode] at h; cases h
    exact ⟨[], .nil _ _ _, fun F _ _ ns qs hp => .other (by rintro _ _ _ ⟨⟩) hp⟩
  | .sub _ _, f, g, ps, hf, h => by
    simp only [openNode] at h; cases h
    exact ⟨[], .nil _ _ _, fun F _ _ ns qs hp => .other (by rintro _ _ _ ⟨⟩) hp⟩
  | .encl _ _ _, f, g, ps, hf, h => by
    simp only [openNode] at h; cases h
    exact ⟨[], .nil _ _ _, fun F _ _ ns qs hp => .other (by rintro _ _ _ ⟨⟩) hp⟩
  | .builtin _ _, f, g, ps, hf, h => by
    simp only [openNode] at h; cases h
    exact ⟨[], .nil _ _ _, fun F _ _ ns qs hp => .other (by rintro _ _ _ ⟨⟩) hp⟩

theorem openNodes_reached {ex : Str → Except Err Str} {modifiable flippable : List Str} : ∀ (l : List Node) {f g : Flips}
    {ps : List Piece}, Good modifiable flippable f → openNodes ex modifiable flippable l f = .ok (ps, g) →
    ∃ rs, Adds ex flippable f rs g ∧ ∀ F, Good modifiable flippable F → Later g F → Reached ex modifiable F.toFlip l rs
  | [], f, g, ps, hf, h => by
    simp only [openNodes] at h; cases h
    exact ⟨[], .nil _ _ _, fun _ _ _ => .nil⟩
  | n :: ns, f, g, ps, hf, h => by
    simp only [openNodes] at h
    split at h
    · cases h
    · rename_i ps1 f1 h1
      split at h
      · cases h
      · rename_i ps2 f2 h2
        cases h
        obtain ⟨g1, -, -⟩ := openNode_parts n hf h1
        obtain ⟨-, g2, -⟩ := openNodes_parts ns g1 h2
        obtain ⟨rs, a1, a2⟩ := openNode_reached n hf h1
        obtain ⟨qs, b1, b2⟩ := openNodes_reached ns g1 h2
        exact ⟨rs ++ qs, a1.append b1, fun F hF hl => a2 F hF (g2.trans hl) ns qs (b2 F hF hl)⟩
end

end Specfile.Template
