import Verif.Proof.Update6
/-
When `update` keeps the macros of a value.
-/
namespace Specfile.Update
open Py Regex Spec Props Template

theorem refersTo_lit {s x : Str} : ¬ RefersTo (.lit s) x := by intro h; cases h
theorem refersTo_cond {p n x : Str} {b : List Node} : ¬ RefersTo (.cond p n b) x := by intro h; cases h

theorem parts_unique {ex : Str → Except Err Str} {entities flips : List Str} {ns : List Node} {ps : List Part}
    (h : Parts ex entities flips ns ps) : ∀ {qs}, Parts ex entities flips ns qs → qs = ps := by
  induction h with
  | nil => intro qs hq; cases hq; rfl
  | lit _ ih =>
    intro qs hq
    cases hq with
    | lit h => rw [ih h]
    | reference h _ _ => exact absurd h refersTo_lit
    | constant h _ _ _ => exact h.elim
  | @reference n x ns ps hr hx _ ih =>
    intro qs hq
    generalize hl : n :: ns = l at hq
    cases hq with
    | nil => cases hl
    | lit h => cases hl; exact absurd hr refersTo_lit
    | reference h _ h' => cases hl; rw [ih h', refersTo_name hr h]
    | constant _ h _ _ => cases hl; exact absurd hx (h x hr)
    | closed _ _ => cases hl; exact absurd hr refersTo_cond
    | opened _ _ _ _ => cases hl; exact absurd hr refersTo_cond
  | @constant n c ns ps hm hr hc _ ih =>
    intro qs hq
    generalize hl : n :: ns = l at hq
    cases hq with
    | nil => cases hl
    | lit h => cases hl; exact hm.elim
    | reference h h' _ => cases hl; exact absurd h' (hr _ h)
    | constant _ _ h h' => cases hl; rw [hc] at h; cases h; rw [ih h']
    | closed _ _ => cases hl; exact hm.elim
    | opened _ _ _ _ => cases hl; exact hm.elim
  | closed hs _ ih =>
    intro qs hq
    cases hq with
    | reference h _ _ => exact absurd h refersTo_cond
    | constant h _ _ _ => exact h.elim
    | closed _ h => rw [ih h]
    | opened h1 h2 _ _ => exact absurd h2 (hs h1)
  | opened h1 h2 _ _ ih1 ih2 =>
    intro qs hq
    cases hq with
    | reference h _ _ => exact absurd h refersTo_cond
    | constant h _ _ _ => exact h.elim
    | closed h _ => exact absurd h2 (h h1)
    | opened _ _ h h' => rw [ih1 h, ih2 h']

theorem parts_congr {ex : Str → Except Err Str} {entities entities' flips : List Str} {ns : List Node} {ps : List Part}
    (he : ∀ x, x ∈ entities ↔ x ∈ entities') (h : Parts ex entities flips ns ps) : Parts ex entities' flips ns ps := by
  induction h with
  | nil => exact .nil
  | lit _ ih => exact .lit ih
  | reference h1 h2 _ ih => exact .reference h1 ((he _).mp h2) ih
  | constant h1 h2 h3 _ ih => exact .constant h1 (fun x hx hh => h2 x hx ((he x).mpr hh)) h3 ih
  | closed h1 _ ih => exact .closed (fun hh => h1 ((he _).mpr hh)) ih
  | opened h1 h2 _ _ ih1 ih2 => exact .opened ((he _).mp h1) h2 ih1 ih2

theorem independent_shape [Uni] {e e' : Entity} (h : Shape e e') {t : Str} : Independent e' t ↔ Independent e t := by
  unfold Independent; rw [h.name, h.isTag]

theorem not_independent [Uni] {e : Entity} {t : Str} (h : findReference e t = .ok true) : ¬ Independent e t := by
  rintro ⟨ns, hn, hi⟩
  unfold findReference at h
  rw [hn] at h
  simp only [Except.ok.injEq] at h
  obtain ⟨x, hx, hx'⟩ := (refers_iff ns).mp h
  unfold isNamed at hx'
  simp only [Bool.or_eq_true, Bool.and_eq_true, beq_iff_eq] at hx'
  rcases hx' with ⟨h1, h2⟩ | h1
  · exact (hi x hx).2 h1 h2.symm
  · exact (hi x hx).1 h1.symm

def Unlocked (es : List Entity) : Prop := ∀ e ∈ es, e.locked = false

/-- a group is given up only because its entity is mentioned -/
theorem updateGroups_false [Uni] {rec : Rec} {p : Nat}
    (hk : ∀ v q p es v' es', rec v q p es = .ok (v', es') → Kept (Step p) es es') :
    ∀ {d : List (Str × Str)} {es es' : List Entity}, Unlocked es → updateGroups rec p d es = .ok (false, es') →
      ∃ g w, (g, w) ∈ d ∧ ¬ s% "sub_" <+: g ∧ ∃ i e, Closest es g p i ∧ es[i]? = some e ∧ ¬ Independent e w := by
  intro d
  induction d with
  | nil => intro es es' _ h; simp [updateGroups] at h
  | cons gv d ih =>
    intro es es' hu h
    obtain ⟨g, w⟩ := gv
    have h0 := h
    unfold updateGroups at h
    split at h
    · obtain ⟨g', w', h1, h2⟩ := ih hu h
      exact ⟨g', w', .tail _ h1, h2⟩
    · rename_i hsub
      simp only [startsWith, List.isPrefixOf_iff_prefix] at hsub
      split at h
      · cases h
      · rename_i i hi
        obtain ⟨⟨e, he, hpos, hdes⟩, hlast⟩ := closest_iff hi
        rw [he] at h
        simp only at h
        split at h
        · rename_i hl
          rw [hu e (List.mem_of_getElem? he)] at hl; cases hl
        · split at h
          · cases h
          · rename_i hfind
            exact ⟨g, w, .head _, hsub, i, e, ⟨⟨e, he, hpos, hdes⟩, hlast⟩, he, not_independent hfind⟩
          · split at h
            · cases h
            · rename_i v es1 hr
              have k1 := hk _ _ _ _ _ _ hr
              have hsh : Kept Shape es (es1.modify i (fun e => { e with value := v, locked := false, updated := true })) :=
                Kept.shapes (Kept.shapes (Kept.modify (f := fun e => { e with locked := true }) Shape.refl
                  (fun e _ => ⟨rfl, rfl, rfl, rfl⟩)) k1.shape)
                  (Kept.modify Shape.refl (fun e _ => ⟨rfl, rfl, rfl, rfl⟩))
              have hu' : Unlocked (es1.modify i (fun e => { e with value := v, locked := false, updated := true })) := by
                intro x hx
                obtain ⟨j, hj⟩ := List.getElem?_of_mem hx
                rw [List.getElem?_modify] at hj
                cases hj1 : es1[j]? with
                | none => rw [hj1] at hj; simp at hj
                | some y =>
                  rw [hj1] at hj
                  simp only [Option.map_eq_map, Option.map_some, Option.some.injEq] at hj
                  by_cases hij : i = j
                  · simp only [hij, if_true] at hj; rw [← hj]
                  · simp only [hij, if_false] at hj
                    subst hj
                    obtain ⟨z, hz, hs⟩ := k1.back hj1
                    rw [hs.locked]
                    rw [List.getElem?_modify] at hz
                    cases hj2 : es[j]? with
                    | none => rw [hj2] at hz; simp at hz
                    | some z' =>
                      rw [hj2] at hz
                      simp only [hij, if_false, Option.map_eq_map, Option.map_some, Option.some.injEq] at hz
                      subst hz
                      exact hu z' (List.mem_of_getElem? hj2)
              obtain ⟨g', w', h1, h2, i', e', h3, h4, h5⟩ := ih hu' h
              obtain ⟨f, hf, hs⟩ := hsh.back h4
              refine ⟨g', w', .tail _ h1, h2, i', f, ?_, hf, fun hh => h5 ((independent_shape hs).mpr hh)⟩
              obtain ⟨⟨e1, c1, c2, c3⟩, c4⟩ := h3
              rw [h4] at c1; cases c1
              refine ⟨⟨f, hf, hs.position ▸ c2, (designates_shape hs).mp c3⟩, fun j x hj hx hp hd => ?_⟩
              obtain ⟨x', hx', hsx⟩ := hsh.get hx
              exact c4 j x' hj hx' (hsx.position ▸ hp) ((designates_shape hsx).mpr hd)

/-- What is known about a value whose expression matches: its macros are kept, or some entity would refer to itself. -/
def KeptOrCyclic [Uni] (ex : Str → Except Err Str) (es es' : List Entity) (p : Nat) (entities flips : List Str)
    (nodes : List Node) (v q : Str) : Prop :=
  ∃ ps d w, Parts ex entities flips nodes ps ∧ Rewritten d false ps w q ∧ ((v = w ∧ ∀ x ∈ flips, Pending es' p x) ∨
    ∃ x s y i e, Part.reference x s ∈ ps ∧ d x = some y ∧ Closest es x p i ∧ es[i]? = some e ∧ ¬ Independent e y)

theorem applyMatch_keeps [Uni] {isIdent : Str → Bool} {ex : Str → Except Err Str} {rec : Rec}
    (hk : ∀ v q p es v' es', rec v q p es = .ok (v', es') → Kept (Step p) es es') {t : Str} {p : Nat}
    {q v' : Str} {es es' : List Entity} {F flips : List Str} {B : Built} {m : St Str} {nodes : List Node}
    (hF : ∀ x ∈ F, x ∈ flippable es p) (hn : ValueParser.parse t = .ok nodes)
    (hB : construct isIdent ex (modifiable es p) F t = .ok (B, flips))
    (hm : rmatch B.re q = some m) (hne : q ≠ []) (hline : '\n' ∉ q) (hu : Unlocked es)
    (h : applyMatch rec q p es B flips m = .ok (v', es')) :
    KeptOrCyclic ex es es' p (modifiable es p) flips nodes v' q := by
  obtain ⟨nodes', ps, text, m1, m2, m3, m4, m5, m6, m7, m8, m9⟩ := construct_match hB hm hne hline
  rw [hn] at m1; cases m1
  refine ⟨ps, m.get, text, m2, m4, ?_⟩
  unfold applyMatch at h
  split at h
  · cases h
  · rename_i es1 hg
    cases h
    right
    obtain ⟨g, w, h1, h2, i, e, h3, h4, h5⟩ := updateGroups_false hk hu hg
    rw [mem_groupItems] at h1
    rcases m8 g h1.1 with h | ⟨s, hs⟩
    · exact absurd h h2
    · exact ⟨g, s, w, i, e, hs, h1.2, h3, h4, h5⟩
  · rename_i es1 hg
    rw [m5] at h
    simp only at h
    cases h
    refine .inl ⟨rfl, fun x hx => ?_⟩
    have := hF x (m6 x hx).1
    simp only [flippable, List.mem_map, List.mem_filter, Bool.and_eq_true, decide_eq_true_eq] at this
    obtain ⟨e, ⟨k1, ⟨k2, -⟩, -⟩, k4⟩ := this
    obtain ⟨i, hi⟩ := List.getElem?_of_mem k1
    obtain ⟨e1, he1, hs1⟩ := (updateGroups_kept hk hg).shape.get hi
    refine ⟨{ e1 with flipPending := true }, ?_, hs1.position ▸ k2, hs1.name.trans k4, rfl⟩
    simp only [flip, List.mem_map]
    refine ⟨e1, List.mem_of_getElem? he1, ?_⟩
    rw [if_pos ⟨hs1.position ▸ k2, by rw [hs1.name, k4]; simpa using hx⟩]

theorem reached_congr {ex : Str → Except Err Str} {as bs flips : List Str} (h : ∀ x, x ∈ as ↔ x ∈ bs) {ns : List Node}
    {rs : List (Str × Str)} (hr : Reached ex as flips ns rs) : Reached ex bs flips ns rs := by
  induction hr with
  | nil => exact .nil
  | other h1 _ ih => exact .other h1 ih
  | unknown h1 _ ih => exact .unknown (fun hx => h1 ((h _).mpr hx)) ih
  | closed h1 h2 _ ih => exact .closed ((h _).mp h1) h2 ih
  | opened h1 h2 _ _ ih1 ih2 => exact .opened ((h _).mp h1) h2 ih1 ih2

end Specfile.Update
