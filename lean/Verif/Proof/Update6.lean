import Verif.Proof.Update5
import Verif.Props.UpdateValue
/-
Collecting the entities and writing them back.
-/
namespace Specfile.Update
open Py Spec Props

/-! collecting -/

theorem position_distinct {m : MacroDefinitions} {d : MacroDefinition} {p : Nat}
    (h : m.position d = .ok p) (hd : d ∈ m.data) (hn : (m.data.map (·.name)).Nodup) :
    ∃ i, m.data[i]? = some d ∧ p = definitionLine m i := by
  obtain ⟨i, hi⟩ := List.getElem?_of_mem hd
  refine ⟨i, hi, ?_⟩
  unfold MacroDefinitions.position at h
  split at h
  · cases h
  · rename_i j hj
    unfold MacroDefinitions.index at hj
    rw [Find.findIdx_iff] at hj
    obtain ⟨y, j1, j2, -⟩ := hj
    have hy := eqv_iff.mp j2
    have hij : j = i := by
      exact DistinctMacros.same hn j1 hi (by rw [← hy])
    subst hij
    cases h
    simp [definitionLine, hi]

theorem tagPosition_distinct [Uni] {t : Tags} {x : Tag} {p : Nat} (h : t.position x = .ok p) (hd : x ∈ t.data)
    (hn : DistinctTagNames t) : ∃ i, t.data[i]? = some x ∧ p = tagLine t i := by
  obtain ⟨i, hi⟩ := List.getElem?_of_mem hd
  refine ⟨i, hi, ?_⟩
  unfold Tags.position at h
  split at h
  · cases h
  · rename_i j hj
    unfold Tags.index at hj
    rw [Find.findIdx_iff] at hj
    obtain ⟨y, j1, j2, -⟩ := hj
    have : j = i := by
      refine hn j i y x j1 hi ?_
      simp only [Tags.eqv, Bool.and_eq_true, beq_iff_eq] at j2
      rw [j2.1.1.1.1.1]
    subst this
    cases h
    simp [tagLine, hi]

theorem isDisabled_iff {ex : Str → Except Err Str} {d : MacroDefinition} {b : Bool} (h : isDisabled ex d = .ok b) :
    b = true ↔ d.commentedOut = true ∨ ex d.body = .ok [] := by
  unfold isDisabled at h
  split at h
  · rename_i hc; cases h; simp [hc]
  · rename_i hc
    split at h
    · cases h
    · rename_i s hs
      cases h
      rw [hs]
      simp [hc]

theorem macros_collected {ex : Str → Except Err Str} {prot : Str → Bool} {m : MacroDefinitions} :
    ∀ {l : List MacroDefinition} {es : List Entity}, (∀ d ∈ l, d ∈ m.data) → macroEntities ex prot m l = .ok es →
      MacrosCollected ex prot m l es := by
  intro l
  induction l with
  | nil => intro es _ h; simp only [macroEntities] at h; cases h; exact .nil
  | cons d l ih =>
    intro es hl h
    have hl' : ∀ d ∈ l, d ∈ m.data := fun d hd => hl d (.tail _ hd)
    have hel : eligible prot d = true ↔ d.valid = true ∧ prot d.name = false ∧ ¬ [')'] <:+ d.name := by
      simp only [eligible, endsWith, Bool.and_eq_true, Bool.not_eq_true', and_assoc]
      rw [← List.isSuffixOf_iff_suffix, Bool.not_eq_true]
    unfold macroEntities at h
    split at h
    · rename_i he
      obtain ⟨e1, e2, e3⟩ := hel.mp he
      split at h
      · cases h
      · rename_i p hp
        split at h
        · cases h
        · rename_i b hb
          split at h
          · cases h
          · rename_i es' hes
            cases h
            exact .take e1 e2 e3 (position_distinct hp (hl d (.head _))) (isDisabled_iff hb) (ih hl' hes)
    · rename_i he
      refine .skip ?_ (ih hl' h)
      rw [hel] at he
      cases h1 : d.valid with
      | false => exact .inl rfl
      | true =>
        cases h2 : prot d.name with
        | true => exact .inr (.inl rfl)
        | false => exact .inr (.inr (Classical.byContradiction fun hc => he ⟨h1, h2, hc⟩))

theorem tags_collected [Uni] {prot : Str → Bool} {t : Tags} :
    ∀ {l : List Tag} {es : List Entity}, (∀ d ∈ l, d ∈ t.data) → tagEntities prot t l = .ok es →
      TagsCollected prot t l es := by
  intro l
  induction l with
  | nil => intro es _ h; simp only [tagEntities] at h; cases h; exact .nil
  | cons d l ih =>
    intro es hl h
    have hl' : ∀ d ∈ l, d ∈ t.data := fun d hd => hl d (.tail _ hd)
    unfold tagEntities at h
    split at h
    · rename_i he
      simp only [Bool.and_eq_true, Bool.not_eq_true'] at he
      split at h
      · cases h
      · rename_i p hp
        split at h
        · cases h
        · rename_i es' hes
          cases h
          exact .take he.1 he.2 (tagPosition_distinct hp (hl d (.head _))) (ih hl' hes)
    · rename_i he
      refine .skip ?_ (ih hl' h)
      cases h1 : d.valid with
      | false => exact .inl rfl
      | true => simpa [h1] using he

theorem insertEntity_perm {e : Entity} : ∀ (l : List Entity), (insertEntity e l).Perm (e :: l) := by
  intro l
  induction l with
  | nil => exact .refl _
  | cons x xs ih =>
    unfold insertEntity
    split
    · exact .refl _
    · exact (List.Perm.cons x ih).trans (.swap _ _ _)

theorem insertEntity_sorted {e : Entity} : ∀ {l : List Entity}, l.Pairwise (fun a b => a.position ≤ b.position) →
    (insertEntity e l).Pairwise (fun a b => a.position ≤ b.position) := by
  intro l
  induction l with
  | nil => intro _; simp [insertEntity]
  | cons x xs ih =>
    intro h
    rw [List.pairwise_cons] at h
    unfold insertEntity
    split
    · rename_i hlt
      rw [List.pairwise_cons, List.pairwise_cons]
      refine ⟨fun y hy => ?_, h⟩
      rcases List.mem_cons.mp hy with rfl | hy
      · omega
      · have := h.1 y hy; omega
    · rename_i hlt
      rw [List.pairwise_cons]
      refine ⟨fun y hy => ?_, ih h.2⟩
      rw [mem_insertEntity] at hy
      rcases hy with rfl | hy
      · omega
      · exact h.1 y hy

theorem insertEntity_stable {e : Entity} (p : Nat) : ∀ {l : List Entity}, l.Pairwise (fun a b => a.position ≤ b.position) →
    (insertEntity e l).filter (fun x => x.position = p) = (l ++ [e]).filter (fun x => x.position = p) := by
  intro l
  induction l with
  | nil => intro _; simp [insertEntity]
  | cons x xs ih =>
    intro h
    rw [List.pairwise_cons] at h
    unfold insertEntity
    split
    · rename_i hlt
      by_cases he : e.position = p
      · have : (x :: xs).filter (fun x => decide (x.position = p)) = [] := by
          rw [List.filter_eq_nil_iff]
          intro y hy
          rcases List.mem_cons.mp hy with rfl | hy
          · simp; omega
          · have := h.1 y hy; simp; omega
        rw [List.filter_append, this, List.filter_cons, this]
        simp [he]
      · rw [List.filter_append, List.filter_cons (x := e)]
        simp [he]
    · rw [List.filter_cons, ih h.2, List.cons_append, List.filter_cons (x := x)]

theorem sortEntities_inOrder (l : List Entity) : InOrder l (sortEntities l) := by
  unfold sortEntities
  have key : ∀ (l acc : List Entity), acc.Pairwise (fun a b => a.position ≤ b.position) →
      InOrder (acc ++ l) (l.foldl (fun acc e => insertEntity e acc) acc) := by
    intro l
    induction l with
    | nil => intro acc h; simp; exact ⟨.refl _, h, fun _ => rfl⟩
    | cons e l ih =>
      intro acc h
      rw [List.foldl_cons]
      obtain ⟨a, b, c⟩ := ih (insertEntity e acc) (insertEntity_sorted h)
      refine ⟨a.trans ?_, b, fun p => ?_⟩
      · have h1 : (insertEntity e acc ++ l).Perm (e :: acc ++ l) := (insertEntity_perm acc).append_right l
        exact h1.trans (List.perm_middle.symm)
      · rw [c p, List.filter_append, insertEntity_stable p h, ← List.filter_append]
        simp
  simpa using key l [] .nil

/-! writing back -/

theorem syncMacros_synced : ∀ {es : List Entity} {m m' : MacroDefinitions}, syncMacros es m = (m', none) →
    (m.data.map (·.name)).Nodup → ((es.filter (fun e => !e.isTag)).map (·.name)).Nodup → MacrosSynced es m m' := by
  intro es
  induction es with
  | nil =>
    intro m m' h _ _
    simp only [syncMacros] at h
    cases h
    refine ⟨rfl, rfl, ?_, ?_, ?_, ?_⟩
    · intro _ _ _ _ _ _ h; cases h
    · intro _ _ _ _ _ _ h; cases h
    · intro _ _ _ _ _ _ h; cases h
    · intro i d d' h h' _; rw [h] at h'; cases h'; rfl
  | cons e es ih =>
    intro m m' h hm hes
    unfold syncMacros at h
    split at h
    · rename_i ht
      have hes' : ((es.filter (fun e => !e.isTag)).map (·.name)).Nodup := by simpa [List.filter_cons, ht] using hes
      have := ih h hm hes'
      have hne : ∀ x, x ∈ e :: es → x.isTag = false → x ∈ es := by
        intro x hx hxt
        rcases List.mem_cons.mp hx with rfl | hx
        · rw [ht] at hxt; cases hxt
        · exact hx
      exact ⟨this.remainder, this.length,
        fun i d d' x a b c c' => this.updated i d d' x a b (hne x c c') c',
        fun i d d' x a b c c' => this.enabled i d d' x a b (hne x c c') c',
        fun i d d' x a b c c' => this.disabled i d d' x a b (hne x c c') c',
        fun i d d' a b c => this.untouched i d d' a b (fun x hx => c x (.tail _ hx))⟩
    · rename_i ht
      have ht : e.isTag = false := by simpa using ht
      simp only [List.filter_cons, ht, Bool.not_false, if_true, List.map_cons, List.nodup_cons] at hes
      split at h
      · cases h
      · rename_i k hk
        obtain ⟨d0, hd0, hn0, -⟩ := find_position hk
        have hname : ∀ d, (syncMacro e d).name = d.name := fun d => by rw [syncMacro_form]
        have hnames : (m.data.modify k (syncMacro e)).map (·.name) = m.data.map (·.name) := by
          apply List.ext_getElem?
          intro j
          rw [List.getElem?_map, List.getElem?_map, List.getElem?_modify]
          cases m.data[j]? with
          | none => rfl
          | some d => simp only [Option.map_eq_map, Option.map_some]; split <;> simp [hname]
        have hs := ih h (by rw [hnames]; exact hm) hes.2
        have hget : ∀ (i : Nat) d, m.data[i]? = some d →
            (d.name = e.name ∧ (m.data.modify k (syncMacro e))[i]? = some (syncMacro e d)) ∨
            (d.name ≠ e.name ∧ (m.data.modify k (syncMacro e))[i]? = some d) := by
          intro i d hd
          rw [List.getElem?_modify, hd]
          by_cases hki : k = i
          · subst hki
            rw [hd0] at hd; cases hd
            exact .inl ⟨hn0, by simp⟩
          · right
            refine ⟨fun hc => hki ?_, by simp [hki]⟩
            exact DistinctMacros.same hm hd0 hd (hn0.trans hc.symm)
        -- the definition of the first entity is not changed by the other ones
        have hfirst : ∀ (i : Nat) d d', m.data[i]? = some d → m'.data[i]? = some d' → d.name = e.name →
            d' = syncMacro e d := by
          intro i d d' hd hd' hn
          rcases hget i d hd with ⟨-, g⟩ | ⟨g, -⟩
          · refine hs.untouched i _ d' g hd' (fun x hx hxt hxn => ?_)
            exfalso
            apply hes.1
            rw [hname, hn] at hxn
            rw [← hxn]
            exact List.mem_map.mpr ⟨x, List.mem_filter.mpr ⟨hx, by simp [hxt]⟩, rfl⟩
          · exact absurd hn g
        have hother : ∀ (i : Nat) d, m.data[i]? = some d → d.name ≠ e.name →
            (m.data.modify k (syncMacro e))[i]? = some d := by
          intro i d hd hn
          rcases hget i d hd with ⟨g, -⟩ | ⟨-, g⟩
          · exact absurd g hn
          · exact g
        refine ⟨hs.remainder, by rw [hs.length]; simp, ?_, ?_, ?_, ?_⟩
        · intro i d d' x hd hd' hx hxt hxn hu
          by_cases hn : d.name = e.name
          · rcases List.mem_cons.mp hx with rfl | hx
            · rw [hfirst i d d' hd hd' hn]; simp [syncMacro, hu]
            · exact absurd (List.mem_map.mpr ⟨x, List.mem_filter.mpr ⟨hx, by simp [hxt]⟩, hxn.trans hn⟩) hes.1
          · rcases List.mem_cons.mp hx with rfl | hx
            · exact absurd hxn.symm hn
            · exact hs.updated i d d' x (hother i d hd hn) hd' hx hxt hxn hu
        · intro i d d' x hd hd' hx hxt hxn hu hf hdis
          by_cases hn : d.name = e.name
          · rcases List.mem_cons.mp hx with rfl | hx
            · rw [hfirst i d d' hd hd' hn]; simp [syncMacro, hu, hf, hdis]
            · exact absurd (List.mem_map.mpr ⟨x, List.mem_filter.mpr ⟨hx, by simp [hxt]⟩, hxn.trans hn⟩) hes.1
          · rcases List.mem_cons.mp hx with rfl | hx
            · exact absurd hxn.symm hn
            · exact hs.enabled i d d' x (hother i d hd hn) hd' hx hxt hxn hu hf hdis
        · intro i d d' x hd hd' hx hxt hxn hu hf hdis
          by_cases hn : d.name = e.name
          · rcases List.mem_cons.mp hx with rfl | hx
            · rw [hfirst i d d' hd hd' hn]; simp [syncMacro, hu, hf, hdis]
            · exact absurd (List.mem_map.mpr ⟨x, List.mem_filter.mpr ⟨hx, by simp [hxt]⟩, hxn.trans hn⟩) hes.1
          · rcases List.mem_cons.mp hx with rfl | hx
            · exact absurd hxn.symm hn
            · exact hs.disabled i d d' x (hother i d hd hn) hd' hx hxt hxn hu hf hdis
        · intro i d d' hd hd' hall
          by_cases hn : d.name = e.name
          · obtain ⟨h1, h2⟩ := hall e (.head _) ht hn.symm
            rw [hfirst i d d' hd hd' hn]; simp [syncMacro, h1, h2]
          · exact hs.untouched i d d' (hother i d hd hn) hd' (fun x hx => hall x (.tail _ hx))

theorem syncTags_synced [Uni] : ∀ {es : List Entity} {t t' : Tags}, syncTags es t = (t', none) →
    DistinctTagNames t → ((es.filter (fun e => e.isTag)).map (fun e => Uni.capitalize e.name)).Nodup →
    TagsSynced es t t' := by
  intro es
  induction es with
  | nil =>
    intro m m' h _ _
    simp only [syncTags] at h
    cases h
    refine ⟨rfl, rfl, ?_, ?_⟩
    · intro _ _ _ _ _ _ h; cases h
    · intro i d d' h h' _; rw [h] at h'; cases h'; rfl
  | cons e es ih =>
    intro t t' h hm hes
    unfold syncTags at h
    split at h
    · rename_i ht
      simp only [List.filter_cons, ht, if_true, List.map_cons, List.nodup_cons] at hes
      split at h
      · cases h
      · rename_i k hk
        obtain ⟨d0, hd0, hn0, -⟩ := findTag_position hk
        generalize ht1 : (if e.updated = true then t.setValueAt k e.value else t) = t1 at h
        have hget : ∀ (i : Nat) x, t.data[i]? = some x →
            (Uni.capitalize x.name = Uni.capitalize e.name ∧
              t1.data[i]? = some (if e.updated = true then { x with value := e.value } else x)) ∨
            (Uni.capitalize x.name ≠ Uni.capitalize e.name ∧ t1.data[i]? = some x) := by
          intro i x hx
          by_cases hki : k = i
          · subst hki
            rw [hd0] at hx; cases hx
            refine .inl ⟨hn0, ?_⟩
            rw [← ht1]
            split
            · simp [Tags.setValueAt, hd0]
            · exact hd0
          · right
            refine ⟨fun hc => hki (hm k i d0 x hd0 hx (hn0.trans hc.symm)), ?_⟩
            rw [← ht1]
            split
            · simp [Tags.setValueAt, hx, hki]
            · exact hx
        have hlen : t1.data.length = t.data.length := by
          rw [← ht1]; split
          · simp [Tags.setValueAt]
          · rfl
        have hrem : t1.remainder = t.remainder := by rw [← ht1]; split <;> rfl
        have hback : ∀ (i : Nat) y, t1.data[i]? = some y → ∃ x, t.data[i]? = some x ∧ y.name = x.name := by
          intro i y hy
          have hi : i < t.data.length := by rw [← hlen]; exact (List.getElem?_eq_some_iff.mp hy).1
          refine ⟨t.data[i], List.getElem?_eq_getElem hi, ?_⟩
          rcases hget i _ (List.getElem?_eq_getElem hi) with ⟨-, g⟩ | ⟨-, g⟩
          · rw [hy] at g; cases g; split <;> rfl
          · rw [hy] at g; cases g; rfl
        have hdist : DistinctTagNames t1 := by
          intro i j x y hx hy hxy
          obtain ⟨x', hx', e1⟩ := hback i x hx
          obtain ⟨y', hy', e2⟩ := hback j y hy
          exact hm i j x' y' hx' hy' (by rw [← e1, ← e2, hxy])
        have hs := ih h hdist hes.2
        have hfirst : ∀ (i : Nat) d d', t.data[i]? = some d → t'.data[i]? = some d' →
            Uni.capitalize d.name = Uni.capitalize e.name →
            d' = if e.updated = true then { d with value := e.value } else d := by
          intro i d d' hd hd' hn
          rcases hget i d hd with ⟨-, g⟩ | ⟨g, -⟩
          · refine hs.untouched i _ d' g hd' (fun x hx hxt hxn => ?_)
            exfalso
            apply hes.1
            have : Uni.capitalize x.name = Uni.capitalize e.name := by
              rw [hxn, ← hn]; split <;> rfl
            rw [← this]
            exact List.mem_map.mpr ⟨x, List.mem_filter.mpr ⟨hx, hxt⟩, rfl⟩
          · exact absurd hn g
        have hother : ∀ (i : Nat) d, t.data[i]? = some d → Uni.capitalize d.name ≠ Uni.capitalize e.name →
            t1.data[i]? = some d := by
          intro i d hd hn
          rcases hget i d hd with ⟨g, -⟩ | ⟨-, g⟩
          · exact absurd g hn
          · exact g
        refine ⟨hs.remainder.trans hrem, hs.length.trans hlen, ?_, ?_⟩
        · intro i d d' x hd hd' hx hxt hxn hu
          by_cases hn : Uni.capitalize d.name = Uni.capitalize e.name
          · rcases List.mem_cons.mp hx with rfl | hx
            · rw [hfirst i d d' hd hd' hn, if_pos hu]
            · exact absurd (List.mem_map.mpr ⟨x, List.mem_filter.mpr ⟨hx, hxt⟩, hxn.trans hn⟩) hes.1
          · rcases List.mem_cons.mp hx with rfl | hx
            · exact absurd hxn.symm hn
            · exact hs.updated i d d' x (hother i d hd hn) hd' hx hxt hxn hu
        · intro i d d' hd hd' hall
          by_cases hn : Uni.capitalize d.name = Uni.capitalize e.name
          · have h1 := hall e (.head _) ht hn.symm
            rw [hfirst i d d' hd hd' hn]; simp [h1]
          · exact hs.untouched i d d' (hother i d hd hn) hd' (fun x hx => hall x (.tail _ hx))
    · rename_i ht
      have hes' : ((es.filter (fun e => e.isTag)).map (fun e => Uni.capitalize e.name)).Nodup := by
        simpa [List.filter_cons, ht] using hes
      have := ih h hm hes'
      have hne : ∀ x, x ∈ e :: es → x.isTag = true → x ∈ es := by
        intro x hx hxt
        rcases List.mem_cons.mp hx with rfl | hx
        · exact absurd hxt ht
        · exact hx
      exact ⟨this.remainder, this.length,
        fun i d d' x a b c c' => this.updated i d d' x a b (hne x c c') c',
        fun i d d' a b c => this.untouched i d d' a b (fun x hx => c x (.tail _ hx))⟩

end Specfile.Update
