import Verif.Proof.Update2
/-
Writing the entities back.
-/
namespace Specfile.Update
open Py Regex Template Spec ValueParser

theorem splitC_length (c : Char) (s : Str) : (splitC c s).length = s.count c + 1 := by
  have : ∀ s, (splitP (· == c) s).length = s.count c + 1 := by
    intro s
    induction s with
    | nil => simp [splitP]
    | cons x s ih =>
      unfold splitP
      by_cases hx : x = c
      · subst hx; simp [ih]
      · have h2 : (x == c) = false := by simpa using hx
        have hne := splitP_ne_nil (· == c) s
        cases hs : splitP (· == c) s with
        | nil => exact absurd hs hne
        | cons l ls =>
          rw [hs] at ih
          simp only [h2, List.count_cons, Bool.false_eq_true, if_false, List.length_cons] at ih ⊢
          omega
  exact this s

theorem raw_length (d : MacroDefinition) : d.raw.length = d.preceding.length + (d.body ++ d.ws3).count '\n' + 1 := by
  unfold MacroDefinition.raw
  have := splitC_length '\n' (d.body ++ d.ws3)
  split
  · rename_i h; rw [h] at this; simp at this
  · rename_i b bs h
    rw [h] at this
    simp only [List.length_cons] at this
    simp only [List.length_append, List.length_cons]
    omega

theorem _root_.Specfile.Spec.MacrosEdited.refl (may : Nat → MacroDefinition → Prop) (m : MacroDefinitions) : MacrosEdited may m m :=
  ⟨rfl, rfl, fun i d d' h h' => by rw [h] at h'; cases h'; exact .inl rfl⟩

theorem _root_.Specfile.Spec.MacrosEdited.trans {may may' : Nat → MacroDefinition → Prop} {a b c : MacroDefinitions} (h : MacrosEdited may a b)
    (g : MacrosEdited may' b c)
    (hm : ∀ i d d', a.data[i]? = some d → b.data[i]? = some d' → may' i d' → may i d) :
    MacrosEdited may a c where
  remainder := g.remainder.trans h.remainder
  length := g.length.trans h.length
  each i x z hx hz := by
    have hi : i < b.data.length := by rw [h.length]; exact (List.getElem?_eq_some_iff.mp hx).1
    have hy : b.data[i]? = some b.data[i] := List.getElem?_eq_getElem hi
    rcases h.each i x _ hx hy with h1 | ⟨h1, h2⟩
    · rcases g.each i _ z hy hz with g1 | ⟨g1, g2⟩
      · exact .inl (g1.trans h1)
      · exact .inr ⟨hm i x _ hx hy g1, by rw [← h1]; exact g2⟩
    · rcases g.each i _ z hy hz with g1 | ⟨g1, g2⟩
      · exact .inr ⟨h1, by rw [g1]; exact h2⟩
      · refine .inr ⟨h1, ?_⟩
        rw [g2, h2]

theorem _root_.Specfile.Spec.MacrosEdited.mono {may may' : Nat → MacroDefinition → Prop} {a b : MacroDefinitions} (h : MacrosEdited may a b)
    (hm : ∀ i d, a.data[i]? = some d → may i d → may' i d) : MacrosEdited may' a b where
  remainder := h.remainder
  length := h.length
  each i x z hx hz := (h.each i x z hx hz).imp_right (fun h => ⟨hm i x hx h.1, h.2⟩)

theorem syncMacro_form (e : Entity) (d : MacroDefinition) :
    syncMacro e d = { d with body := (syncMacro e d).body, commentedOut := (syncMacro e d).commentedOut } := by
  unfold syncMacro
  split
  · rfl
  · split <;> rfl

theorem edited_modify {m : MacroDefinitions} {k : Nat} {e : Entity} :
    MacrosEdited (fun i _ => i = k ∧ (e.updated = true ∨ e.flipPending = true)) m
      { m with data := m.data.modify k (syncMacro e) } where
  remainder := rfl
  length := by simp
  each i d d' h h' := by
    simp only [List.getElem?_modify, h, Option.map_eq_map, Option.map_some, Option.some.injEq] at h'
    by_cases hk : k = i
    · simp only [hk, if_true] at h'
      subst h'
      by_cases hu : e.updated = true ∨ e.flipPending = true
      · exact .inr ⟨⟨hk.symm, hu⟩, syncMacro_form e d⟩
      · left
        simp only [not_or, Bool.not_eq_true] at hu
        simp [syncMacro, hu]
    · simp only [hk, if_false] at h'
      exact .inl h'.symm

/-- the number of lines of every definition stays -/
theorem definitionLine_congr {a b : MacroDefinitions} (hl : b.data.length = a.data.length)
    (h : ∀ (i : Nat) d d', a.data[i]? = some d → b.data[i]? = some d' →
      d'.raw.length = d.raw.length ∧ d'.preceding.length = d.preceding.length) (i : Nat) :
    definitionLine b i = definitionLine a i := by
  have h1 : ∀ (i : Nat), (b.data[i]?).map (fun d => d.preceding.length) = (a.data[i]?).map (fun d => d.preceding.length) := by
    intro i
    rcases Nat.lt_or_ge i a.data.length with hi | hi
    · have hb := List.getElem?_eq_getElem (show i < b.data.length by omega)
      have ha := List.getElem?_eq_getElem hi
      rw [ha, hb]
      simp only [Option.map_some]
      rw [(h i _ _ ha hb).2]
    · rw [List.getElem?_eq_none (by omega), List.getElem?_eq_none hi]
  have h2 : b.data.map (fun d => d.raw.length) = a.data.map (fun d => d.raw.length) := by
    apply List.ext_getElem?
    intro i
    rw [List.getElem?_map, List.getElem?_map]
    rcases Nat.lt_or_ge i a.data.length with hi | hi
    · have hb := List.getElem?_eq_getElem (show i < b.data.length by omega)
      have ha := List.getElem?_eq_getElem hi
      rw [ha, hb]
      simp only [Option.map_some]
      rw [(h i _ _ ha hb).1]
    · rw [List.getElem?_eq_none (by omega), List.getElem?_eq_none hi]
  unfold definitionLine
  rw [h1, List.map_take, List.map_take, h2]

/-- bodies that may be replaced are single lines, and so are the new ones -/
structure Flat (es : List Entity) (m : MacroDefinitions) : Prop where
  values : Lines es
  bodies : ∀ d ∈ m.data, ∀ e ∈ es, e.isTag = false → e.name = d.name → '\n' ∉ d.body

theorem syncMacros_edited : ∀ (es : List Entity) (m : MacroDefinitions),
    MacrosEdited (fun i d => ∃ e ∈ es, e.isTag = false ∧ (e.updated = true ∨ e.flipPending = true) ∧ d.name = e.name ∧
      (Flat es m → definitionLine m i = e.position)) m (syncMacros es m).1 := by
  intro es
  induction es with
  | nil => intro m; exact .refl _ m
  | cons e es ih =>
    intro m
    have flat_tail : ∀ {m}, Flat (e :: es) m → Flat es m := fun h =>
      ⟨fun x hx => h.values x (by simp [hx]), fun d hd x hx => h.bodies d hd x (by simp [hx])⟩
    unfold syncMacros
    split
    · exact (ih m).mono (fun i d _ ⟨x, hx, h1, h2, h3, h4⟩ => ⟨x, by simp [hx], h1, h2, h3, fun h => h4 (flat_tail h)⟩)
    · rename_i ht
      have ht : e.isTag = false := by simpa using ht
      split
      · exact .refl _ m
      · rename_i k hk
        obtain ⟨d, hd, hn, hp⟩ := find_position hk
        have h1 : MacrosEdited (fun i d => ∃ e' ∈ e :: es, e'.isTag = false ∧ (e'.updated = true ∨ e'.flipPending = true) ∧
            d.name = e'.name ∧ (Flat (e :: es) m → definitionLine m i = e'.position)) m
            { m with data := m.data.modify k (syncMacro e) } :=
          edited_modify.mono (fun i x hx ⟨hi, hu⟩ => by
            subst hi
            rw [hd] at hx
            cases hx
            exact ⟨e, by simp, ht, hu, hn, fun _ => hp⟩)
        refine h1.trans (ih _) ?_
        rintro i x x' hx hx' ⟨y, hy, y1, y2, y3, y4⟩
        refine ⟨y, by simp [hy], y1, y2, ?_, fun hf => ?_⟩
        · rw [← y3]
          simp only [List.getElem?_modify, hx, Option.map_eq_map, Option.map_some, Option.some.injEq] at hx'
          rw [← hx']
          split
          · rw [syncMacro_form]
          · rfl
        · have key : ∀ (i : Nat) d d', m.data[i]? = some d → (m.data.modify k (syncMacro e))[i]? = some d' →
              (d'.body.count '\n' = d.body.count '\n') ∧ d'.ws3 = d.ws3 ∧ d'.preceding = d.preceding ∧ d'.name = d.name ∧
                ((i = k ∧ '\n' ∉ d'.body) ∨ d' = d) := by
            intro i x x' hx hx'
            simp only [List.getElem?_modify, hx, Option.map_eq_map, Option.map_some, Option.some.injEq] at hx'
            by_cases hki : k = i
            · simp only [hki, if_true] at hx'
              subst hki
              rw [hd] at hx
              cases hx
              subst hx'
              have hb : '\n' ∉ d.body := hf.bodies d (List.mem_of_getElem? hd) e (by simp) ht hn.symm
              have hv : '\n' ∉ (syncMacro e d).body := by
                unfold syncMacro
                split
                · exact hf.values e (by simp) ht
                · split <;> exact hb
              refine ⟨?_, by rw [syncMacro_form], by rw [syncMacro_form], by rw [syncMacro_form], .inl ⟨rfl, hv⟩⟩
              rw [List.count_eq_zero.mpr hv, List.count_eq_zero.mpr hb]
            · simp only [hki, if_false] at hx'
              subst hx'
              exact ⟨rfl, rfl, rfl, rfl, .inr rfl⟩
          have hf' : Flat es { m with data := m.data.modify k (syncMacro e) } := by
            refine ⟨(flat_tail hf).values, fun z hz w hw hwt hwn => ?_⟩
            obtain ⟨j, hj⟩ := List.mem_iff_getElem?.mp hz
            simp only at hj
            have hjl : j < m.data.length := by
              have := (List.getElem?_eq_some_iff.mp hj).1
              simpa using this
            obtain ⟨-, -, -, k4, k5⟩ := key j _ z (List.getElem?_eq_getElem hjl) hj
            rcases k5 with ⟨-, k5⟩ | k5
            · exact k5
            · rw [k5]
              exact hf.bodies _ (List.getElem_mem hjl) w (by simp [hw]) hwt (by rw [hwn, k4])
          rw [← y4 hf']
          refine (definitionLine_congr (by simp) (fun i d d' h h' => ?_) i).symm
          obtain ⟨k1, k2, k3, -, -⟩ := key i d d' h h'
          rw [raw_length, raw_length, List.count_append, List.count_append, k1, k2, k3]
          exact ⟨rfl, rfl⟩

/-! tags -/

theorem _root_.Specfile.Spec.TagsEdited.refl (may : Nat → Tag → Prop) (m : Tags) : TagsEdited may m m :=
  ⟨rfl, rfl, fun i d d' h h' => by rw [h] at h'; cases h'; exact .inl rfl⟩

theorem _root_.Specfile.Spec.TagsEdited.trans {may may' : Nat → Tag → Prop} {a b c : Tags} (h : TagsEdited may a b)
    (g : TagsEdited may' b c)
    (hm : ∀ i d d', a.data[i]? = some d → b.data[i]? = some d' → may' i d' → may i d) :
    TagsEdited may a c where
  remainder := g.remainder.trans h.remainder
  length := g.length.trans h.length
  each i x z hx hz := by
    have hi : i < b.data.length := by rw [h.length]; exact (List.getElem?_eq_some_iff.mp hx).1
    have hy : b.data[i]? = some b.data[i] := List.getElem?_eq_getElem hi
    rcases h.each i x _ hx hy with h1 | ⟨h1, h2⟩
    · rcases g.each i _ z hy hz with g1 | ⟨g1, g2⟩
      · exact .inl (g1.trans h1)
      · exact .inr ⟨hm i x _ hx hy g1, by rw [← h1]; exact g2⟩
    · rcases g.each i _ z hy hz with g1 | ⟨g1, g2⟩
      · exact .inr ⟨h1, by rw [g1]; exact h2⟩
      · refine .inr ⟨h1, ?_⟩
        rw [g2, h2]

theorem _root_.Specfile.Spec.TagsEdited.mono {may may' : Nat → Tag → Prop} {a b : Tags} (h : TagsEdited may a b)
    (hm : ∀ i d, a.data[i]? = some d → may i d → may' i d) : TagsEdited may' a b where
  remainder := h.remainder
  length := h.length
  each i x z hx hz := (h.each i x z hx hz).imp_right (fun h => ⟨hm i x hx h.1, h.2⟩)

theorem setValue_edited {m : Tags} {k : Nat} {v : Str} : TagsEdited (fun i _ => i = k) m (m.setValueAt k v) where
  remainder := rfl
  length := by simp [Tags.setValueAt]
  each i d d' h h' := by
    simp only [Tags.setValueAt, List.getElem?_modify, h, Option.map_eq_map, Option.map_some, Option.some.injEq] at h'
    by_cases hk : k = i
    · simp only [hk, if_true] at h'
      subst h'
      exact .inr ⟨hk.symm, rfl⟩
    · simp only [hk, if_false] at h'
      exact .inl h'.symm

theorem findPosTag_spec [Uni] {m : Tags} {name : Str} {p : Nat} : ∀ {l : List Tag} {i k : Nat},
    Tags.findPosLoop m name p i l = .ok k → i ≤ k ∧ ∃ d, l[k - i]? = some d ∧
      Uni.capitalize d.name = Uni.capitalize name ∧ m.position d = .ok p := by
  intro l
  induction l with
  | nil => intro i k h; simp [Tags.findPosLoop] at h
  | cons x xs ih =>
    intro i k h
    have next : Tags.findPosLoop m name p (i + 1) xs = .ok k → i ≤ k ∧ ∃ d, (x :: xs)[k - i]? = some d ∧
        Uni.capitalize d.name = Uni.capitalize name ∧ m.position d = .ok p := by
      intro h
      obtain ⟨h1, d, h2, h3⟩ := ih h
      refine ⟨by omega, d, ?_, h3⟩
      rw [show k - i = (k - (i + 1)) + 1 by omega, List.getElem?_cons_succ]; exact h2
    unfold Tags.findPosLoop at h
    split at h
    · rename_i hn
      split at h
      · cases h
      · rename_i q hq
        split at h
        · rename_i hqp
          cases h
          exact ⟨Nat.le_refl _, x, by simp, by simpa using hn, by rw [hq, hqp]⟩
        · exact next h
    · exact next h

/-- with distinct names, what is found at a place is there -/
theorem findTag_position [Uni] {m : Tags} {name : Str} {p k : Nat} (h : m.find name (some p) = .ok k) :
    ∃ d, m.data[k]? = some d ∧ Uni.capitalize d.name = Uni.capitalize name ∧ (DistinctTagNames m → tagLine m k = p) := by
  simp only [Tags.find] at h
  obtain ⟨-, d, h1, h2, h3⟩ := findPosTag_spec h
  rw [Nat.sub_zero] at h1
  refine ⟨d, h1, h2, fun hd => ?_⟩
  unfold Tags.position at h3
  split at h3
  · cases h3
  · rename_i j hj
    unfold Tags.index at hj
    rw [Find.findIdx_iff] at hj
    obtain ⟨y, j1, j2, -⟩ := hj
    have : j = k := by
      refine hd j k y d j1 h1 ?_
      simp only [Tags.eqv, Bool.and_eq_true, beq_iff_eq] at j2
      rw [j2.1.1.1.1.1]
    subst this
    cases h3
    simp [tagLine, h1]

theorem syncTags_edited [Uni] : ∀ (es : List Entity) (m : Tags),
    TagsEdited (fun i d => ∃ e ∈ es, e.isTag = true ∧ e.updated = true ∧
      Uni.capitalize d.name = Uni.capitalize e.name ∧ (DistinctTagNames m → tagLine m i = e.position)) m (syncTags es m).1 := by
  intro es
  induction es with
  | nil => intro m; exact .refl _ m
  | cons e es ih =>
    intro m
    unfold syncTags
    split
    · rename_i ht
      split
      · exact .refl _ m
      · rename_i k hk
        split
        · rename_i hu
          obtain ⟨d, hd, hn, hp⟩ := findTag_position hk
          have h1 : TagsEdited (fun i d => ∃ e' ∈ e :: es, e'.isTag = true ∧ e'.updated = true ∧
              Uni.capitalize d.name = Uni.capitalize e'.name ∧ (DistinctTagNames m → tagLine m i = e'.position)) m
              (m.setValueAt k e.value) :=
            setValue_edited.mono (fun i x hx hi => by
              subst hi
              rw [hd] at hx
              cases hx
              exact ⟨e, by simp, ht, hu, hn, hp⟩)
          refine h1.trans (ih _) ?_
          rintro i x x' hx hx' ⟨y, hy, y1, y2, y3, y4⟩
          have same : ∀ (i : Nat), ((m.setValueAt k e.value).data[i]?).map (fun x => (x.name, x.comments)) =
              (m.data[i]?).map (fun x => (x.name, x.comments)) := by
            intro i
            simp only [Tags.setValueAt, List.getElem?_modify]
            cases m.data[i]? with
            | none => rfl
            | some x => simp only [Option.map_eq_map, Option.map_some]; split <;> rfl
          have at_ : ∀ (i : Nat) x, (m.setValueAt k e.value).data[i]? = some x → ∃ x', m.data[i]? = some x' ∧
              x'.name = x.name ∧ x'.comments = x.comments := by
            intro i x hx
            have := same i
            rw [hx] at this
            cases hm : m.data[i]? with
            | none => simp [hm] at this
            | some z =>
              simp only [hm, Option.map_some, Option.some.injEq, Prod.mk.injEq] at this
              exact ⟨z, rfl, this.1.symm, this.2.symm⟩
          obtain ⟨z, hz, hz1, hz2⟩ := at_ i x' hx'
          rw [hx] at hz
          cases hz
          refine ⟨y, by simp [hy], y1, y2, by rw [hz1]; exact y3, fun hdt => ?_⟩
          have hdt' : DistinctTagNames (m.setValueAt k e.value) := by
            intro i j a b ha hb hab
            obtain ⟨a', ha', e1, -⟩ := at_ i a ha
            obtain ⟨b', hb', e2, -⟩ := at_ j b hb
            exact hdt i j a' b' ha' hb' (by rw [e1, e2, hab])
          rw [← y4 hdt']
          have l1 : ∀ (i : Nat), ((m.setValueAt k e.value).data[i]?).map (fun x => x.comments.raw.length) =
              (m.data[i]?).map (fun x => x.comments.raw.length) := by
            intro i
            have := congrArg (fun o => o.map (fun (p : Str × Comments) => p.2.raw.length)) (same i)
            simpa [Option.map_map, Function.comp_def] using this
          have l2 : (m.setValueAt k e.value).data.map (fun x => x.comments.raw.length + 1) =
              m.data.map (fun x => x.comments.raw.length + 1) := by
            apply List.ext_getElem?
            intro i
            rw [List.getElem?_map, List.getElem?_map]
            have := congrArg (fun o => o.map (· + 1)) (l1 i)
            simpa [Option.map_map, Function.comp_def] using this
          unfold tagLine
          rw [l1, List.map_take, List.map_take, l2]
        · exact (ih m).mono (fun i d _ ⟨x, hx, h1⟩ => ⟨x, by simp [hx], h1⟩)
    · exact (ih m).mono (fun i d _ ⟨x, hx, h1⟩ => ⟨x, by simp [hx], h1⟩)

end Specfile.Update
