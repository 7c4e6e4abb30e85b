import Verif.Proof.Update6
import Verif.Spec.Repeat
/-
Collecting entities again after they were written, and writing them again.
-/
namespace Specfile.Update
open Py Spec Props

/-- lists of the same length, related element by element -/
inductive Both (R : Entity → Entity → Prop) : List Entity → List Entity → Prop
  | nil : Both R [] []
  | cons {a b as bs} : R a b → Both R as bs → Both R (a :: as) (b :: bs)

theorem Both.append {R : Entity → Entity → Prop} {as bs cs ds : List Entity} (h : Both R as bs) (g : Both R cs ds) :
    Both R (as ++ cs) (bs ++ ds) := by
  induction h with
  | nil => exact g
  | cons h _ ih => exact .cons h ih

theorem Both.length {R : Entity → Entity → Prop} {as bs : List Entity} (h : Both R as bs) : bs.length = as.length := by
  induction h with
  | nil => rfl
  | cons _ _ ih => simp [ih]

theorem Both.each {R : Entity → Entity → Prop} {as bs : List Entity} (h : Both R as bs) :
    ∀ {i : Nat} {a b : Entity}, as[i]? = some a → bs[i]? = some b → R a b := by
  induction h with
  | nil => intro i a b h; simp at h
  | cons h _ ih =>
    intro i a b ha hb
    cases i with
    | zero => simp at ha hb; subst ha; subst hb; exact h
    | succ i => exact ih (by simpa using ha) (by simpa using hb)

theorem Both.insert {R : Entity → Entity → Prop} (hR : ∀ a b, R a b → b.position = a.position) {e e' : Entity} (h : R e e')
    {as bs : List Entity} (g : Both R as bs) : Both R (insertEntity e as) (insertEntity e' bs) := by
  induction g with
  | nil => exact .cons h .nil
  | cons g1 g2 ih =>
    unfold insertEntity
    rw [hR _ _ h, hR _ _ g1]
    split
    · exact .cons h (.cons g1 g2)
    · exact .cons g1 ih

theorem Both.sort {R : Entity → Entity → Prop} (hR : ∀ a b, R a b → b.position = a.position) {as bs : List Entity}
    (h : Both R as bs) : Both R (sortEntities as) (sortEntities bs) := by
  unfold sortEntities
  have key : ∀ {as bs}, Both R as bs → ∀ {xs ys}, Both R xs ys →
      Both R (as.foldl (fun acc e => insertEntity e acc) xs) (bs.foldl (fun acc e => insertEntity e acc) ys) := by
    intro as bs h
    induction h with
    | nil => intro xs ys g; exact g
    | cons h _ ih => intro xs ys g; exact ih (g.insert hR h)
  exact key h .nil

/-! positions -/

theorem position_index {m : MacroDefinitions} (hn : DistinctMacros m) {i : Nat} {d : MacroDefinition}
    (hi : m.data[i]? = some d) : m.position d = .ok (definitionLine m i) := by
  cases hp : m.position d with
  | error e =>
    unfold MacroDefinitions.position at hp
    split at hp
    · rename_i hx
      unfold MacroDefinitions.index at hx
      have := List.findIdx?_eq_none_iff.mp hx d (List.mem_of_getElem? hi)
      rw [eqv_iff.mpr rfl] at this
      cases this
    · cases hp
  | ok p =>
    obtain ⟨j, hj, rfl⟩ := position_distinct hp (List.mem_of_getElem? hi) hn
    rw [DistinctMacros.same hn hj hi rfl]

theorem tagPosition_index [Uni] {t : Tags} (hn : DistinctTagNames t) {i : Nat} {x : Tag}
    (hi : t.data[i]? = some x) : t.position x = .ok (tagLine t i) := by
  cases hp : t.position x with
  | error e =>
    unfold Tags.position at hp
    split at hp
    · rename_i hx
      unfold Tags.index at hx
      have := List.findIdx?_eq_none_iff.mp hx x (List.mem_of_getElem? hi)
      simp [Tags.eqv, Comments.eqv] at this
    · cases hp
  | ok p =>
    obtain ⟨j, hj, rfl⟩ := tagPosition_distinct hp (List.mem_of_getElem? hi) hn
    rw [hn j i x x hj hi rfl]

theorem findPos_index {m : MacroDefinitions} {name : Str} {p : Nat} {d : MacroDefinition} (hd : d.name = name)
    (hp : m.position d = .ok p) : ∀ {l : List MacroDefinition} {i k : Nat}, l[k]? = some d →
    (∀ (j : Nat) x, j < k → l[j]? = some x → x.name ≠ name) → MacroDefinitions.findPosLoop m name p i l = .ok (i + k) := by
  intro l
  induction l with
  | nil => intro i k h; simp at h
  | cons x xs ih =>
    intro i k h hb
    unfold MacroDefinitions.findPosLoop
    cases k with
    | zero =>
      simp at h
      subst h
      simp [hd, hp]
    | succ k =>
      have hx : ¬ (x.name == name) = true := by simpa using hb 0 x (by omega) rfl
      rw [if_neg hx, ih (i := i + 1) (k := k) (by simpa using h) (fun j y hj hy => hb (j + 1) y (by omega) (by simpa using hy))]
      congr 1; omega

theorem findPosTag_index [Uni] {t : Tags} {name : Str} {p : Nat} {d : Tag} (hd : Uni.capitalize d.name = Uni.capitalize name)
    (hp : t.position d = .ok p) : ∀ {l : List Tag} {i k : Nat}, l[k]? = some d →
    (∀ (j : Nat) x, j < k → l[j]? = some x → Uni.capitalize x.name ≠ Uni.capitalize name) →
    Tags.findPosLoop t name p i l = .ok (i + k) := by
  intro l
  induction l with
  | nil => intro i k h; simp at h
  | cons x xs ih =>
    intro i k h hb
    unfold Tags.findPosLoop
    cases k with
    | zero =>
      simp at h
      subst h
      simp [hd, hp]
    | succ k =>
      have hx : ¬ (Uni.capitalize x.name == Uni.capitalize name) = true := by simpa using hb 0 x (by omega) rfl
      rw [if_neg hx, ih (i := i + 1) (k := k) (by simpa using h) (fun j y hj hy => hb (j + 1) y (by omega) (by simpa using hy))]
      congr 1; omega

theorem find_index {m : MacroDefinitions} (hn : DistinctMacros m) {i : Nat} {d : MacroDefinition}
    (hi : m.data[i]? = some d) : m.find d.name (some (definitionLine m i)) = .ok i := by
  have := findPos_index (i := 0) rfl (position_index hn hi) hi (fun j x hj hx he => by
    have := DistinctMacros.same hn hx hi he; omega)
  simpa [MacroDefinitions.find] using this

theorem findTag_index [Uni] {t : Tags} (hn : DistinctTagNames t) {i : Nat} {x : Tag} {name : Str}
    (hi : t.data[i]? = some x) (hc : Uni.capitalize x.name = Uni.capitalize name) :
    t.find name (some (tagLine t i)) = .ok i := by
  have := findPosTag_index (i := 0) hc (tagPosition_index hn hi) hi (fun j y hj hy he => by
    have := hn j i y x hy hi (he.trans hc.symm); omega)
  simpa [Tags.find] using this

/-! the second time -/

/-- `e2` is the entity `e` as found again, after `es'` was written to give `m2` and `t2` -/
structure Again [Uni] (p : Nat) (es' : List Entity) (m2 : MacroDefinitions) (t2 : Tags) (e e2 : Entity) : Prop where
  name : e2.name = e.name
  isTag : e2.isTag = e.isTag
  position : e2.position = e.position
  flipPending : e2.flipPending = false
  locked : e2.locked = false
  updated : e2.updated = false
  definition : e.isTag = false → ∃ k d2, m2.data[k]? = some d2 ∧ m2.find e2.name (some e2.position) = .ok k ∧
    e2.value = d2.body ∧ ∀ e' ∈ es', e'.isTag = false → e'.name = e.name →
      (e'.updated = true → d2.body = e'.value ∧ d2.commentedOut = false) ∧ (e'.updated = false → e.position < p → d2.body = e.value)
  tag : e.isTag = true → ∃ k x2, t2.data[k]? = some x2 ∧ t2.find e2.name (some e2.position) = .ok k ∧
    e2.value = x2.value ∧ ∀ e' ∈ es', e'.isTag = true → e'.name = e.name →
      (e'.updated = true → x2.value = e'.value) ∧ (e'.updated = false → e.position < p → x2.value = e.value)

theorem macroEntities_again [Uni] {P : Nat} {ex ex2 : Str → Except Err Str} {prot : Str → Bool} {m m2 : MacroDefinitions} {t2 : Tags}
    {es' : List Entity} (hd : DistinctMacros m) (hw : DefinitionsWritten P es' m m2)
    (hx : ∀ d ∈ m2.data, ∃ x, ex2 d.body = .ok x) {es : List Entity} (h : macroEntities ex prot m m.data = .ok es) :
    ∃ es2, macroEntities ex2 prot m2 m2.data = .ok es2 ∧ Both (Again P es' m2 t2) es es2 := by
  have hd2 : DistinctMacros m2 := by
    have : m2.data.map (·.name) = m.data.map (·.name) := by
      apply List.ext_getElem?
      intro i
      rw [List.getElem?_map, List.getElem?_map]
      cases h1 : m.data[i]? with
      | none =>
        have : m2.data[i]? = none := by rw [List.getElem?_eq_none_iff, hw.length]; exact List.getElem?_eq_none_iff.mp h1
        rw [this]
      | some d =>
        have hi : i < m2.data.length := by rw [hw.length]; exact (List.getElem?_eq_some_iff.mp h1).1
        rw [List.getElem?_eq_getElem hi]
        exact congrArg some (hw.same i d _ h1 (List.getElem?_eq_getElem hi)).1
    unfold DistinctMacros
    rw [this]
    exact hd
  have key : ∀ {l : List MacroDefinition} {l2 : List MacroDefinition} {n : Nat} {es : List Entity}, l2.length = l.length →
      (∀ (i : Nat) d, l[i]? = some d → m.data[n + i]? = some d) →
      (∀ (i : Nat) d, l2[i]? = some d → m2.data[n + i]? = some d) → macroEntities ex prot m l = .ok es →
      ∃ es2, macroEntities ex2 prot m2 l2 = .ok es2 ∧ Both (Again P es' m2 t2) es es2 := by
    intro l
    induction l with
    | nil =>
      intro l2 n es hl _ _ h
      have : l2 = [] := by simpa using hl
      subst this
      simp only [macroEntities] at h
      cases h
      exact ⟨[], rfl, .nil⟩
    | cons d l ih =>
      intro l2 n es hl ha hb h
      cases l2 with
      | nil => simp at hl
      | cons d2 l2 =>
        have i1 := ha 0 d rfl
        have i2 := hb 0 d2 rfl
        rw [Nat.add_zero] at i1 i2
        obtain ⟨s1, s2, s3⟩ := hw.same n d d2 i1 i2
        have ih := fun es => ih (l2 := l2) (n := n + 1) (es := es) (by simpa using hl)
          (fun i x hi => by rw [Nat.add_assoc, Nat.add_comm 1]; exact ha (i + 1) x (by simpa using hi))
          (fun i x hi => by rw [Nat.add_assoc, Nat.add_comm 1]; exact hb (i + 1) x (by simpa using hi))
        have he : eligible prot d2 = eligible prot d := by unfold eligible; rw [s1, s2]
        unfold macroEntities at h
        unfold macroEntities
        rw [he]
        split at h
        · rename_i hel
          rw [if_pos hel]
          rw [position_index hd i1] at h
          rw [position_index hd2 i2]
          obtain ⟨x, hx⟩ := hx d2 (List.mem_of_getElem? i2)
          have hdis : ∃ b, isDisabled ex2 d2 = .ok b := by
            unfold isDisabled
            split
            · exact ⟨_, rfl⟩
            · rw [hx]; exact ⟨_, rfl⟩
          obtain ⟨b2, hb2⟩ := hdis
          simp only at h
          split at h
          · cases h
          · rename_i b _
            split at h
            · cases h
            · rename_i es1 hes
              cases h
              obtain ⟨es2, k1, k2⟩ := ih _ hes
              simp only [hb2, k1]
              refine ⟨_, rfl, .cons ⟨s1, rfl, s3, rfl, rfl, rfl, fun _ => ?_, fun h => by cases h⟩ k2⟩
              refine ⟨n, d2, i2, find_index hd2 i2, rfl, fun e' he' ht hn => ⟨?_, ?_⟩⟩
              · exact hw.updated n d d2 e' i1 i2 he' ht hn
              · exact hw.others n d d2 e' i1 i2 he' ht hn
        · rename_i hel
          rw [if_neg hel]
          exact ih _ h
  exact key (n := 0) hw.length (fun i d h => by rw [Nat.zero_add]; exact h) (fun i d h => by rw [Nat.zero_add]; exact h) h

theorem tagEntities_again [Uni] {P : Nat} {prot : Str → Bool} {t t2 : Tags} {m2 : MacroDefinitions} {es' : List Entity}
    (hd : DistinctTagNames t) (hw : TagsWritten P es' t t2)
    (hc : ∀ x ∈ t.data, Uni.capitalize (Uni.lower x.name) = Uni.capitalize x.name) {es : List Entity}
    (h : tagEntities prot t t.data = .ok es) :
    ∃ es2, tagEntities prot t2 t2.data = .ok es2 ∧ Both (Again P es' m2 t2) es es2 := by
  have back : ∀ (i : Nat) x2, t2.data[i]? = some x2 → ∃ x, t.data[i]? = some x ∧ x2.name = x.name := by
    intro i x2 h2
    have hi : i < t.data.length := by rw [← hw.length]; exact (List.getElem?_eq_some_iff.mp h2).1
    exact ⟨_, List.getElem?_eq_getElem hi, (hw.same i _ x2 (List.getElem?_eq_getElem hi) h2).1⟩
  have hd2 : DistinctTagNames t2 := by
    intro i j x y hx hy hxy
    obtain ⟨x', a1, a2⟩ := back i x hx
    obtain ⟨y', b1, b2⟩ := back j y hy
    exact hd i j x' y' a1 b1 (by rw [← a2, ← b2]; exact hxy)
  have key : ∀ {l : List Tag} {l2 : List Tag} {n : Nat} {es : List Entity}, l2.length = l.length →
      (∀ (i : Nat) d, l[i]? = some d → t.data[n + i]? = some d) →
      (∀ (i : Nat) d, l2[i]? = some d → t2.data[n + i]? = some d) → tagEntities prot t l = .ok es →
      ∃ es2, tagEntities prot t2 l2 = .ok es2 ∧ Both (Again P es' m2 t2) es es2 := by
    intro l
    induction l with
    | nil =>
      intro l2 n es hl _ _ h
      have : l2 = [] := by simpa using hl
      subst this
      simp only [tagEntities] at h
      cases h
      exact ⟨[], rfl, .nil⟩
    | cons d l ih =>
      intro l2 n es hl ha hb h
      cases l2 with
      | nil => simp at hl
      | cons d2 l2 =>
        have i1 := ha 0 d rfl
        have i2 := hb 0 d2 rfl
        rw [Nat.add_zero] at i1 i2
        obtain ⟨s1, s2, s3⟩ := hw.same n d d2 i1 i2
        have ih := fun es => ih (l2 := l2) (n := n + 1) (es := es) (by simpa using hl)
          (fun i x hi => by rw [Nat.add_assoc, Nat.add_comm 1]; exact ha (i + 1) x (by simpa using hi))
          (fun i x hi => by rw [Nat.add_assoc, Nat.add_comm 1]; exact hb (i + 1) x (by simpa using hi))
        unfold tagEntities at h
        unfold tagEntities
        rw [s1, s2]
        split at h
        · rename_i hel
          rw [if_pos hel]
          rw [tagPosition_index hd i1] at h
          rw [tagPosition_index hd2 i2]
          simp only at h
          split at h
          · cases h
          · rename_i es1 hes
            cases h
            obtain ⟨es2, k1, k2⟩ := ih _ hes
            simp only [k1]
            refine ⟨_, rfl, .cons ⟨rfl, rfl, s3, rfl, rfl, rfl, (fun h => by cases h), fun _ => ?_⟩ k2⟩
            refine ⟨n, d2, i2, findTag_index hd2 i2 ?_, rfl, fun e' he' ht hn => ⟨?_, ?_⟩⟩
            · rw [s1]; exact (hc d (List.mem_of_getElem? i1)).symm
            · exact hw.updated n d d2 e' i1 i2 he' ht hn
            · exact hw.others n d d2 e' i1 i2 he' ht hn
        · rename_i hel
          rw [if_neg hel]
          exact ih _ h
  exact key (n := 0) hw.length (fun i d h => by rw [Nat.zero_add]; exact h) (fun i d h => by rw [Nat.zero_add]; exact h) h

theorem modify_same {α : Type} {l : List α} {k : Nat} {x : α} {f : α → α} (h : l[k]? = some x) (hf : f x = x) :
    l.modify k f = l := by
  apply List.ext_getElem?
  intro i
  rw [List.getElem?_modify]
  split
  · rename_i hi; subst hi; rw [h]; simp [hf]
  · simp

theorem syncMacros_same : ∀ {es : List Entity} {m : MacroDefinitions},
    (∀ e ∈ es, e.isTag = false → ∃ k d, m.data[k]? = some d ∧ m.find e.name (some e.position) = .ok k ∧ syncMacro e d = d) →
    syncMacros es m = (m, none) := by
  intro es
  induction es with
  | nil => intro m _; rfl
  | cons e es ih =>
    intro m h
    unfold syncMacros
    split
    · exact ih (fun e he => h e (.tail _ he))
    · rename_i ht
      obtain ⟨k, d, h1, h2, h3⟩ := h e (.head _) (by simpa using ht)
      rw [h2]
      simp only [modify_same h1 h3]
      exact ih (fun e he => h e (.tail _ he))

theorem syncTags_same [Uni] : ∀ {es : List Entity} {t : Tags},
    (∀ e ∈ es, e.isTag = true → ∃ k x, t.data[k]? = some x ∧ t.find e.name (some e.position) = .ok k ∧
      (e.updated = true → x.value = e.value)) → syncTags es t = (t, none) := by
  intro es
  induction es with
  | nil => intro t _; rfl
  | cons e es ih =>
    intro t h
    unfold syncTags
    split
    · rename_i ht
      obtain ⟨k, x, h1, h2, h3⟩ := h e (.head _) ht
      rw [h2]
      simp only
      split
      · rename_i hu
        have : t.setValueAt k e.value = t := by
          unfold Tags.setValueAt
          rw [modify_same h1 (by rw [← h3 hu])]
        rw [this]
        exact ih (fun e he => h e (.tail _ he))
      · exact ih (fun e he => h e (.tail _ he))
    · exact ih (fun e he => h e (.tail _ he))

end Specfile.Update
