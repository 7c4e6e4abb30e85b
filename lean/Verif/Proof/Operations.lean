import Verif.Spec.Operations
import Verif.Model.Operations
import Verif.Props.UpdateValue
import Verif.Props.Sections
import Verif.Props.Release
/-
Operations on whole spec files: helper lemmas.
-/
namespace Specfile.Ops
open Py Spec Update Props

theorem parse_preamble [Uni] {ex : Conditions.Oracle} {lines : List Str} {ss : Sections}
    (h : Sections.parse ex lines = .ok ss) : ∃ data rest, ss = preambleOf data :: rest := by
  unfold Sections.parse Sections.parseWith at h
  simp only [Sections.mk_preamble] at h
  split at h
  · cases h
  · cases h; exact ⟨_, _, rfl⟩

theorem find_package [Uni] (data : List Str) (rest : Sections) :
    Sections.find (preambleOf data :: rest) (s% "package") = .ok 0 := by
  have h : Sections.normalizedId (preambleOf data) = Uni.lower (s% "package") := by
    rw [Sections.preamble_id]; exact Sections.lower_preamble.symm
  exact (C19_find_first _ _ 0).2 ⟨[], _, rest, rfl, rfl, h, by simp⟩

theorem raw_cons [Uni] (data : List Str) (rest : Sections) :
    Sections.raw (preambleOf data :: rest) = data ++ Sections.raw rest := by
  simp [Sections.raw, Sections.raw_preamble]

/-- a block on tags that are read -/
theorem withTags_ok [Uni] {W : World} {α : Type} {lines : List Str} {t : Tags} {rest : Sections}
    (h : FileTags W lines t rest) (f : Tags → Tags × Except Err α) :
    withTags W lines f = (Tags.raw (f t).1 ++ Sections.raw rest, (f t).2) := by
  obtain ⟨data, h1, h2⟩ := h
  unfold withTags withSections
  rw [h1]
  simp only [tagsBlock, find_package, List.getElem?_cons_zero, List.set_cons_zero]
  have h2' : Tags.parse W.names (W.oracle lines) (preambleOf data).data = .ok t := h2
  rw [h2']
  simp only [Prod.mk.injEq, and_true]
  exact raw_cons _ _

/-- a block on tags that cannot be read does nothing but reading -/
theorem withTags_fails [Uni] {W : World} {lines : List Str} (h : ∀ t rest, ¬ FileTags W lines t rest) :
    ∃ l e, ∀ {α : Type} (f : Tags → Tags × Except Err α), withTags W lines f = (l, .error e) := by
  cases hs : Sections.parse (W.oracle lines) lines with
  | error e => exact ⟨lines, e, fun f => by unfold withTags withSections; rw [hs]⟩
  | ok ss =>
    obtain ⟨data, rest, rfl⟩ := parse_preamble hs
    cases ht : Tags.parse W.names (W.oracle lines) data with
    | ok t => exact absurd ⟨data, hs, ht⟩ (h t rest)
    | error e =>
      refine ⟨Sections.raw (preambleOf data :: rest), e, fun f => ?_⟩
      have h2' : Tags.parse W.names (W.oracle lines) (preambleOf data).data = .error e := ht
      unfold withTags withSections
      rw [hs]
      simp only [tagsBlock, find_package, List.getElem?_cons_zero, h2']

theorem getTag_ok [Uni] {name : Str} {t : Tags} {k : Nat} (h : TagNamed name t k) : getTag t name = .ok k := by
  have := ((C21_find_tag t name).1 k).2 h
  simp [getTag, this]

theorem getTag_none [Uni] {name : Str} {t : Tags} (h : NoTag name t) : getTag t name = .error .attributeError := by
  have := ((C21_find_tag t name).2.1).2 h
  simp [getTag, this]

theorem named_get [Uni] {name : Str} {t : Tags} {k : Nat} (h : TagNamed name t k) : ∃ x, t.data[k]? = some x ∧
    Uni.capitalize x.name = Uni.capitalize name := by
  obtain ⟨x, hx, hp, -⟩ := h
  exact ⟨x, hx, hp⟩

/-- every name is that of a tag or of none -/
theorem named_or [Uni] (name : Str) (t : Tags) : (∃ k, TagNamed name t k) ∨ NoTag name t := by
  cases h : t.find name none with
  | ok k => exact .inl ⟨k, ((C21_find_tag t name).1 k).1 h⟩
  | error e =>
    have := (C21_find_tag t name).2.2 e h
    subst this
    exact .inr ((C21_find_tag t name).2.1.1 h)

theorem named_unique [Uni] {name : Str} {t : Tags} {j k : Nat} (h1 : TagNamed name t j) (h2 : TagNamed name t k) : j = k := by
  have a := getTag_ok h1
  rw [getTag_ok h2] at a
  cases a
  rfl

theorem tagSet_iff {t t' : Tags} {k : Nat} {v : Str} : TagSet t k v t' ↔ t' = t.setValueAt k v := by
  constructor
  · intro h
    obtain ⟨d, r⟩ := t
    obtain ⟨d', r'⟩ := t'
    have h1 := h.remainder
    have h2 := h.set
    have h3 := h.others
    simp only at h1 h2 h3
    subst h1
    simp only [Tags.setValueAt, Tags.mk.injEq, and_true]
    apply List.ext_getElem?
    intro i
    rw [List.getElem?_modify]
    by_cases hi : k = i
    · subst hi
      rw [h2]
      cases d[k]? <;> simp
    · rw [h3 i (Ne.symm hi)]
      cases d[i]? <;> simp [hi]
  · rintro rfl
    refine ⟨rfl, ?_, ?_⟩
    · simp [Tags.setValueAt]
    · intro j hj
      simp [Tags.setValueAt, Ne.symm hj]

theorem valueOf_named [Uni] {name : Str} {t : Tags} {k : Nat} {x : Tag} (h : TagNamed name t k) (hx : t.data[k]? = some x) :
    valueOf name t = some x.value := by
  simp [valueOf, getTag_ok h, hx]

theorem valueOf_none [Uni] {name : Str} {t : Tags} (h : NoTag name t) : valueOf name t = none := by
  simp [valueOf, getTag_none h]

theorem assignTag_named [Uni] {name : Str} {t : Tags} {k : Nat} (v : Str) (h : TagNamed name t k) :
    assignTag name v t = (t.setValueAt k v, .ok ()) := by
  simp [assignTag, getTag_ok h]

theorem assignTag_none [Uni] {name : Str} {t : Tags} (v : Str) (h : NoTag name t) :
    assignTag name v t = (t, .error .attributeError) := by
  simp [assignTag, getTag_none h]

theorem given_iff [Uni] {raw release raw' : Str} : GivenRelease raw release raw' ↔ raw' = Release.updated raw release := by
  constructor
  · intro h
    by_cases hd : HasDist raw
    · obtain ⟨r, d, m, hd⟩ := hd
      rw [h.1 r d m hd, (C35_set_keeps_dist hd release).1]
    · rw [h.2 hd, Release.updated_none hd]
  · rintro rfl
    exact ⟨fun r d m hd => (C35_set_keeps_dist hd release).1, fun hd => Release.updated_none hd _⟩


theorem set_get (t : Tags) (i : Nat) (v : Str) (j : Nat) : (t.setValueAt i v).data[j]? =
    (t.data[j]?).map (fun x => if i = j then { x with value := v } else x) := by
  simp only [Tags.setValueAt, List.getElem?_modify]
  cases t.data[j]? <;> simp

/-- setting a value does not change which tag is found -/
theorem named_set [Uni] {name : Str} {t : Tags} {k : Nat} (h : TagNamed name t k) (i : Nat) (v : Str) :
    TagNamed name (t.setValueAt i v) k := by
  have hb : ∀ {j : Nat} {y : Tag}, (t.setValueAt i v).data[j]? = some y → ∃ x, t.data[j]? = some x ∧ y.name = x.name ∧
      y.valid = x.valid := by
    intro j y hy
    rw [set_get] at hy
    obtain ⟨x, hx, rfl⟩ := Option.map_eq_some_iff.1 hy
    refine ⟨x, hx, ?_⟩
    split <;> exact ⟨rfl, rfl⟩
  obtain ⟨x, hx, hn, hbest⟩ := h
  refine ⟨if i = k then { x with value := v } else x, by rw [set_get, hx]; rfl, ?_, ?_⟩
  · split <;> exact hn
  · rcases hbest with ⟨hv, hf⟩ | ⟨hv, hf⟩
    · refine .inl ⟨by split <;> exact hv, fun j y hj hy hny => ?_⟩
      obtain ⟨z, hz, h1, h2⟩ := hb hy
      have := hf j z hj hz (show Uni.capitalize z.name = _ by rw [← h1]; exact hny)
      simpa only [h2] using this
    · refine .inr ⟨fun y hy hny => ?_, fun j y hj hy hny => ?_⟩
      · obtain ⟨j, hj⟩ := List.getElem?_of_mem hy
        obtain ⟨z, hz, h1, h2⟩ := hb hj
        have := hv z (List.mem_of_getElem? hz) (show Uni.capitalize z.name = _ by rw [← h1]; exact hny)
        simpa only [h2] using this
      · obtain ⟨z, hz, h1, h2⟩ := hb hy
        exact hf j z hj hz (show Uni.capitalize z.name = _ by rw [← h1]; exact hny)

theorem noTag_set [Uni] {name : Str} {t : Tags} (h : NoTag name t) (i : Nat) (v : Str) : NoTag name (t.setValueAt i v) := by
  intro y hy
  obtain ⟨j, hj⟩ := List.getElem?_of_mem hy
  rw [set_get] at hj
  obtain ⟨x, hx, rfl⟩ := Option.map_eq_some_iff.1 hj
  have := h x (List.mem_of_getElem? hx)
  split <;> exact this

end Specfile.Ops
