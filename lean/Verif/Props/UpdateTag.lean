import Verif.Props.UpdateReading
import Verif.Proof.Operations
/-
`update_tag`: the value of a tag is updated on its own line, and the tag gets the result.
-/
namespace Specfile.Props
open Py Spec Update Ops

theorem tagsOf_unique [Uni] {W : World} {lines : List Str} {t t' : Tags} (h : TagsOf W lines t) (h' : TagsOf W lines t') :
    t = t' := by
  obtain ⟨ss, i, s, h1, h2, h3, h4⟩ := h
  obtain ⟨ss', i', s', k1, k2, k3, k4⟩ := h'
  rw [h1] at k1; cases k1
  rw [h2] at k2; cases k2
  rw [h3] at k3; cases k3
  rw [h4] at k4; cases k4
  rfl

/-- C81 (full claim: a successful call leaves the tag with a value that reads as requested). The tag that is found by its
name is the one whose value is looked at, on its line; of the file that `update_value` leaves the tag found by the same name
gets the new value, and nothing else changes. Missing: as for `C80_value_partial`, and names of tags have to be distinct for
the line to be right. -/
theorem C81_update_tag_partial [Uni] {W : World} {prot : Str → Bool} {name requested : Str} {lines l' : List Str}
    (h : updateTag W prot name requested lines = (l', .ok ())) (hs : Stable W lines)
    (hne : requested ≠ []) (hl : '\n' ∉ requested) :
    ∃ t k x p v l t2 j t3, TagsOf W lines t ∧ TagNamed name t k ∧ t.data[k]? = some x ∧
      (DistinctTagNames t → p = tagLine t k) ∧
      (∃ m es es' m' t1 t1', MacroDefinitions.parse (W.oracle lines) true lines = .ok m ∧
        Collected (W.expand lines) prot m t es ∧
        (TreeLike es p x.value → Reading (W.expand lines) es es' p x.value v requested) ∧
        TagsReplaced W m'.raw t1 t1' l ∧ (DistinctMacros m → MacrosSynced es' m m') ∧
        (DistinctTagNames t1 → (t.data.map (fun x => Uni.capitalize (Uni.lower x.name))).Nodup → TagsSynced es' t1 t1')) ∧
      TagNamed name t2 j ∧ TagSet t2 j v t3 ∧ TagsReplaced W l t2 t3 l' := by
  unfold updateTag at h
  split at h
  · cases h
  · rename_i l1 original p h1
    have e1 : l1 = lines := tags_read hs.sections hs.tags l1 (withTags_read h1)
    subst e1
    rcases withTags_cases h1 with ⟨e, -, -, hc⟩ | ⟨ss, e, -, -, hc⟩ | ⟨ss, i, s, t, g1, g2, g3, g4, -, ht⟩
    · cases hc
    · cases hc
    have hto : TagsOf W l1 t := ⟨ss, i, s, g1, g2, g3, g4⟩
    split at h
    · cases h
    · rename_i l v h2
      rcases withTags_cases h with ⟨e, -, -, hc⟩ | ⟨ss', e, -, -, hc⟩ | ⟨ss', i', s', t2, k1, k2, k3, k4, k5, ha⟩
      · cases hc
      · cases hc
      have hk : ∃ k x, TagNamed name t k ∧ t.data[k]? = some x ∧ x.value = original ∧ t.position x = .ok p := by
        rcases named_or name t with ⟨k, hk⟩ | hk
        · obtain ⟨x, hx, -⟩ := named_get hk
          refine ⟨k, x, hk, hx, ?_⟩
          simp only [tagPlace, getTag_ok hk, hx] at ht
          split at ht
          · cases ht
          · rename_i p' hp
            cases ht
            exact ⟨rfl, hp⟩
        · simp only [tagPlace, getTag_none hk] at ht; cases ht
      obtain ⟨k, x, hk, hx, rfl, hp⟩ := hk
      have hj : ∃ j, TagNamed name t2 j ∧ (assignTag name v t2).1 = t2.setValueAt j v := by
        rcases named_or name t2 with ⟨j, hj⟩ | hj
        · exact ⟨j, hj, by rw [assignTag_named v hj]⟩
        · rw [assignTag_none v hj] at ha; cases ha
      obtain ⟨j, hj, hset⟩ := hj
      obtain ⟨m, t', es, es', m', t1, t1', u1, u2, u3, u4, u5, u6, u7⟩ := C80_value_partial h2 hs hne hl
      cases tagsOf_unique hto u2
      refine ⟨t, k, x, p, v, l, t2, j, _, hto, hk, hx, fun hd => ?_, ⟨m, es, es', m', t1, t1', u1, u3, u4, u5, u6, u7⟩, hj,
        tagSet_iff.mpr rfl, ⟨ss', i', s', k1, k2, k3, k4, ?_⟩⟩
      · obtain ⟨i, hi, rfl⟩ := tagPosition_distinct hp (List.mem_of_getElem? hx) hd
        rw [hd i k x x hi hx rfl]
      · rw [k5, hset]

section
attribute [local instance] asciiUni

/-- the hypotheses of `C81_update_tag_partial` hold for the sample, see `sample_stable` -/
example : updateTag sampleWorld protectNames (s% "version") (s% "3.4") sampleSpec =
    ([s% "%global major 3", s% "%global minor 4", s% "Name: foo", s% "Version: %{major}.%{minor}", s% "Release: 1"],
      .ok ()) := by decide +kernel

/-- its entities depend on each other like a tree -/
example : TreeLike
    [⟨s% "major", s% "1", false, 0, false, false, false, false⟩, ⟨s% "minor", s% "2", false, 1, false, false, false, false⟩,
     ⟨s% "version", s% "%{major}.%{minor}", true, 3, false, false, false, false⟩,
     ⟨s% "release", s% "1", true, 4, false, false, false, false⟩] 3 (s% "%{major}.%{minor}") :=
  treeLike_of (by decide +kernel) (by decide +kernel) (by decide +kernel)

/-- C81 fails for a macro on which two others depend: the version is `2.2` afterwards, not `1.2`. -/
theorem C81_violation_shared : updateTag sampleWorld protectNames (s% "Version") (s% "1.2")
    [s% "%global c 0", s% "%global a %{c}", s% "%global b %{c}", s% "Name: foo", s% "Version: %{a}.%{b}"] =
    ([s% "%global c 2", s% "%global a %{c}", s% "%global b %{c}", s% "Name: foo", s% "Version: %{a}.%{b}"],
      .ok ()) := by decide +kernel

end

end Specfile.Props
