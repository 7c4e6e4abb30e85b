import Verif.Proof.Sources5
import Verif.Py.Seq2
/-
Sources: reading and assigning.
-/
namespace Specfile.Sources
open Py Regex Spec

variable [Uni]

/-- the source with another location -/
def withLocation (x : SourceItem) (loc : Str) : SourceItem :=
  match x with
  | .tag ts => .tag { ts with tag := { ts.tag with value := loc } }
  | .entry e n k i => .entry { e with location := loc } n k i

omit [Uni] in
theorem location_with (x : SourceItem) (loc : Str) : location (withLocation x loc) = loc := by cases x <;> rfl

theorem setLocation_items {s : Sources} {k : Nat} {x : SourceItem} (h : s.items[k]? = some x) (loc : Str) :
    (s.setLocation x loc).items = s.items.set k (withLocation x loc) := by
  by_cases hk : k < (vals s.kind s.tags.data).length
  · obtain ⟨a, t, b, e, h1, h2, h3, rfl⟩ := items_get_tag h hk
    have hdata : (s.setLocation (.tag (srcOf a.length (nextOf 0 (ents s.kind a)) t e)) loc) =
        putData s (a ++ { t with value := loc } :: b) := by
      simp only [setLocation, Tags.setValueAt, putData, srcOf]
      rw [h1, Tags.modify_append]
    rw [hdata]
    have h2' : entryM s.kind { t with value := loc } = some e := by
      rw [← h2]; rfl
    have hents : ents s.kind (a ++ { t with value := loc } :: b) = ents s.kind s.tags.data := by
      rw [h1, ents_append, ents_append, ents_cons_some h2, ents_cons_some h2']
    have hlen : (tagLoop s.kind 0 0 a).length = k := by
      have := congrArg List.length (tagLoop_numbers s.kind 0 0 a).2
      rw [List.length_map] at this
      omega
    unfold items
    rw [firstListNumber_eq, firstListNumber_eq]
    show List.map .tag (tagLoop s.kind 0 0 (a ++ _ :: b)) ++ allListItems (nextOf 0 (ents s.kind (a ++ _ :: b))) 0 s.lists = _
    rw [hents]
    unfold getTags
    rw [h1, tagLoop_append, tagLoop_append, tagLoop_cons_some h2, tagLoop_cons_some h2']
    simp only [List.map_append, List.map_cons, List.append_assoc]
    rw [List.set_append_right _ _ (by rw [List.length_map]; omega), List.length_map, hlen, Nat.sub_self]
    simp [srcOf, withLocation]
  · obtain ⟨la, l, lb, a, e, b, h1, h2, h3, rfl⟩ := items_get_entry h (by omega)
    have hdata : (s.setLocation (.entry e (s.firstListNumber + a.length) la.length a.length) loc) =
        { s with lists := la ++ { l with data := a ++ { e with location := loc } :: b } :: lb } := by
      simp only [setLocation]
      rw [h1, Tags.modify_append, h2, Tags.modify_append]
    rw [hdata]
    unfold items
    rw [firstListNumber_eq, firstListNumber_eq]
    show s.getTags.map .tag ++ allListItems (nextOf 0 (ents s.kind s.tags.data)) 0 _ = _
    rw [h1]
    simp only [allListItems_append, allListItems, h2, listItems_append, listItems, List.append_assoc, List.cons_append]
    rw [List.set_append_right _ _ (by rw [List.length_map, getTags_length]; omega),
      List.set_append_right _ _ (by rw [List.length_map, getTags_length, allListItems_length]; omega),
      List.set_append_right _ _ (by rw [List.length_map, getTags_length, allListItems_length, listItems_length]; omega)]
    rw [List.length_map, getTags_length, allListItems_length, listItems_length,
      show k - (vals s.kind s.tags.data).length - (listLocations la).length - a.length = 0 by omega]
    simp [withLocation]

theorem setLocation_locations {s : Sources} {k : Nat} {x : SourceItem} (h : s.items[k]? = some x) (loc : Str) :
    (s.setLocation x loc).locations = s.locations.set k loc := by
  unfold locations
  rw [setLocation_items h, List.map_set, location_with]

theorem itemNumber_with (x : SourceItem) (loc : Str) : itemNumber (withLocation x loc) = itemNumber x := by
  cases x with
  | tag ts => obtain ⟨i, t, imp⟩ := ts; cases imp <;> rfl
  | entry => rfl

theorem setItems_spec (ks : List Nat) : ∀ (s : Sources) (locs : List Str), ks.Nodup → (∀ k ∈ ks, k < s.items.length) →
    ks.length ≤ locs.length →
    ∃ s', s.setItems (ks.filterMap (fun k => s.items[k]?)) locs = (s', none) ∧
      s'.items.length = s.items.length ∧ s'.items.map itemNumber = s.items.map itemNumber ∧
      (∀ j, j ∉ ks → s'.locations[j]? = s.locations[j]?) ∧
      (∀ (m k : Nat), ks[m]? = some k → s'.locations[k]? = locs[m]?) := by
  induction ks with
  | nil => intro s locs _ _ _; exact ⟨s, rfl, rfl, rfl, fun _ _ => rfl, fun m k h => by simp at h⟩
  | cons k ks ih =>
    intro s locs hn hk hl
    cases locs with
    | nil => simp at hl
    | cons loc locs =>
      obtain ⟨hn1, hn2⟩ := List.nodup_cons.1 hn
      have hkl := hk k (.head _)
      have hx : s.items[k]? = some s.items[k] := List.getElem?_eq_getElem hkl
      have hit := setLocation_items hx loc
      have hloc := setLocation_locations hx loc
      generalize hs1 : s.setLocation s.items[k] loc = s1 at hit hloc
      have hlen : s1.items.length = s.items.length := by rw [hit, List.length_set]
      have hmap : ks.filterMap (fun j => s.items[j]?) = ks.filterMap (fun j => s1.items[j]?) := by
        apply filterMap_congr'
        intro j hj
        rw [hit, List.getElem?_set_ne]
        rintro rfl
        exact hn1 hj
      rw [List.filterMap_cons_some hx, setItems, hs1, hmap]
      obtain ⟨s', g1, g2, g5, g3, g4⟩ := ih s1 locs hn2 (fun j hj => by rw [hlen]; exact hk j (.tail _ hj)) (by simpa using hl)
      refine ⟨s', g1, g2.trans hlen, ?_, ?_, ?_⟩
      · rw [g5, hit, List.map_set, itemNumber_with]
        apply List.ext_getElem?
        intro j
        by_cases hj : j = k
        · subst hj
          rw [List.getElem?_set_self (by simpa using hkl), List.getElem?_map, hx]; rfl
        · rw [List.getElem?_set_ne (by omega)]
      · intro j hj
        rw [List.mem_cons] at hj
        rw [g3 j (fun h => hj (.inr h)), hloc, List.getElem?_set_ne (fun h => hj (.inl h.symm))]
      · intro m j hm
        cases m with
        | zero =>
          simp only [List.getElem?_cons_zero, Option.some.injEq] at hm
          subst hm
          rw [g3 k hn1, hloc, List.getElem?_set_self (by rw [← items_length]; exact hkl)]
          rfl
        | succ m =>
          rw [List.getElem?_cons_succ] at hm ⊢
          exact g4 m j hm

/-! ### the highest number -/

theorem highest_eq (s : Sources) : ∀ n : Int, -1 ≤ n → (s.highest ≤ n ↔ ∀ m ∈ s.items.map itemNumber, (m : Int) ≤ n) := by
  intro n hn
  unfold highest
  have : ∀ (l : List SourceItem) (a : Int), l.foldl (fun m x => max m (itemNumber x : Int)) a ≤ n ↔
      a ≤ n ∧ ∀ m ∈ l.map itemNumber, (m : Int) ≤ n := by
    intro l
    induction l with
    | nil => intro a; simp
    | cons x l ih =>
      intro a
      rw [List.foldl_cons, ih]
      simp only [List.map_cons, List.mem_cons, forall_eq_or_imp]
      rw [Int.max_le]
      exact and_assoc
  rw [this]
  exact ⟨fun h => h.2, fun h => ⟨hn, h⟩⟩

theorem highest_ge (s : Sources) : -1 ≤ s.highest := by
  unfold highest
  have : ∀ (l : List SourceItem) (a : Int), a ≤ l.foldl (fun m x => max m (itemNumber x : Int)) a := by
    intro l
    induction l with
    | nil => intro a; exact Int.le_refl _
    | cons x l ih => intro a; rw [List.foldl_cons]; exact Int.le_trans (Int.le_max_left _ _) (ih _)
  exact this _ _

end Specfile.Sources
