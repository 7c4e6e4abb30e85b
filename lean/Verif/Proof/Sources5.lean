import Verif.Proof.Sources4
/-
Sources: deletion.
-/
namespace Specfile.Sources
open Py Regex Spec

variable [Uni]

omit [Uni] in
theorem listItems_append (first k : Nat) (a b : List SourcelistEntry) : ∀ i,
    listItems first k i (a ++ b) = listItems first k i a ++ listItems first k (i + a.length) b := by
  induction a with
  | nil => intro i; simp [listItems]
  | cons e a ih =>
    intro i
    simp only [List.cons_append, listItems, ih, List.length_cons]
    rw [show i + 1 + a.length = i + (a.length + 1) by omega]

omit [Uni] in
theorem allListItems_append (first : Nat) (a b : List Sourcelist) : ∀ k,
    allListItems first k (a ++ b) = allListItems first k a ++ allListItems first (k + a.length) b := by
  induction a with
  | nil => intro i; simp [allListItems]
  | cons e a ih =>
    intro k
    simp only [List.cons_append, allListItems, ih, List.length_cons, List.append_assoc]
    rw [show k + 1 + a.length = k + (a.length + 1) by omega]

omit [Uni] in
theorem allListItems_length (first : Nat) (a : List Sourcelist) : ∀ k,
    (allListItems first k a).length = (listLocations a).length := by
  intro k
  rw [← allListItems_location first k a, List.length_map]

/-- deleting one source -/
structure Deleted (s s' : Sources) (k : Nat) : Prop where
  before : s'.items.take k = s.items.take k
  locations : s'.locations = s.locations.eraseIdx k
  tags : (∃ a t b, s.tags.data = a ++ t :: b ∧ (vals s.kind a).length = k ∧ (entryM s.kind t).isSome ∧
      s'.tags.data.map bare = (a ++ b).map bare ∧ s'.lists = s.lists) ∨
    ((vals s.kind s.tags.data).length ≤ k ∧ s'.tags = s.tags)
  same : s' = { s with tags := s'.tags, lists := s'.lists }

theorem delItem_item {s : Sources} {k : Nat} {x : SourceItem} (h : s.items[k]? = some x) :
    ∃ s', s.delItem x = (s', none) ∧ Deleted s s' k := by
  by_cases hk : k < (vals s.kind s.tags.data).length
  · obtain ⟨a, t, b, e, h1, h2, h3, rfl⟩ := items_get_tag h hk
    have hget : s.tags.data[a.length]? = some t := by rw [h1]; simp
    obtain ⟨m, out, d1, _, d2, _, d3, _⟩ := Tags.delItem_nat hget
    have he : s.tags.data.eraseIdx a.length = a ++ b := by
      rw [h1, List.eraseIdx_append_of_length_le (by omega)]
      simp
    rw [he] at d3
    have htake : m.data.take a.length = a := by rw [d2, h1, List.take_left]
    have hdata : m.data = a ++ m.data.drop a.length := by
      conv => lhs; rw [← List.take_append_drop a.length m.data, htake]
    refine ⟨{ s with tags := m }, ?_, ?_, ?_, .inl ⟨a, t, b, h1, h3, by rw [h2]; rfl, d3, rfl⟩, rfl⟩
    · simp only [delItem]
      show (match s.tags.delItem a.length with | (t, e) => ({ s with tags := t }, e)) = _
      rw [d1]
    · have hlen : (tagLoop s.kind 0 0 a).length = k := by
        have := congrArg List.length (tagLoop_numbers s.kind 0 0 a).2
        rw [List.length_map] at this
        omega
      have key : ∀ (s2 : Sources) (c : List Tag), s2.kind = s.kind → s2.tags.data = a ++ c →
          s2.items.take k = (tagLoop s.kind 0 0 a).map .tag := by
        intro s2 c hk2 hc
        unfold items getTags
        rw [hc, hk2, tagLoop_append, List.map_append, List.append_assoc, List.take_left' (by rw [List.length_map, hlen])]
      rw [key s _ rfl h1, key { s with tags := m } (m.data.drop a.length) rfl hdata]
    · rw [locations_eq, locations_eq]
      show vals s.kind m.data ++ listLocations s.lists = _
      rw [vals_of_bare d3, h1, vals_append, vals_append, vals_cons_some h2, List.append_assoc, List.append_assoc,
        List.eraseIdx_append_of_length_le (by omega), h3, Nat.sub_self]
      rfl
  · obtain ⟨la, l, lb, a, e, b, h1, h2, h3, rfl⟩ := items_get_entry h (by omega)
    have hmod : s.lists.modify la.length (fun l => { l with data := l.data.eraseIdx a.length }) =
        la ++ { l with data := a ++ b } :: lb := by
      rw [h1, Tags.modify_append, h2, List.eraseIdx_append_of_length_le (by omega)]
      simp
    refine ⟨{ s with lists := la ++ { l with data := a ++ b } :: lb }, ?_, ?_, ?_, .inr ⟨by omega, rfl⟩, rfl⟩
    · have hlt : a.length < ((s.lists[la.length]?).map (·.data.length)).getD 0 := by
        rw [h1]; simp [h2]
      simp only [delItem, if_pos hlt]
      rw [hmod]
    · have key : ∀ (s2 : Sources) (l2 : Sourcelist) (c : List SourcelistEntry), s2.tags = s.tags → s2.kind = s.kind →
          s2.lists = la ++ l2 :: lb → l2.data = a ++ c →
          s2.items.take k = s.getTags.map .tag ++ (allListItems s.firstListNumber 0 la ++
            listItems s.firstListNumber (0 + la.length) 0 a) := by
        intro s2 l2 c e1 e2 e3 e4
        have hg : s2.getTags = s.getTags := by unfold getTags; rw [e1, e2]
        unfold items
        rw [show s2.firstListNumber = s.firstListNumber by unfold firstListNumber; rw [hg], hg, e3,
          allListItems_append, allListItems, e4, listItems_append, List.append_assoc]
        rw [← List.append_assoc (allListItems s.firstListNumber 0 la), ← List.append_assoc (s.getTags.map _),
          List.take_left']
        simp only [List.length_append, List.length_map, getTags_length, allListItems_length, listItems_length]
        omega
      rw [key s l (e :: b) rfl rfl h1 h2, key { s with lists := la ++ { l with data := a ++ b } :: lb }
        { l with data := a ++ b } b rfl rfl rfl rfl]
    · rw [locations_eq, locations_eq]
      show vals s.kind s.tags.data ++ listLocations (la ++ _ :: lb) = _
      rw [h1]
      simp only [listLocations, List.flatMap_append, List.flatMap_cons, h2, List.map_append, List.map_cons] at h3 ⊢
      simp only [List.append_assoc, List.cons_append]
      rw [List.eraseIdx_append_of_length_le (by omega), List.eraseIdx_append_of_length_le (by omega),
        List.eraseIdx_append_of_length_le (by rw [List.length_map]; omega), List.length_map]
      rw [show k - (vals s.kind s.tags.data).length - (la.flatMap fun l => l.data.map (·.location)).length - a.length = 0 by
        omega]
      simp

omit [Uni] in
theorem take_eraseIdx {α : Type} (l : List α) (k j : Nat) (h : j ≤ k) : (l.eraseIdx k).take j = l.take j := by
  rw [List.eraseIdx_eq_take_drop_succ]
  by_cases hk : k ≤ l.length
  · rw [List.take_append_of_le_length (by simp; omega), List.take_take, Nat.min_eq_left h]
  · rw [List.drop_eq_nil_of_le (by omega), List.append_nil, List.take_take, Nat.min_eq_left h]

/-- deleting from the end those that satisfy a condition -/
theorem delItems_filter (p : SourceItem → Bool) (j : Nat) : ∀ (s : Sources), j ≤ s.items.length →
    ∃ s', s.delItems ((s.items.take j).reverse.filter p) = (s', none) ∧
      s'.locations = ((s.items.take j).filter (fun x => !p x)).map location ++ s.locations.drop j ∧
      s' = { s with tags := s'.tags, lists := s'.lists } := by
  induction j with
  | zero => intro s _; exact ⟨s, rfl, by simp, rfl⟩
  | succ j ih =>
    intro s hj
    have hx : s.items[j]? = some s.items[j] := List.getElem?_eq_getElem (by omega)
    have htake : s.items.take (j + 1) = s.items.take j ++ [s.items[j]] := by
      rw [List.take_add_one, hx]; rfl
    rw [htake, List.reverse_append, List.reverse_singleton, List.singleton_append, List.filter_append]
    cases hp : p s.items[j] with
    | false =>
      rw [List.filter_cons_of_neg (by simp [hp])]
      obtain ⟨s', h1, h2, h3⟩ := ih s (by omega)
      refine ⟨s', h1, ?_, h3⟩
      rw [h2, List.filter_cons_of_pos (by simp [hp]), List.map_append, List.append_assoc]
      congr 1
      have : s.locations[j]? = some (location s.items[j]) := by unfold locations; rw [List.getElem?_map, hx]; rfl
      rw [List.getElem?_eq_some_iff] at this
      obtain ⟨hl, he⟩ := this
      rw [List.drop_eq_getElem_cons hl, he]
      rfl
    | true =>
      rw [List.filter_cons_of_pos hp, delItems]
      obtain ⟨s1, d1, d2⟩ := delItem_item hx
      rw [d1]
      simp only
      have hlen : s1.items.length = s.items.length - 1 := by
        rw [items_length, d2.locations, List.length_eraseIdx, items_length, if_pos (by rw [← items_length]; omega)]
      obtain ⟨s', h1, h2, h3⟩ := ih s1 (by omega)
      rw [d2.before] at h1 h2
      refine ⟨s', h1, ?_, ?_⟩
      · rw [h2, d2.locations, List.filter_cons_of_neg (by simp [hp]), List.filter_nil, List.append_nil]
        congr 1
        rw [List.eraseIdx_eq_take_drop_succ, List.drop_left']
        rw [List.length_take, ← items_length]; omega
      · rw [h3, d2.same]

theorem remove_spec (s : Sources) (loc : Str) : ∃ s', s.remove loc = (s', none) ∧
    s'.locations = s.locations.filter (fun l => l != loc) ∧ s' = { s with tags := s'.tags, lists := s'.lists } := by
  obtain ⟨s', h1, h2, h3⟩ := delItems_filter (fun x => location x == loc) s.items.length s (Nat.le_refl _)
  rw [List.take_length] at h1 h2
  refine ⟨s', h1, ?_, h3⟩
  rw [h2, List.drop_eq_nil_of_le (by rw [items_length]; exact Nat.le_refl _), List.append_nil]
  unfold locations
  rw [List.filter_map]
  rfl

omit [Uni] in
theorem filterMap_congr' {α β : Type} {l : List α} {f g : α → Option β} (h : ∀ x ∈ l, f x = g x) :
    l.filterMap f = l.filterMap g := by
  induction l with
  | nil => rfl
  | cons x l ih =>
    rw [List.filterMap_cons, List.filterMap_cons, h x (.head _), ih (fun y hy => h y (.tail _ hy))]

/-- the elements whose positions are not among the given ones -/
theorem delItems_idx (ks : List Nat) : ∀ (s : Sources), (ks.Pairwise (· > ·)) → (∀ k ∈ ks, k < s.items.length) →
    ∃ s', s.delItems (ks.filterMap (fun k => s.items[k]?)) = (s', none) ∧
      s'.locations = s.locations.zipIdx.filterMap (fun p => if p.2 ∈ ks then none else some p.1) ∧
      s' = { s with tags := s'.tags, lists := s'.lists } := by
  induction ks with
  | nil =>
    intro s _ _
    refine ⟨s, rfl, ?_, rfl⟩
    have : ∀ (l : List Str) (n : Nat), (l.zipIdx n).filterMap (fun p => if p.2 ∈ ([] : List Nat) then none else some p.1) = l := by
      intro l
      induction l with
      | nil => intro n; rfl
      | cons x l ih => intro n; rw [List.zipIdx_cons, List.filterMap_cons_some (b := x) (by simp), ih]
    rw [this]
  | cons k ks ih =>
    intro s hp hk
    have hp := List.pairwise_cons.1 hp
    have hkl := hk k (.head _)
    have hx : s.items[k]? = some s.items[k] := List.getElem?_eq_getElem hkl
    obtain ⟨s1, d1, d2⟩ := delItem_item hx
    have hlen : s1.items.length = s.items.length - 1 := by
      rw [items_length, d2.locations, List.length_eraseIdx, items_length, if_pos (by rw [← items_length]; omega)]
    have hsame : ∀ j, j < k → s1.items[j]? = s.items[j]? := by
      intro j hj
      have := congrArg (fun l => l[j]?) d2.before
      simp only [List.getElem?_take_of_lt hj] at this
      exact this
    have hmap : ks.filterMap (fun j => s.items[j]?) = ks.filterMap (fun j => s1.items[j]?) := by
      apply filterMap_congr'
      intro j hj
      exact (hsame j (hp.1 j hj)).symm
    rw [List.filterMap_cons_some hx, delItems, d1, hmap]
    simp only
    obtain ⟨s', h1, h2, h3⟩ := ih s1 hp.2 (by intro j hj; have := hp.1 j hj; omega)
    refine ⟨s', h1, ?_, by rw [h3, d2.same]⟩
    rw [h2, d2.locations]
    -- erasing one position
    have key : ∀ (l : List Str) (n : Nat), n ≤ k → k < n + l.length →
        ((l.eraseIdx (k - n)).zipIdx n).filterMap (fun p => if p.2 ∈ ks then none else some p.1) =
        (l.zipIdx n).filterMap (fun p => if p.2 ∈ k :: ks then none else some p.1) := by
      intro l
      induction l with
      | nil => intro n _ h; simp at h; omega
      | cons x l ih2 =>
        intro n hn hl
        by_cases he : n = k
        · subst he
          rw [Nat.sub_self, List.eraseIdx_cons_zero, List.zipIdx_cons, List.filterMap_cons_none (by simp)]
          have hge : ∀ (l : List Str) (m1 m2 : Nat), n ≤ m1 → n < m2 →
              (l.zipIdx m1).filterMap (fun p => if p.2 ∈ ks then none else some p.1) =
              (l.zipIdx m2).filterMap (fun p => if p.2 ∈ n :: ks then none else some p.1) := by
            intro l
            induction l with
            | nil => intros; rfl
            | cons y l ih3 =>
              intro m1 m2 h1 h2
              have e1 : m1 ∉ ks := fun h => by have := hp.1 m1 h; omega
              have e2 : m2 ∉ n :: ks := fun h => by
                rcases List.mem_cons.1 h with h | h
                · omega
                · have := hp.1 m2 h; omega
              rw [List.zipIdx_cons, List.zipIdx_cons, 
                List.filterMap_cons_some (f := fun p => if p.2 ∈ ks then none else some p.1) (a := (y, m1)) (b := y) (if_neg e1),
                List.filterMap_cons_some (f := fun p => if p.2 ∈ n :: ks then none else some p.1) (a := (y, m2)) (b := y)
                  (if_neg e2), ih3 (m1 + 1) (m2 + 1) (by omega) (by omega)]
          exact hge l n (n + 1) (Nat.le_refl _) (by omega)
        · rw [show k - n = (k - (n + 1)) + 1 by omega, List.eraseIdx_cons_succ, List.zipIdx_cons, List.zipIdx_cons]
          have hmem : n ∈ k :: ks ↔ n ∈ ks := by simp [he]
          by_cases hin : n ∈ ks
          · rw [List.filterMap_cons_none (by simp [hin]), List.filterMap_cons_none (by simp [hin]),
              ih2 (n + 1) (by omega) (by simp at hl; omega)]
          · rw [List.filterMap_cons_some (b := x) (by simp [hin]), List.filterMap_cons_some (b := x) (by simp [hin, he]),
              ih2 (n + 1) (by omega) (by simp at hl; omega)]
    have := key s.locations 0 (Nat.zero_le _) (by rw [← items_length]; omega)
    simpa using this

theorem removeNumbered_spec (s : Sources) (n : Nat) :
    ((∀ m ∈ s.items.map itemNumber, m ≠ n) ∧ s.removeNumbered n = (s, none)) ∨
    (∃ s' k, (s.items.map itemNumber)[k]? = some n ∧ (∀ j, j < k → (s.items.map itemNumber)[j]? ≠ some n) ∧
      s.removeNumbered n = (s', none) ∧ Deleted s s' k) := by
  unfold removeNumbered
  cases hf : s.items.find? (fun x => itemNumber x == n) with
  | none =>
    refine .inl ⟨?_, rfl⟩
    rw [List.find?_eq_none] at hf
    intro m hm
    obtain ⟨x, hx, rfl⟩ := List.mem_map.1 hm
    simpa using hf x hx
  | some x =>
    rw [List.find?_eq_some_iff_append] at hf
    obtain ⟨h1, as, bs, h2, h3⟩ := hf
    have hx : s.items[as.length]? = some x := by rw [h2]; simp
    obtain ⟨s', d1, d2⟩ := delItem_item hx
    refine .inr ⟨s', as.length, ?_, ?_, d1, d2⟩
    · rw [List.getElem?_map, hx]
      simpa using h1
    · intro j hj hc
      rw [List.getElem?_map, h2, List.getElem?_append_left hj, Option.map_eq_some_iff] at hc
      obtain ⟨y, hy, hyn⟩ := hc
      have := h3 y (List.mem_of_getElem? hy)
      simp [hyn] at this

/-- whatever is deleted, locations only get lost -/
theorem delItem_sublist (s : Sources) (x : SourceItem) :
    (s.delItem x).1.locations.Sublist s.locations ∧ (s.delItem x).1.allowDuplicates = s.allowDuplicates := by
  cases x with
  | tag ts =>
    simp only [delItem]
    cases hg : s.tags.data[ts.idx]? with
    | none =>
      have : s.tags.delItem ts.idx = (s.tags, some .indexError) := by
        unfold Tags.delItem
        have : pyIndex s.tags.data.length (ts.idx : Int) = none := by
          rw [List.getElem?_eq_none_iff] at hg
          unfold pyIndex
          rw [if_pos (by omega), if_neg (by omega)]
        rw [this]
      rw [this]
      exact ⟨List.Sublist.refl _, trivial⟩
    | some t =>
      obtain ⟨m, out, d1, _, d2, _, d3, _⟩ := Tags.delItem_nat hg
      rw [d1]
      refine ⟨?_, trivial⟩
      rw [locations_eq, locations_eq]
      show (vals s.kind m.data ++ listLocations s.lists).Sublist _
      apply List.Sublist.append _ (List.Sublist.refl _)
      rw [vals_of_bare d3]
      exact ((List.eraseIdx_sublist _ _).filter _).map _
  | entry e n k i =>
    simp only [delItem]
    split
    rotate_left
    · exact ⟨List.Sublist.refl _, rfl⟩
    refine ⟨?_, rfl⟩
    rw [locations_eq, locations_eq]
    show (vals s.kind s.tags.data ++ listLocations _).Sublist _
    apply List.Sublist.append (List.Sublist.refl _)
    unfold listLocations
    have : ∀ (ls : List Sourcelist) (k : Nat), ((ls.modify k fun l => { l with data := l.data.eraseIdx i }).flatMap
        fun l => l.data.map (·.location)).Sublist (ls.flatMap fun l => l.data.map (·.location)) := by
      intro ls
      induction ls with
      | nil => intro k; simp
      | cons l ls ih =>
        intro k
        cases k with
        | zero =>
          simp only [List.modify_zero_cons, List.flatMap_cons]
          exact List.Sublist.append ((List.eraseIdx_sublist _ _).map _) (List.Sublist.refl _)
        | succ k =>
          simp only [List.modify_succ_cons, List.flatMap_cons]
          exact List.Sublist.append (List.Sublist.refl _) (ih k)
    exact this _ _

omit [Uni] in
/-- what is left of the tags, whatever is deleted -/
theorem delItem_tags (s : Sources) (x : SourceItem) :
    ((s.delItem x).1.tags.data.map bare).Sublist (s.tags.data.map bare) ∧ (s.delItem x).1.kind = s.kind := by
  cases x with
  | tag ts =>
    simp only [delItem]
    cases hg : s.tags.data[ts.idx]? with
    | none =>
      have : s.tags.delItem ts.idx = (s.tags, some .indexError) := by
        unfold Tags.delItem
        have : pyIndex s.tags.data.length (ts.idx : Int) = none := by
          rw [List.getElem?_eq_none_iff] at hg
          unfold pyIndex
          rw [if_pos (by omega), if_neg (by omega)]
        rw [this]
      rw [this]
      exact ⟨List.Sublist.refl _, rfl⟩
    | some t =>
      obtain ⟨m, out, d1, _, d2, _, d3, _⟩ := Tags.delItem_nat hg
      rw [d1]
      refine ⟨?_, rfl⟩
      show (m.data.map bare).Sublist _
      rw [d3]
      exact (List.eraseIdx_sublist _ _).map _
  | entry e n k i =>
    simp only [delItem]
    split <;> exact ⟨List.Sublist.refl _, rfl⟩

omit [Uni] in
theorem delItems_tags (xs : List SourceItem) : ∀ (s : Sources),
    ((s.delItems xs).1.tags.data.map bare).Sublist (s.tags.data.map bare) ∧ (s.delItems xs).1.kind = s.kind := by
  induction xs with
  | nil => intro s; exact ⟨List.Sublist.refl _, rfl⟩
  | cons x xs ih =>
    intro s
    have h := delItem_tags s x
    unfold delItems
    split
    · rename_i s' e he; rw [he] at h; exact h
    · rename_i s' he
      rw [he] at h
      have := ih s'
      exact ⟨this.1.trans h.1, this.2.trans h.2⟩

theorem delItems_sublist (xs : List SourceItem) : ∀ (s : Sources),
    (s.delItems xs).1.locations.Sublist s.locations ∧ (s.delItems xs).1.allowDuplicates = s.allowDuplicates := by
  induction xs with
  | nil => intro s; exact ⟨List.Sublist.refl _, rfl⟩
  | cons x xs ih =>
    intro s
    have h := delItem_sublist s x
    unfold delItems
    split
    · rename_i s' e he; rw [he] at h; exact h
    · rename_i s' he
      rw [he] at h
      have := ih s'
      exact ⟨this.1.trans h.1, this.2.trans h.2⟩

end Specfile.Sources
