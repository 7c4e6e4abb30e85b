import Verif.Proof.Sources8
/-
Properties of sources and patches (C23 - C28, C63, C64).
-/
namespace Specfile.Props
open Py Spec Sources

variable [Uni]

/-! ### C23: inserting -/

/-- Unless it raises because the index is below the first one, `insert` puts the location where `list.insert` would,
and adds one tag or one entry. -/
theorem C23_insert (s : Sources) (i : Int) (loc : Str)
    (hd : s.allowDuplicates = true ∨ loc ∉ allLocations s.kind s) :
    (allLocations s.kind s ≠ [] ∧ i < -((allLocations s.kind s).length : Int) ∧
      s.insert i loc = (s, some .indexError)) ∨
    ((allLocations s.kind s ≠ [] → -((allLocations s.kind s).length : Int) ≤ i) ∧ ∃ s', s.insert i loc = (s', none) ∧
      allLocations s.kind s' = insertAt (allLocations s.kind s) (insertPos (allLocations s.kind s).length i) loc ∧
      OneMore s.kind s s' loc) := by
  rw [← locations_spec] at *
  rcases insert_cases s i loc hd with ⟨h1, h2, h3⟩ | ⟨s', a, b, n, new, h, h1, rfl, h3, h4, _⟩ |
    ⟨s', la, lb, l, a, b, new, h, h1, rfl, h3, h4⟩
  · exact .inl ⟨h2, h1, h3⟩
  · refine .inr ⟨h3, s', h, ?_, h1.oneMore⟩
    rw [← h4, ← h1.locations, locations_spec, h1.kind]
  · refine .inr ⟨h3, s', h, ?_, h1.oneMore⟩
    rw [← h4, ← h1.locations, locations_spec, h1.kind]

/-- `append` adds the location at the end -/
theorem C23_append (s : Sources) (loc : Str) (hd : s.allowDuplicates = true ∨ loc ∉ allLocations s.kind s) :
    ∃ s', s.append loc = (s', none) ∧ allLocations s.kind s' = allLocations s.kind s ++ [loc] ∧
      OneMore s.kind s s' loc := by
  have hlen : (s.len : Int) = ((allLocations s.kind s).length : Int) := by
    unfold len; rw [items_length, locations_spec]
  rcases C23_insert s s.len loc hd with ⟨_, h2, _⟩ | ⟨_, s', h1, h2, h3⟩
  · omega
  · refine ⟨s', h1, ?_, h3⟩
    rw [h2, hlen]
    unfold insertPos insertAt
    rw [if_pos (by omega)]
    simp

/-! ### C24: duplicates -/

/-- with duplicates disallowed, a location that is there is rejected and nothing changes -/
theorem C24_rejected (s : Sources) (loc : Str) (hd : s.allowDuplicates = false) (h : loc ∈ allLocations s.kind s) :
    (∀ i, s.insert i loc = (s, some .duplicateSource)) ∧ s.append loc = (s, some .duplicateSource) ∧
    (∀ n, s.insertNumbered n loc = (s, .error .duplicateSource)) := by
  rw [← locations_spec] at h
  exact ⟨fun _ => insert_dup hd h, insert_dup hd h, fun _ => insertNumbered_dup hd h⟩

/-- locations that are distinct stay so in every history -/
theorem C24_history (ops : List SourceOp) (s : Sources) (hd : s.allowDuplicates = false)
    (h : (allLocations s.kind s).Nodup) :
    (allLocations (SourceOp.runAll s ops).kind (SourceOp.runAll s ops)).Nodup := by
  rw [← locations_spec] at *
  induction ops generalizing s with
  | nil => exact h
  | cons op ops ih =>
    obtain ⟨h1, h2⟩ := run_nodup op s hd h
    exact ih _ h1 h2

/-! ### C25: numbers -/

/-- After an insertion at a non-negative index (nothing else than tags is numbered) the number of the new tag is that of
the source it comes before, or the one after the last; the tags before keep their numbers, those after it are raised only
as far as needed. Missing: negative indices, see `C25_negative_violation`. -/
theorem C25_insert_partial {s s' : Sources} {i : Int} {loc : Str} (hg : GoodNames s.kind s.tags.data)
    (hi : Spec.Increasing s.kind s.tags.data) (h0 : 0 ≤ i) (h : s.insert i loc = (s', none)) :
    GoodNames s.kind s'.tags.data ∧ Spec.Increasing s.kind s'.tags.data ∧
    (s'.tags = s.tags ∨ ∃ k p, k ≤ (tagNumbers s.kind s.tags.data).length ∧
      k = insertPos (allLocations s.kind s).length i ∧
      p = ((tagNumbers s.kind s.tags.data)[k]?).getD (((tagNumbers s.kind s.tags.data).getLast?.map (· + 1)).getD 0) ∧
      tagNumbers s.kind s'.tags.data = (tagNumbers s.kind s.tags.data).take k ++
        p :: makeRoom p ((tagNumbers s.kind s.tags.data).drop k)) := by
  obtain ⟨h1, h2⟩ := insert_numbers hg hi h0 h
  refine ⟨h1, ?_⟩
  rcases h2 with h2 | ⟨k, p, g1, g2, g3, g4⟩
  · refine ⟨?_, .inl h2⟩
    rw [h2]; exact hi
  · refine ⟨room_increasing g4 hi, .inr ⟨k, p, g1, ?_, g3, g4.1⟩⟩
    rw [← locations_spec]; exact g2

/-- numbers that increase strictly do so in every history without insertions at negative indices -/
theorem C25_history_partial (ops : List SourceOp) (s : Sources) (hf : ∀ op ∈ ops, op.Forward)
    (hg : GoodNames s.kind s.tags.data) (hi : Spec.Increasing s.kind s.tags.data) :
    GoodNames s.kind (SourceOp.runAll s ops).tags.data ∧ Spec.Increasing s.kind (SourceOp.runAll s ops).tags.data := by
  induction ops generalizing s with
  | nil => exact ⟨hg, hi⟩
  | cons op ops ih =>
    obtain ⟨h1, h2, h3⟩ := run_increasing op (hf op (.head _)) s hg hi
    have := ih (op.run s) (fun o ho => hf o (.tail _ ho)) (by rw [h1]; exact h2) (by rw [h1]; exact h3)
    rw [h1] at this
    exact this

/-! ### C26: inserting with a number -/

/-- `insert_numbered` adds one source tag at the returned index; with increasing numbers it is between the smaller and the
other numbers and these make room; where sources next to it are numbered it has the requested number. -/
theorem C26_insert_numbered (s : Sources) (n : Nat) (loc : Str)
    (hd : s.allowDuplicates = true ∨ loc ∉ allLocations s.kind s) :
    ∃ s' k, s.insertNumbered n loc = (s', .ok k) ∧
      allLocations s.kind s' = insertAt (allLocations s.kind s) k loc ∧ s'.lists = s.lists ∧ OneMore s.kind s s' loc ∧
      (GoodNames s.kind s.tags.data → Spec.Increasing s.kind s.tags.data →
        GoodNames s.kind s'.tags.data ∧ Spec.Increasing s.kind s'.tags.data ∧
        ∃ p, tagNumbers s.kind s'.tags.data = (tagNumbers s.kind s.tags.data).take k ++
            p :: makeRoom p ((tagNumbers s.kind s.tags.data).drop k) ∧
          (∀ m ∈ (tagNumbers s.kind s.tags.data).take k, m < p) ∧
          (∀ m ∈ (tagNumbers s.kind s.tags.data).drop k, p ≤ m) ∧
          (Numberable s.kind s n → p = n)) := by
  rw [← locations_spec] at hd
  obtain ⟨s', k, a, b, new, h, h1, rfl, h3, _⟩ := insertNumbered_spec s n loc hd
  refine ⟨s', k, h, ?_, ?_, h1.oneMore, ?_⟩
  · rw [← locations_spec, ← h3, ← h1.locations, locations_spec, h1.kind]
  · obtain ⟨t, ht⟩ := h1.same
    rw [ht]
  · intro hg hi
    obtain ⟨g1, p, g2, g3⟩ := insertNumbered_numbers hg hi h
    exact ⟨g1, room_increasing g2 hi, p, g2.1, g2.2.1, g2.2.2, g3⟩

/-- the source read at the returned index has the location and the number -/
theorem C26_read_back {s s' : Sources} {n k : Nat} {loc : Str} (hg : GoodNames s.kind s.tags.data)
    (hi : Spec.Increasing s.kind s.tags.data) (hn : Numberable s.kind s n)
    (h : s.insertNumbered n loc = (s', .ok k)) :
    ∃ x, s'.get k = .ok x ∧ location x = loc ∧ itemNumber x = n := by
  have hd : s.allowDuplicates = true ∨ loc ∉ allLocations s.kind s := by
    rw [← locations_spec]
    cases hd : s.allowDuplicates with
    | true => exact .inl rfl
    | false =>
      refine .inr fun hm => ?_
      rw [insertNumbered_dup hd hm] at h
      simp at h
  obtain ⟨s1, k1, g, g1, _, _, g3⟩ := C26_insert_numbered s n loc hd
  rw [g] at h
  simp only [Prod.mk.injEq, Except.ok.injEq] at h
  obtain ⟨rfl, rfl⟩ := h
  obtain ⟨q1, _, p, q2, _, _, q3⟩ := g3 hg hi
  have hp := q3 hn
  subst hp
  rw [← locations_spec] at hd
  obtain ⟨s2, k2, a, b, new, r, r1, r2, r3, _⟩ := insertNumbered_spec s p loc hd
  rw [g] at r
  simp only [Prod.mk.injEq, Except.ok.injEq] at r
  obtain ⟨rfl, rfl⟩ := r
  have hkind := r1.kind
  have hkl : k1 ≤ (tagNumbers s.kind s.tags.data).length := by
    rw [tagNumbers_eq (good_newline hg), numberEntries_length, ents_length, ← r3, r1.data, vals_append]
    simp
  have hloc : s1.locations[k1]? = some loc := by
    rw [r1.locations, r3, r2]
    unfold insertAt
    rw [List.getElem?_append_right (by simp; omega)]
    rw [List.length_take, Nat.min_eq_left]
    · simp
    · rw [locations_eq, ← r3, r1.data, vals_append]; simp
  have hitem : k1 < s1.items.length := by
    rw [items_length]
    exact (List.getElem?_eq_some_iff.1 hloc).1
  have hx : s1.items[k1]? = some s1.items[k1] := List.getElem?_eq_getElem hitem
  refine ⟨s1.items[k1], ?_, ?_, ?_⟩
  · rcases get_eq s1 k1 with ⟨h1, _⟩ | ⟨j, x, h1, h2, h3⟩
    · rw [← items_length, pyIndex_ofNat hitem] at h1; simp at h1
    · rw [← items_length, pyIndex_ofNat hitem] at h1
      simp only [Option.some.injEq] at h1
      subst h1
      rw [h3, ← Option.some.inj (h2.symm.trans hx)]
  · unfold locations at hloc
    rw [List.getElem?_map, hx] at hloc
    simpa using hloc
  · have hnum : (s1.items.map itemNumber)[k1]? = some p := by
      have : s1.items.map itemNumber = numberEntries 0 (ents s1.kind s1.tags.data) ++
          (allListItems s1.firstListNumber 0 s1.lists).map itemNumber := by
        unfold items
        rw [List.map_append, List.map_map, ← getTags_numbers]
        rfl
      rw [this, hkind, ← tagNumbers_eq (good_newline q1), q2, List.append_assoc,
        List.getElem?_append_right (by simp; omega), List.length_take, Nat.min_eq_left hkl]
      simp
    rw [List.getElem?_map, hx] at hnum
    simpa using hnum

/-! ### C27: removing -/

/-- `remove` removes the tags and entries with that location and nothing else -/
theorem C27_remove (s : Sources) (loc : Str) : ∃ s', s.remove loc = (s', none) ∧
    s'.tags.data.map bare = (s.tags.data.filter (fun t => (sourceEntry s.kind t).isNone || t.value != loc)).map bare ∧
    s'.lists = s.lists.map (fun l => { l with data := l.data.filter (fun e => e.location != loc) }) ∧
    s' = { s with tags := s'.tags, lists := s'.lists } ∧
    allLocations s.kind s' = (allLocations s.kind s).filter (fun l => l != loc) ∧ s'.count loc = 0 := by
  obtain ⟨s', h1, h2, h3, h4⟩ := remove_exact s loc
  obtain ⟨s1, g1, g2, _⟩ := remove_spec s loc
  rw [h1] at g1
  simp only [Prod.mk.injEq, and_true] at g1
  subst g1
  have hk : s'.kind = s.kind := by rw [h4]; rfl
  refine ⟨s', h1, h2, h3, h4, ?_, ?_⟩
  · rw [← locations_spec, ← g2, locations_spec, hk]
  · unfold count
    rw [g2, List.filter_filter]
    simp

/-- `remove_numbered` removes the first source with that number, or nothing -/
theorem C27_remove_numbered (s : Sources) (n : Nat) (hn : ∀ t ∈ s.tags.data, '\n' ∉ t.name) :
    (n ∉ allNumbers s.kind s ∧ s.removeNumbered n = (s, none)) ∨
    ∃ s' k, (allNumbers s.kind s)[k]? = some n ∧ (∀ j, j < k → (allNumbers s.kind s)[j]? ≠ some n) ∧
      s.removeNumbered n = (s', none) ∧ allLocations s.kind s' = (allLocations s.kind s).eraseIdx k ∧
      Shrunk s.kind s s' := by
  have hs := removeNumbered_state s n
  rcases removeNumbered_spec s n with ⟨h1, h2⟩ | ⟨s', k, h1, h2, h3, h4⟩
  · rw [numbers_spec hn] at h1
    exact .inl ⟨fun h => h1 n h rfl, h2⟩
  · rw [numbers_spec hn] at h1 h2
    rw [h3] at hs
    refine .inr ⟨s', k, h1, h2, h3, ?_, hs⟩
    rw [← locations_spec, ← h4.locations, locations_spec, shrunk_kind hs]

/-- deleting at an index -/
theorem C27_del (s : Sources) (i : Int) :
    (pyIndex (allLocations s.kind s).length i = none ∧ s.del i = (s, some .indexError)) ∨
    ∃ s' k, pyIndex (allLocations s.kind s).length i = some k ∧ s.del i = (s', none) ∧
      allLocations s.kind s' = (allLocations s.kind s).eraseIdx k ∧ Shrunk s.kind s s' := by
  rw [← locations_spec]
  unfold del
  rcases get_eq s i with ⟨h1, h2⟩ | ⟨k, x, h1, h2, h3⟩
  · rw [h2]; exact .inl ⟨h1, rfl⟩
  · obtain ⟨s', g1, g2, g3⟩ := delItem_shrunk h2
    rw [h3]
    refine .inr ⟨s', k, h1, g1, ?_, g3⟩
    rw [← g2.locations, locations_spec, shrunk_kind g3]

/-- Deleting a slice with a positive step. Missing: negative steps, see `C27_slice_violation`. -/
theorem C27_del_slice_partial (s : Sources) {start stop step : Option Int} (hs : 0 < step.getD 1) {ks : List Nat}
    (h : sliceIndices (allLocations s.kind s).length start stop step = .ok ks) :
    ∃ s', s.delSlice start stop step = (s', none) ∧
      allLocations s.kind s' = (allLocations s.kind s).zipIdx.filterMap (fun p => if p.2 ∈ ks then none else some p.1) ∧
      Shrunk s.kind s s' := by
  rw [← locations_spec] at *
  have hsh : Shrunk s.kind s (s.delSlice start stop step).1 := delSlice_state hs
  rw [delSlice_eq h] at *
  obtain ⟨h1, h2⟩ := increasing_pairwise' (sliceIndices_increasing hs h)
  obtain ⟨s', h3, h4, _⟩ := delItems_idx ks.reverse s (List.pairwise_reverse.2 h1) (by
    intro k hk
    rw [items_length]; exact h2 k (List.mem_reverse.1 hk))
  rw [h3] at hsh
  refine ⟨s', h3, ?_, hsh⟩
  rw [← shrunk_kind hsh, ← locations_spec, h4]
  simp only [List.mem_reverse]

/-! ### C28: add_patch -/

/-- a number that is not above all numbers is rejected and nothing changes -/
theorem C28_rejected (s : Sources) (loc : Str) (n : Int) (c : Option Str) (init : Int)
    (hn : ∀ t ∈ s.tags.data, '\n' ∉ t.name) (h : n < 0 ∨ ∃ m ∈ allNumbers s.kind s, n ≤ (m : Int)) :
    s.addPatch loc (some n) c init = (s, some .sourceNumber) := by
  have hle : n ≤ s.highest := by
    by_cases hneg : n < 0
    · have := highest_ge s; omega
    · obtain ⟨m, hm, hnm⟩ := h.resolve_left hneg
      have := (highest_eq s s.highest (highest_ge s)).1 (Int.le_refl _)
      rw [numbers_spec hn] at this
      have := this m hm
      omega
  unfold addPatch
  simp only [if_pos hle]

/-- nothing is rejected for its number otherwise -/
theorem C28_accepted (s s' : Sources) (loc : Str) (n : Option Int) (c : Option Str) (init : Int)
    (hn : ∀ t ∈ s.tags.data, '\n' ∉ t.name) (h : s.addPatch loc n c init = (s', some .sourceNumber)) :
    s' = s ∧ ∃ k, n = some k ∧ (k < 0 ∨ ∃ m ∈ allNumbers s.kind s, k ≤ (m : Int)) := by
  have hin : ∀ m : Nat, ∀ r : Except Err Nat, (s.insertNumbered m loc).2 = r → r ≠ .error .sourceNumber := by
    rintro m r rfl
    by_cases hd : s.allowDuplicates = true ∨ loc ∉ s.locations
    · obtain ⟨s', k, a, b, new, h, _⟩ := insertNumbered_spec s m loc hd
      rw [h]; simp
    · have hd' : s.allowDuplicates = false ∧ loc ∈ s.locations := by
        refine ⟨?_, Decidable.of_not_not fun h => hd (.inr h)⟩
        cases h : s.allowDuplicates with
        | false => rfl
        | true => exact absurd (.inl h) hd
      rw [insertNumbered_dup hd'.1 hd'.2]; simp
  have hgo : ∀ m : Nat, s.addPatchAt m loc c ≠ (s', some .sourceNumber) := by
    intro m hm
    unfold addPatchAt at hm
    have := hin m _ rfl
    cases hr : s.insertNumbered m loc with
    | mk s2 r =>
      rw [hr] at hm this
      cases r with
      | error e => simp at hm this; exact this hm.2
      | ok i =>
        cases c with
        | none => simp at hm
        | some c =>
          simp only at hm
          split at hm
          · simp at hm
          · split at hm
            · rename_i e he
              have : e = .indexError := by
                unfold Sources.get at he
                split at he
                · simpa using he.symm
                · split at he
                  · simpa using he.symm
                  · cases he
              subst this
              simp at hm
            · simp at hm
  unfold addPatch at h
  cases n with
  | none => exact absurd h (hgo _)
  | some k =>
    simp only at h
    split at h
    · rename_i hk
      simp only [Prod.mk.injEq, and_true] at h
      refine ⟨h.symm, k, rfl, ?_⟩
      by_cases h0 : k < 0
      · exact .inl h0
      · refine .inr ?_
        apply Decidable.of_not_not
        intro hno
        have : s.highest ≤ k - 1 := by
          rw [highest_eq s _ (by omega), numbers_spec hn]
          intro m hm
          apply Decidable.of_not_not
          intro hlt
          exact hno ⟨m, hm, by omega⟩
        omega
    · exact absurd h (hgo _)

omit [Uni] in
theorem pairwise_getLast {ns : List Nat} (h : ns.Pairwise (· < ·)) {k m l : Nat} (hk : ns[k]? = some m)
    (hl : ns.getLast? = some l) (hne : k + 1 ≠ ns.length) : m < l := by
  rw [List.getLast?_eq_getElem?] at hl
  obtain ⟨h1, rfl⟩ := List.getElem?_eq_some_iff.1 hk
  obtain ⟨h2, rfl⟩ := List.getElem?_eq_some_iff.1 hl
  exact List.pairwise_iff_getElem.1 h k (ns.length - 1) h1 h2 (by omega)

/-- a number above all others can be given if the last source tag has one -/
theorem numberable_above {s : Sources} {n : Nat}
    (hi : Spec.Increasing s.kind s.tags.data) (hl : LastNumbered s.kind s)
    (hn : ∀ m ∈ tagNumbers s.kind s.tags.data, m < n) : Numberable s.kind s n := by
  have hlen : (tagNumbers s.kind s.tags.data).length = (Spec.sourceTags s.kind s.tags.data).length := by
    unfold tagNumbers; rw [numberEntries_length, List.length_map]
  unfold LastNumbered at hl
  refine ⟨fun h => ?_, fun k m loc hk hm => ?_⟩
  · rw [h] at hl; exact hl
  · have hkl := (List.getElem?_eq_some_iff.1 hk).1
    cases hlast : (tagNumbers s.kind s.tags.data).getLast? with
    | none =>
      rw [List.getLast?_eq_none_iff] at hlast
      rw [hlast] at hm; simp at hm
    | some l =>
      have hlm : l ∈ tagNumbers s.kind s.tags.data := List.mem_of_getLast? hlast
      refine ⟨l, hlm, ?_⟩
      have hlt : m < l := by
        apply pairwise_getLast hi hm hlast
        intro he
        rw [hlen] at he
        have : (Spec.sourceTags s.kind s.tags.data).getLast? = some (none, loc) := by
          rw [List.getLast?_eq_getElem?, ← he]; exact hk
        rw [this] at hl
        exact hl rfl
      have := hn l hlm
      unfold difference
      omega

/-- `add_patch` adds one patch tag after the other ones. Its number is the given one, which is above all numbers, or the
least one that is above all numbers and not below the initial one. The lines of the comment are above the new tag. -/
theorem C28_add_patch (s : Sources) (loc : Str) (n : Option Int) (c : Option Str) (init : Int) (N : Nat)
    (hg : GoodNames s.kind s.tags.data) (hi : Spec.Increasing s.kind s.tags.data)
    (hd : s.allowDuplicates = true ∨ loc ∉ allLocations s.kind s) (hlast : LastNumbered s.kind s)
    (hN : ∀ m ∈ allNumbers s.kind s, m < N)
    (hn : n = some (N : Int) ∨ n = none ∧ init ≤ N ∧ ∀ M : Nat, init ≤ M → (∀ m ∈ allNumbers s.kind s, m < M) → N ≤ M) :
    ∃ s', s.addPatch loc n c init = (s', none) ∧
      allLocations s.kind s' = insertAt (allLocations s.kind s) (tagNumbers s.kind s.tags.data).length loc ∧
      tagNumbers s.kind s'.tags.data = tagNumbers s.kind s.tags.data ++ [N] ∧ OneMore s.kind s s' loc ∧
      ∃ a t b, s'.tags.data = a ++ t :: b ∧ (Spec.sourceTags s.kind a).length = (tagNumbers s.kind s.tags.data).length ∧
        t.value = loc ∧ sourceEntry s.kind t = some (some N) ∧ t.comments.data = commentLines c := by
  have hnl := good_newline hg
  have hhi : s.highest ≤ (N : Int) - 1 := by
    rw [highest_eq s _ (by omega), numbers_spec hnl]
    intro m hm; have := hN m hm; omega
  have htN : ∀ m ∈ tagNumbers s.kind s.tags.data, m < N := fun m hm => hN m (by
    unfold allNumbers; exact List.mem_append_left _ hm)
  -- the insertion
  have hd' := hd
  rw [← locations_spec] at hd'
  obtain ⟨s1, k, a, b, new, g, g1, g2, g3, ⟨t, gt1, gt2⟩, g4⟩ := insertNumbered_spec s N loc hd'
  obtain ⟨q1, p, ⟨q2, q3, q4⟩, q5⟩ := insertNumbered_numbers hg hi g
  have hp := q5 (numberable_above hi hlast htN)
  subst hp
  have hdrop : (tagNumbers s.kind s.tags.data).drop k = [] := by
    cases hdr : (tagNumbers s.kind s.tags.data).drop k with
    | nil => rfl
    | cons m r =>
      have h1 : m ∈ (tagNumbers s.kind s.tags.data).drop k := by rw [hdr]; exact .head _
      have h2 := q4 m h1
      have h3 := htN m ((List.drop_sublist _ _).subset h1)
      omega
  have hvl : (vals s.kind s.tags.data).length = (tagNumbers s.kind s.tags.data).length := by
    rw [tagNumbers_eq hnl, numberEntries_length, ents_length]
  have hk : k = (tagNumbers s.kind s.tags.data).length := by
    apply Nat.le_antisymm
    · rw [← hvl, ← g3, g1.data, vals_append]; simp
    · rw [List.drop_eq_nil_iff] at hdrop; exact hdrop
  have hnums : tagNumbers s.kind s1.tags.data = tagNumbers s.kind s.tags.data ++ [p] := by
    rw [q2, hdrop, hk, List.take_length]; rfl
  -- where the tag is
  have hdata1 : s1.tags.data = s1.tags.data.take a.length ++ t :: s1.tags.data.drop (a.length + 1) := by
    obtain ⟨hlt, he⟩ := List.getElem?_eq_some_iff.1 gt1
    rw [← he, List.getElem_cons_drop, List.take_append_drop]
  have hva : vals s.kind (s1.tags.data.take a.length) = vals s.kind a := by
    apply vals_of_apart (kind_isKind s)
    have := congrArg (List.take a.length) g1.result
    rw [← List.map_take, List.map_append, List.take_left' (by simp)] at this
    exact this
  have hal : (s1.tags.data.take a.length).length = a.length := by
    have := (List.getElem?_eq_some_iff.1 gt1).1
    rw [List.length_take]; omega
  have htv : t.value = loc := by rw [← g2]; exact congrArg (fun x => x.value) gt2
  have htc : t.comments.data = [] := by
    have : t.comments.data = new.comments.data := congrArg (fun x => x.comments.data) gt2
    rw [this]; exact g1.new.plain.1
  have hte : sourceEntry s.kind t = some (some p) := by
    have hnt : '\n' ∉ t.name := good_newline q1 t (by rw [hdata1]; simp)
    have hnew : ∃ e, entryM s.kind t = some e := by
      obtain ⟨e, he⟩ := g1.source
      refine ⟨e, ?_⟩
      rw [← entryM_bare, gt2, entryM_bare]; exact he
    obtain ⟨e, he⟩ := hnew
    rw [← entryM_eq hnt, he]
    -- the number is in the name
    have hcan := canNumber_of hg (numberable_above hi hlast htN)
    have hentsA : ents s.kind (s1.tags.data.take a.length) ++ e :: ents s.kind (s1.tags.data.drop (a.length + 1)) =
        ents s.kind s1.tags.data := by
      conv => rhs; rw [hdata1]
      rw [ents_append, ents_cons_some he]
    have hname := g1.new
    by_cases hemp : Spec.sourceTags s.kind s.tags.data = []
    · have hcfg := hcan.1 (by rw [ents_eq hnl, hemp]; rfl)
      have hnm := (hname.first hemp).1
      rw [if_neg (by simp [hcfg.1, hcfg.2])] at hnm
      have : t.name = s.kind ++ padded s.digits p := by
        rw [← hnm]; exact congrArg (fun x => x.name) gt2
      have := entryM_digits (kind_isKind s) (zeroPad_digits s.digits p) (zeroPad_ne_nil _ _) this
      rw [decVal_zeroPad, he] at this
      exact this
    · obtain ⟨ref, hr1, hr2, hr3, _, _⟩ := hname.near hemp
      -- `ref` is the last source tag
      have hvb : vals s.kind b = [] := by
        apply List.length_eq_zero_iff.1
        have h1 := hvl
        rw [g1.data, vals_append, List.length_append, g3, ← g1.data] at h1
        omega
      have hrefa : a.getLast? = some ref := by
        rcases hr1 with hb | ha
        · exfalso
          cases hbb : b with
          | nil => rw [hbb] at hb; simp at hb
          | cons r b' =>
            rw [hbb] at hb hvb
            simp only [List.head?_cons, Option.some.injEq] at hb
            subst hb
            rw [← entryM_isSome] at hr2
            obtain ⟨e', he'⟩ := Option.isSome_iff_exists.1 hr2
            rw [vals_cons_some he'] at hvb
            simp at hvb
        · exact ha
      have hmem : ref ∈ s.tags.data := by rw [g1.data]; exact List.mem_append_left _ (List.mem_of_getLast? hrefa)
      have hnr := hnl ref hmem
      have hlr : (Spec.sourceTags s.kind s.tags.data).getLast? = (sourceEntry s.kind ref).map (fun e => (e, ref.value)) := by
        obtain ⟨a', rfl⟩ : ∃ a', a = a' ++ [ref] := by
          have hne : a ≠ [] := by rintro rfl; simp at hrefa
          rw [List.getLast?_eq_some_getLast hne] at hrefa
          refine ⟨a.dropLast, ?_⟩
          rw [← Option.some.inj hrefa, List.dropLast_concat_getLast hne]
        have hb0 : Spec.sourceTags s.kind b = [] := sourceTags_nil.2 hvb
        unfold Spec.sourceTags at hb0 ⊢
        rw [g1.data, List.filterMap_append, hb0, List.append_nil, List.filterMap_append]
        obtain ⟨e', he'⟩ := Option.isSome_iff_exists.1 hr2
        rw [List.filterMap_cons_some (b := (e', ref.value)) (by rw [he']; rfl), he']
        simp
      have hrn : ∃ m, sourceEntry s.kind ref = some (some m) := by
        obtain ⟨e', he'⟩ := Option.isSome_iff_exists.1 hr2
        unfold LastNumbered at hlast
        rw [hlr, he'] at hlast
        cases e' with
        | none => exact absurd rfl hlast
        | some m => exact ⟨m, he'⟩
      obtain ⟨m, hrm⟩ := hrn
      have hdg := (hg ref hmem).2 m hrm
      have hcap : Uni.capitalize ref.name ≠ s.kind := by
        intro hc
        unfold sourceEntry at hrm
        rw [if_pos hc] at hrm
        simp at hrm
      have hnm : t.name = newName s.kind ref p := by
        rw [← hr3 hnr]; exact congrArg (fun x => x.name) gt2
      have hrw := (newName_eq (k := s.kind) hnr p).2 hcap
      rw [hrw] at hnm
      obtain ⟨e1, _⟩ := reTag_entry (kind_isKind s) (t := ref) p (goodM_of hg ref hmem m (by rw [entryM_eq hnr]; exact hrm))
      have : entryM s.kind (reTag s.kind ref p) = entryM s.kind t := by
        have hh : (reTag s.kind ref p).name = t.name := by rw [hnm]; rfl
        unfold entryM Tags.normalizedName number
        rw [hh]
      rw [this] at e1
      rw [← he, e1]
  have hcnt : (Spec.sourceTags s.kind (s1.tags.data.take a.length)).length = (tagNumbers s.kind s.tags.data).length := by
    have : (vals s.kind (s1.tags.data.take a.length)).length = (Spec.sourceTags s.kind (s1.tags.data.take a.length)).length := by
      rw [vals_eq, List.length_map]
    rw [← this, hva, g3, hk]
  have hkind := g1.kind
  have hloc1 : allLocations s.kind s1 = insertAt (allLocations s.kind s) (tagNumbers s.kind s.tags.data).length loc := by
    rw [← hk, ← g3, ← g2, ← locations_spec s, ← g1.locations, locations_spec, hkind]
  -- the item that is read
  have hget : s1.get k = .ok (.tag (srcOf a.length (nextOf 0 (ents s.kind (s1.tags.data.take a.length))) t (some p))) := by
    obtain ⟨x, hx1, _⟩ := C26_read_back hg hi (numberable_above hi hlast htN) g
    rcases get_eq s1 k with ⟨_, h2⟩ | ⟨j, y, h1, h2, h3⟩
    · rw [hx1] at h2; cases h2
    · rw [h3]
      have hvl1 : k < (vals s1.kind s1.tags.data).length := by
        rw [hkind]
        have : (vals s.kind s1.tags.data).length = (tagNumbers s.kind s1.tags.data).length := by
          rw [tagNumbers_eq (good_newline q1), numberEntries_length, ents_length]
        rw [this, hnums, hk]; simp
      rw [pyIndex_ofNat (by rw [locations_eq, List.length_append]; omega)] at h1
      simp only [Option.some.injEq] at h1
      subst h1
      obtain ⟨a', t', b', e', r1, r2, r3, rfl⟩ := items_get_tag h2 hvl1
      rw [hkind] at r2 r3
      have hte' : entryM s.kind t = some (some p) := by
        rw [entryM_eq (good_newline q1 t (by rw [hdata1]; simp))]; exact hte
      obtain ⟨u1, u2, u3⟩ := source_unique (k := s.kind) (hdata1 ▸ r1 : _ = a' ++ t' :: b') (by rw [hte']; rfl)
        (by rw [r2]; rfl) (by rw [hva, g3, r3])
      subst u2
      rw [hte'] at r2
      cases r2
      rw [hkind, ← u1, hal]
  -- the whole
  have hres : ∀ r, r = s.addPatchAt p loc c →
      ∃ s', r = (s', none) ∧
      allLocations s.kind s' = insertAt (allLocations s.kind s) (tagNumbers s.kind s.tags.data).length loc ∧
      tagNumbers s.kind s'.tags.data = tagNumbers s.kind s.tags.data ++ [p] ∧ OneMore s.kind s s' loc ∧
      ∃ a t b, s'.tags.data = a ++ t :: b ∧ (Spec.sourceTags s.kind a).length = (tagNumbers s.kind s.tags.data).length ∧
        t.value = loc ∧ sourceEntry s.kind t = some (some p) ∧ t.comments.data = commentLines c := by
    intro r hr
    unfold addPatchAt at hr
    rw [g] at hr
    simp only at hr
    have plain : commentLines c = [] → ∃ s', (s1, (none : Option Err)) = (s', none) ∧
        allLocations s.kind s' = insertAt (allLocations s.kind s) (tagNumbers s.kind s.tags.data).length loc ∧
        tagNumbers s.kind s'.tags.data = tagNumbers s.kind s.tags.data ++ [p] ∧ OneMore s.kind s s' loc ∧
        ∃ a t b, s'.tags.data = a ++ t :: b ∧
          (Spec.sourceTags s.kind a).length = (tagNumbers s.kind s.tags.data).length ∧
          t.value = loc ∧ sourceEntry s.kind t = some (some p) ∧ t.comments.data = commentLines c := by
      intro hc
      exact ⟨s1, rfl, hloc1, hnums, g2 ▸ g1.oneMore, _, t, _, hdata1, hcnt, htv, hte, by rw [htc, hc]⟩
    cases c with
    | none => subst hr; exact plain rfl
    | some c =>
      simp only at hr
      by_cases hce : c.isEmpty = true
      · rw [if_pos hce] at hr
        subst hr
        apply plain
        have : c = [] := by simpa using hce
        subst this
        rfl
      · rw [if_neg hce, hget] at hr
        simp only at hr
        subst hr
        generalize hx : SourceItem.tag (srcOf a.length (nextOf 0 (ents s.kind (s1.tags.data.take a.length))) t (some p)) = x
        obtain ⟨e1, e2, e3, e4, e5⟩ := extendComments_same s1 x (splitlines c)
        rw [hkind] at e2 e4 e5
        have hgood' := e5 q1
        have hdata' : (s1.extendComments x (splitlines c)).tags.data = s1.tags.data.take a.length ++
            { t with comments := t.comments.extend (splitlines c) } :: s1.tags.data.drop (a.length + 1) := by
          rw [← hx]
          show s1.tags.data.modify a.length _ = _
          conv => lhs; rw [hdata1]
          have key : ∀ (A B : List Tag) (n : Nat) (f : Tag → Tag), A.length = n → (A ++ t :: B).modify n f = A ++ f t :: B := by
            rintro A B n f rfl; exact Tags.modify_append _ _ _ _
          exact key _ _ _ _ hal
        have hcom : (Comments.extend t.comments (splitlines c)).data = commentLines (some c) := by
          unfold Comments.extend commentLines
          rw [htc]; rfl
        refine ⟨_, rfl, ?_, ?_, ?_, _, _, _, hdata', hcnt, htv, ?_, hcom⟩
        · rw [← hloc1, ← hkind, ← locations_spec, ← e1, locations_spec, e2, hkind]
        · rw [tagNumbers_eq (good_newline hgood'), e4, ← tagNumbers_eq (good_newline q1), hnums]
        · refine .tag a b { new with comments := new.comments.extend (splitlines c) } g1.data g2 ?_ ?_ ?_
          · obtain ⟨e, he⟩ := g1.source
            have : entryM s.kind { new with comments := new.comments.extend (splitlines c) } = entryM s.kind new := rfl
            rw [← entryM_isSome, this, he]; rfl
          · rw [hdata']
            have hr := g1.result
            rw [hdata1] at hr
            simp only [List.map_append, List.map_cons] at hr ⊢
            obtain ⟨v1, v2⟩ := List.append_inj hr (by rw [List.length_map, List.length_map, hal])
            obtain ⟨v3, v4⟩ := List.cons.inj v2
            rw [v1, v4]
            congr 2
            obtain ⟨e, he⟩ := g1.source
            have he' : entryM s.kind t = some e := by rw [← entryM_bare, gt2, entryM_bare]; exact he
            rw [apart_some (e := e) (show entryM s.kind { t with comments := t.comments.extend (splitlines c) } = some e from he'),
              apart_some (e := e) (show entryM s.kind { new with comments := new.comments.extend (splitlines c) } = some e from he)]
            have f1 := congrArg (fun x => x.value) gt2
            have f2 := congrArg (fun x => x.valid) gt2
            have f3 := congrArg (fun x => x.pfx) gt2
            have f4 := congrArg (fun x => x.sfx) gt2
            have f5 := congrArg (fun x => x.comments.data) gt2
            simp only [bare] at f1 f2 f3 f4 f5
            simp only [bare, Comments.extend, f1, f2, f3, f4, f5]
          · obtain ⟨tags, ht⟩ := g1.same
            rw [← hx, ht]
            rfl
        · exact hte
  unfold addPatch
  rcases hn with rfl | ⟨rfl, h1, h2⟩
  · simp only
    rw [if_neg (by omega)]
    exact hres _ (by simp)
  · simp only
    have hmax : (max (s.highest + 1) init).toNat = p := by
      apply Nat.le_antisymm
      · omega
      · apply h2
        · omega
        · intro m hm
          have := (highest_eq s s.highest (highest_ge s)).1 (Int.le_refl _) m (by rw [numbers_spec hnl]; exact hm)
          omega
    exact hres _ (by rw [hmax])

/-! ### C63: reading and assigning -/

/-- sources read like a list of locations -/
theorem C63_read (s : Sources) : s.items.map location = allLocations s.kind s ∧
    s.len = (allLocations s.kind s).length ∧
    (∀ loc, s.contains loc = true ↔ loc ∈ allLocations s.kind s) ∧
    (∀ loc, s.count loc = (allLocations s.kind s).count loc) ∧
    ((∀ t ∈ s.tags.data, '\n' ∉ t.name) → s.items.map itemNumber = allNumbers s.kind s) := by
  rw [← locations_spec]
  refine ⟨rfl, items_length s, ?_, ?_, fun h => numbers_spec h⟩
  · intro loc; unfold Sources.contains; simp
  · intro loc; unfold Sources.count; rw [List.count_eq_countP, List.countP_eq_length_filter]

/-- an index reads the source there -/
theorem C63_get (s : Sources) (i : Int) :
    (pyIndex (allLocations s.kind s).length i = none ∧ s.get i = .error .indexError) ∨
    ∃ k x, pyIndex (allLocations s.kind s).length i = some k ∧ s.get i = .ok x ∧
      (allLocations s.kind s)[k]? = some (location x) ∧
      ((∀ t ∈ s.tags.data, '\n' ∉ t.name) → (allNumbers s.kind s)[k]? = some (itemNumber x)) := by
  rw [← locations_spec]
  rcases get_eq s i with h | ⟨k, x, h1, h2, h3⟩
  · exact .inl h
  · refine .inr ⟨k, x, h1, h3, ?_, fun hn => ?_⟩
    · unfold locations; rw [List.getElem?_map, h2]; rfl
    · rw [← numbers_spec hn, List.getElem?_map, h2]; rfl

/-- A slice that is not empty reads the sources there. Missing: empty slices, see `C63_slice_violation`. -/
theorem C63_slice_partial (s : Sources) {start stop step : Option Int} {ks : List Nat} (hne : ks ≠ [])
    (h : sliceIndices (allLocations s.kind s).length start stop step = .ok ks) :
    ∃ xs, s.getSlice start stop step = .ok xs ∧
      xs.map location = ks.filterMap (fun k => (allLocations s.kind s)[k]?) ∧ xs.length = ks.length := by
  rw [← locations_spec] at *
  unfold getSlice
  rw [items_length, h]
  have hemp : ks.isEmpty = false := by simpa using hne
  simp only [hemp, Bool.false_eq_true, if_false]
  refine ⟨_, rfl, ?_, ?_⟩
  · rw [List.map_filterMap]
    apply filterMap_congr'
    intro k _
    unfold locations; rw [List.getElem?_map]
  · have hb := (sliceIndices_range h).2
    rw [← items_length] at hb
    clear h hne hemp
    induction ks with
    | nil => rfl
    | cons k ks ih =>
      rw [List.filterMap_cons_some (List.getElem?_eq_getElem (hb k (.head _)))]
      simp [ih (fun j hj => hb j (.tail _ hj))]

/-- C63: a slice that is empty cannot be read, whatever the sources are; a step of zero is an error as well. -/
theorem C63_slice_empty (s : Sources) (start stop step : Option Int) :
    (sliceIndices (allLocations s.kind s).length start stop step = .ok [] →
      s.getSlice start stop step = .error .indexError) ∧
    ∀ e, sliceIndices (allLocations s.kind s).length start stop step = .error e → s.getSlice start stop step = .error e := by
  rw [← locations_spec]
  unfold getSlice
  rw [items_length]
  exact ⟨fun h => by rw [h]; rfl, fun e h => by rw [h]⟩

/-- assigning at an index changes that location only, and no number -/
theorem C63_set (s : Sources) (i : Int) (loc : Str) :
    (pyIndex (allLocations s.kind s).length i = none ∧ s.set i loc = .error .indexError) ∨
    ∃ k s', pyIndex (allLocations s.kind s).length i = some k ∧ s.set i loc = .ok s' ∧
      allLocations s.kind s' = (allLocations s.kind s).set k loc ∧
      s'.items.map itemNumber = s.items.map itemNumber ∧ s'.kind = s.kind ∧
      s'.tags.data.map (fun t => { t with value := [] }) = s.tags.data.map (fun t => { t with value := [] }) := by
  rw [← locations_spec]
  unfold Sources.set
  rcases get_eq s i with ⟨h1, h2⟩ | ⟨k, x, h1, h2, h3⟩
  · rw [h2]; exact .inl ⟨h1, rfl⟩
  · rw [h3]
    have hk : (s.setLocation x loc).kind = s.kind := by cases x <;> rfl
    refine .inr ⟨k, _, h1, rfl, ?_, ?_, hk, ?_⟩
    · rw [← setLocation_locations h2, locations_spec, hk]
    · rw [setLocation_items h2, List.map_set, itemNumber_with]
      apply List.ext_getElem?
      intro j
      by_cases hj : j = k
      · subst hj
        rw [List.getElem?_set_self (by simpa using (List.getElem?_eq_some_iff.1 h2).1), List.getElem?_map, h2]; rfl
      · rw [List.getElem?_set_ne (by omega)]
    · cases x with
      | tag ts =>
        show (s.tags.data.modify ts.idx _).map _ = _
        rw [modify_map]; intro _; rfl
      | entry => rfl

/-- assigning to a slice, with at least as many locations as it has positions -/
theorem C63_set_slice (s : Sources) {start stop step : Option Int} {ks : List Nat} {locs : List Str}
    (h : sliceIndices (allLocations s.kind s).length start stop step = .ok ks) (hl : ks.length ≤ locs.length) :
    ∃ s', s.setSlice start stop step locs = (s', none) ∧
      s'.locations.length = (allLocations s.kind s).length ∧ s'.items.map itemNumber = s.items.map itemNumber ∧
      (∀ j, j ∉ ks → s'.locations[j]? = (allLocations s.kind s)[j]?) ∧
      (∀ (m k : Nat), ks[m]? = some k → s'.locations[k]? = locs[m]?) := by
  rw [← locations_spec] at *
  obtain ⟨h1, h2⟩ := sliceIndices_range h
  rw [← items_length] at h2
  obtain ⟨s', g1, g2, g3, g4, g5⟩ := setItems_spec ks s locs h1 h2 hl
  refine ⟨s', ?_, ?_, g3, g4, g5⟩
  · unfold setSlice
    rw [items_length, h]; exact g1
  · rw [← items_length, ← items_length, g2]

/-! ### C64: names and alignment -/

/-- The tag that an insertion adds looks like its neighbour, or as configured; the tags after it keep their names or get a
higher number in the same format. -/
theorem C64_insert {s s' : Sources} {i : Int} {loc : Str} (hg : GoodNames s.kind s.tags.data)
    (h : s.insert i loc = (s', none)) (ht : s'.tags ≠ s.tags) :
    ∃ a b n new, s.tags.data = a ++ b ∧ new.value = loc ∧ NewTag s.kind s a b n new ∧
      s'.tags.data.length = s.tags.data.length + 1 ∧
      ∀ (j : Nat) t', s'.tags.data[j]? = some t' → ∃ t, (a ++ new :: b)[j]? = some t ∧ Renumbered s.kind t t' := by
  have hd : s.allowDuplicates = true ∨ loc ∉ s.locations := by
    cases hd : s.allowDuplicates with
    | true => exact .inl rfl
    | false =>
      refine .inr fun hm => ?_
      rw [insert_dup hd hm] at h
      simp at h
  rcases insert_cases s i loc hd with ⟨_, _, h3⟩ | ⟨s1, a, b, n, new, g, h1, rfl, _⟩ |
    ⟨s1, la, lb, l, a, b, new, g, h1, _⟩
  · rw [h3] at h; simp at h
  · rw [g] at h
    simp only [Prod.mk.injEq, and_true] at h
    subst h
    refine ⟨a, b, n, new, h1.data, rfl, h1.new, ?_, h1.renumbered hg⟩
    have := congrArg List.length h1.result
    rw [h1.data]
    simp at this ⊢
    omega
  · rw [g] at h
    simp only [Prod.mk.injEq, and_true] at h
    subst h
    exact absurd (by rw [h1.result]) ht

/-- the same for `insert_numbered`, with the number it is given -/
theorem C64_insert_numbered {s s' : Sources} {n k : Nat} {loc : Str} (hg : GoodNames s.kind s.tags.data)
    (h : s.insertNumbered n loc = (s', .ok k)) :
    ∃ a b new, s.tags.data = a ++ b ∧ (Spec.sourceTags s.kind a).length = k ∧ new.value = loc ∧ NewTag s.kind s a b n new ∧
      s'.tags.data.length = s.tags.data.length + 1 ∧
      ∀ (j : Nat) t', s'.tags.data[j]? = some t' → ∃ t, (a ++ new :: b)[j]? = some t ∧ Renumbered s.kind t t' := by
  have hd : s.allowDuplicates = true ∨ loc ∉ s.locations := by
    cases hd : s.allowDuplicates with
    | true => exact .inl rfl
    | false =>
      refine .inr fun hm => ?_
      rw [insertNumbered_dup hd hm] at h
      simp at h
  obtain ⟨s1, k1, a, b, new, g, h1, rfl, h3, _⟩ := insertNumbered_spec s n loc hd
  rw [g] at h
  simp only [Prod.mk.injEq, Except.ok.injEq] at h
  obtain ⟨rfl, rfl⟩ := h
  refine ⟨a, b, new, h1.data, ?_, rfl, h1.new, ?_, h1.renumbered hg⟩
  · rw [← h3, vals_eq, List.length_map]
  · have := congrArg List.length h1.result
    rw [h1.data]
    simp at this ⊢
    omega

end Specfile.Props

/-! ### examples -/
namespace Specfile.Props
open Py Spec Sources

section
attribute [local instance] asciiUni

/-- a tag for the examples -/
def exTag (name value : Str) : Tag := ⟨name, value, s% ": ", ⟨[], []⟩, true, [], []⟩

/-- tags of other kinds around three sources, the middle one without a number of its own, and a list -/
def exSources : Sources :=
  ⟨⟨[exTag (s% "Name") (s% "x"), exTag (s% "Source0") (s% "a"), exTag (s% "source") (s% "b"), exTag (s% "License") (s% "MIT"),
      exTag (s% "Source05") (s% "c"), exTag (s% "Patch7") (s% "p")], []⟩,
    [⟨[⟨s% "d", ⟨[], []⟩, false⟩, ⟨s% "e", ⟨[], []⟩, true⟩], []⟩], false, false, false, 1⟩

example : allLocations exSources.kind exSources = [s% "a", s% "b", s% "c", s% "d", s% "e"] := by decide +kernel
example : allNumbers exSources.kind exSources = [0, 1, 5, 6, 7] := by decide +kernel

instance (kind : Str) (t : Tag) : Decidable ('\n' ∉ t.name ∧
    ∀ n, sourceEntry kind t = some (some n) → trailingDigits t.name ≠ []) :=
  decidable_of_iff ('\n' ∉ t.name ∧ ((sourceEntry kind t).any Option.isSome = true → trailingDigits t.name ≠ [])) (by
    rcases sourceEntry kind t with _ | _ | n <;> simp)

instance (kind : Str) (ts : List Tag) : Decidable (GoodNames kind ts) :=
  inferInstanceAs (Decidable (∀ t ∈ ts, '\n' ∉ t.name ∧
    ∀ n, sourceEntry kind t = some (some n) → trailingDigits t.name ≠ []))

instance (kind : Str) (ts : List Tag) : Decidable (Spec.Increasing kind ts) :=
  inferInstanceAs (Decidable (List.Pairwise (· < ·) (tagNumbers kind ts)))

/-- the hypotheses of C25 and C26 hold -/
example : GoodNames exSources.kind exSources.tags.data ∧ Spec.Increasing exSources.kind exSources.tags.data := by
  decide +kernel

/-- C23: in the middle of the tags, into the list, at the end, below the first index -/
example : allLocations exSources.kind (exSources.insert 1 (s% "n")).1 =
    [s% "a", s% "n", s% "b", s% "c", s% "d", s% "e"] := by decide +kernel
example : allLocations exSources.kind (exSources.insert (-1) (s% "n")).1 =
    [s% "a", s% "b", s% "c", s% "d", s% "n", s% "e"] := by decide +kernel
example : exSources.insert (-6) (s% "n") = (exSources, some .indexError) := by decide +kernel
example : (exSources.insert 9 (s% "n")).1.lists =
    [⟨[⟨s% "d", ⟨[], []⟩, false⟩, ⟨s% "e", ⟨[], []⟩, true⟩, ⟨s% "n", ⟨[], []⟩, true⟩], []⟩] := by decide +kernel

/-- C24: rejected -/
example : exSources.insert 0 (s% "e") = (exSources, some .duplicateSource) := by decide +kernel
example : (allLocations exSources.kind exSources).Nodup := by decide +kernel

/-- Assigning does not look for duplicates. -/
theorem C24_set_violation : (match exSources.set 0 (s% "e") with
    | .ok s => decide ((allLocations s.kind s).Nodup)
    | .error _ => true) = false := by decide +kernel

/-- C25: a source between 0 and 1: the implicit one gets 2 -/
example : (tagNumbers exSources.kind (exSources.insert 1 (s% "n")).1.tags.data,
    (exSources.insert 1 (s% "n")).1.tags.data.map (·.name)) = ([0, 1, 2, 5],
    [s% "Name", s% "Source0", s% "Source", s% "source", s% "License", s% "Source05", s% "Patch7"]) := by decide +kernel

/-- three numbered sources -/
def exNumbered : Sources :=
  ⟨⟨[exTag (s% "Source0") (s% "a"), exTag (s% "Source1") (s% "b"), exTag (s% "Source09") (s% "c")], []⟩, [],
    false, false, false, 1⟩

example : (exNumbered.insert 0 (s% "n")).1.tags.data.map (·.name) =
    [s% "Source0", s% "Source1", s% "Source2", s% "Source09"] := by decide +kernel

/-- Inserted at a negative index, the new source has the number of the one after it, which keeps it: only the tags from the
(same, negative) index on are looked at, and by then there is one more. -/
theorem C25_negative_violation : GoodNames exNumbered.kind exNumbered.tags.data ∧
    Spec.Increasing exNumbered.kind exNumbered.tags.data ∧ (exNumbered.insert (-1) (s% "n")).2 = none ∧
    tagNumbers exNumbered.kind (exNumbered.insert (-1) (s% "n")).1.tags.data = [0, 1, 9, 9] := by decide +kernel

/-- C26: between 1 and 9, and in the place of 1 -/
example : (exNumbered.insertNumbered 4 (s% "n")).2 = .ok 2 ∧
    (exNumbered.insertNumbered 4 (s% "n")).1.tags.data.map (·.name) =
      [s% "Source0", s% "Source1", s% "Source4", s% "Source09"] := by decide +kernel
example : (exNumbered.insertNumbered 1 (s% "n")).1.tags.data.map (·.name) =
      [s% "Source0", s% "Source1", s% "Source2", s% "Source09"] := by decide +kernel
example : (exNumbered.insertNumbered 9 (s% "n")).1.tags.data.map (fun t => (t.name, t.sep)) =
      [(s% "Source0", s% ": "), (s% "Source1", s% ": "), (s% "Source09", s% ": "), (s% "Source10", s% ": ")] := by
  decide +kernel

/-- `Numberable` as a computation -/
def numberable (kind : Str) (s : Sources) (n : Nat) : Bool :=
  (decide (sourceTags kind s.tags.data ≠ []) || (!s.implicitDefault && s.digits != 0)) &&
  ((sourceTags kind s.tags.data).zip (tagNumbers kind s.tags.data)).all (fun p =>
    p.1.1.isSome || (tagNumbers kind s.tags.data).any (fun m => decide (difference m n < difference p.2 n)))

theorem numberable_iff {kind : Str} {s : Sources} {n : Nat} (h : numberable kind s n = true) : Numberable kind s n := by
  unfold numberable at h
  rw [Bool.and_eq_true, List.all_eq_true] at h
  refine ⟨fun he => ?_, fun k m loc hk hm => ?_⟩
  · have := h.1
    rw [he] at this
    simpa using this
  · have := h.2 ((none, loc), m) (by
      rw [List.mem_iff_getElem?]
      exact ⟨k, by rw [List.getElem?_zip_eq_some]; exact ⟨hk, hm⟩⟩)
    simp only [Option.isSome_none, Bool.false_or, List.any_eq_true, decide_eq_true_eq] at this
    exact this

example : Numberable exNumbered.kind exNumbered 4 := numberable_iff (by decide +kernel)
/-- next to the source without number: not numberable -/
example : numberable exSources.kind exSources 1 = false ∧ numberable exSources.kind exSources 4 = true := by decide +kernel

/-- Next to a source without a number the requested number is ignored. -/
theorem C26_implicit_violation : (exSources.insertNumbered 2 (s% "n")).2 = .ok 2 ∧
    (⟨⟨[exTag (s% "Source") (s% "a")], []⟩, [], false, false, false, 1⟩ : Sources).insertNumbered 7 (s% "n") =
    (⟨⟨[exTag (s% "Source") (s% "a"), exTag (s% "Source") (s% "n")], []⟩, [], false, false, false, 1⟩, .ok 1) ∧
    tagNumbers (s% "Source") [exTag (s% "Source") (s% "a"), exTag (s% "Source") (s% "n")] = [0, 1] := by decide +kernel

/-- C27 -/
example : ((exSources.insert 4 (s% "x")).1.remove (s% "b")).1.locations = [s% "a", s% "c", s% "d", s% "x", s% "e"] := by
  decide +kernel
example : (exSources.removeNumbered 6).1.locations = [s% "a", s% "b", s% "c", s% "e"] ∧
    exSources.removeNumbered 4 = (exSources, none) := by decide +kernel
example : (exSources.delSlice (some 1) none (some 2)).1.locations = [s% "a", s% "c", s% "e"] := by decide +kernel

/-- With a negative step the items are deleted from the front, at positions that have moved. -/
theorem C27_slice_violation : sliceIndices exNumbered.locations.length none none (some (-2)) = .ok [2, 0] ∧
    (exNumbered.delSlice none none (some (-2))).2 = some .indexError ∧
    (exNumbered.delSlice none none (some (-2))).1.locations = [s% "b", s% "c"] := by decide +kernel

/-- Tags that are no sources are deleted instead, and entries of lists are left over. -/
theorem C27_foreign_violation : sliceIndices exSources.locations.length none none (some (-1)) = .ok [4, 3, 2, 1, 0] ∧
    (exSources.delSlice none none (some (-1))).2 = some .indexError ∧
    exSources.tags.data.map (·.name) =
      [s% "Name", s% "Source0", s% "source", s% "License", s% "Source05", s% "Patch7"] ∧
    (exSources.delSlice none none (some (-1))).1.tags.data.map (·.name) = [s% "Name", s% "source", s% "Source05", s% "Patch7"] := by
  decide +kernel

/-- patches after the sources, numbered with two digits, the first one to come -/
def exPatches : Sources :=
  ⟨⟨[exTag (s% "Name") (s% "x"), exTag (s% "Source0") (s% "a"), exTag (s% "License") (s% "MIT")], []⟩, [], true, false, false, 2⟩

example : LastNumbered exPatches.kind exPatches ∧ LastNumbered exNumbered.kind exNumbered := by
  have h1 : (sourceTags exPatches.kind exPatches.tags.data).getLast? = none := by decide +kernel
  have h2 : (sourceTags exNumbered.kind exNumbered.tags.data).getLast? = some (some 9, s% "c") := by decide +kernel
  unfold LastNumbered
  rw [h1, h2]
  decide

example : (exPatches.addPatch (s% "p") none (some (s% "first\nsecond")) 1) =
    ({ exPatches with tags := ⟨[exTag (s% "Name") (s% "x"), exTag (s% "Source0") (s% "a"),
      ⟨s% "Patch01", s% "p", s% ": ", ⟨[⟨s% "first", s% "# "⟩, ⟨s% "second", s% "# "⟩], []⟩, true, [], []⟩,
      exTag (s% "License") (s% "MIT")], []⟩ }, none) := by decide +kernel

example : (exNumbered.addPatch (s% "n") (some 9) none 1) = (exNumbered, some .sourceNumber) := by decide +kernel
example : ((exNumbered.addPatch (s% "n") (some 20) none 1).1.addPatch (s% "m") none none 1).1.tags.data.map (·.name) =
    [s% "Source0", s% "Source1", s% "Source09", s% "Source20", s% "Source21"] := by decide +kernel

/-- With patches in a list only, the list is numbered after the new tag. -/
theorem C28_list_violation :
    let s : Sources := ⟨⟨[], []⟩, [⟨[⟨s% "a", ⟨[], []⟩, true⟩], []⟩], true, false, false, 1⟩
    allNumbers s.kind s = [0] ∧ (s.addPatch (s% "p") none none 1).2 = none ∧
    allLocations s.kind (s.addPatch (s% "p") none none 1).1 = [s% "p", s% "a"] ∧
    allNumbers s.kind (s.addPatch (s% "p") none none 1).1 = [1, 2] := by decide +kernel

/-- C63 -/
example : (exSources.getSlice (some (-2)) none none) =
    .ok [.entry ⟨s% "d", ⟨[], []⟩, false⟩ 6 0 0, .entry ⟨s% "e", ⟨[], []⟩, true⟩ 7 0 1] := by decide +kernel
example : (exSources.setSlice none none (some (-2)) [s% "1", s% "2", s% "3"]).1.locations =
    [s% "3", s% "b", s% "2", s% "d", s% "1"] := by decide +kernel

/-- An empty slice cannot be read. -/
theorem C63_slice_violation : sliceIndices exSources.locations.length (some 0) (some 0) none = .ok [] ∧
    exSources.getSlice (some 0) (some 0) none = .error .indexError := by decide +kernel

/-- C64: a name that is longer: the separator is shortened -/
example : (exNumbered.append (s% "n")).1.tags.data.map (fun t => (t.name, t.sep)) =
    [(s% "Source0", s% ": "), (s% "Source1", s% ": "), (s% "Source09", s% ": "), (s% "Source10", s% ": ")] := by
  decide +kernel

/-- The separator is shortened at its end even if the colon is there: no tag is left. -/
theorem C64_colon_violation :
    let s : Sources := ⟨⟨[⟨s% "Source9", s% "a", s% " :", ⟨[], []⟩, true, [], []⟩], []⟩, [], false, false, false, 1⟩
    (s.append (s% "n")).1.tags.data.map (fun t => (t.name, t.sep)) = [(s% "Source9", s% " :"), (s% "Source10", s% " ")] := by
  decide +kernel

end

end Specfile.Props
