import Verif.Proof.Sources7
/-
Sources: histories of operations.
-/
namespace Specfile.Sources
open Py Regex Spec

variable [Uni]

theorem good_newline {k : Str} {ts : List Tag} (h : GoodNames k ts) : ∀ t ∈ ts, '\n' ∉ t.name := fun t ht => (h t ht).1

theorem tagNumbers_eq {k : Str} {ts : List Tag} (h : ∀ t ∈ ts, '\n' ∉ t.name) :
    tagNumbers k ts = numberEntries 0 (ents k ts) := by unfold tagNumbers; rw [ents_eq h]

theorem increasing_iff {k : Str} {ts : List Tag} (h : ∀ t ∈ ts, '\n' ∉ t.name) :
    Spec.Increasing k ts ↔ Inc 0 (ents k ts) := by
  unfold Spec.Increasing
  rw [tagNumbers_eq h, inc_iff]
  exact ⟨fun h => ⟨h, fun _ _ => Nat.zero_le _⟩, fun h => h.1⟩

theorem TagInserted.oneMore {s s' : Sources} {a b : List Tag} {n : Nat} {new : Tag}
    (h : TagInserted s s' a b n new) : OneMore s.kind s s' new.value := by
  refine .tag a b new h.data rfl ?_ h.result ?_
  · obtain ⟨e, he⟩ := h.source
    rw [← entryM_isSome, he]; rfl
  · obtain ⟨tags, ht⟩ := h.same
    rw [ht]

theorem TagInserted.kind {s s' : Sources} {a b : List Tag} {n : Nat} {new : Tag}
    (h : TagInserted s s' a b n new) : s'.kind = s.kind := by
  obtain ⟨tags, ht⟩ := h.same
  rw [ht]; rfl

theorem EntryInserted.oneMore {s s' : Sources} {la lb : List Sourcelist} {l : Sourcelist} {a b : List SourcelistEntry}
    {new : SourcelistEntry} (h : EntryInserted s s' la lb l a b new) : OneMore s.kind s s' new.location := by
  refine .entry la lb l a b new.valid h.lists h.data h.valid ?_
  rw [h.result]
  obtain ⟨x, y, z⟩ := new
  have := h.plain
  simp only at this
  subst this
  rfl

omit [Uni] in
theorem EntryInserted.kind {s s' : Sources} {la lb : List Sourcelist} {l : Sourcelist} {a b : List SourcelistEntry}
    {new : SourcelistEntry} (h : EntryInserted s s' la lb l a b new) : s'.kind = s.kind := by
  rw [h.result]; rfl

/-! ### sublists of entries -/

omit [Uni] in
theorem inc_mono {n m : Nat} {es : List (Option Nat)} (h : Inc m es) (hn : n ≤ m) : Inc n es := by
  induction es generalizing n m with
  | nil => exact h
  | cons e es ih =>
    cases e with
    | none => exact ih (m := m + 1) h (by omega)
    | some k => exact ⟨by have := h.1; omega, h.2⟩

omit [Uni] in
theorem inc_sublist {n : Nat} {es es' : List (Option Nat)} (hs : es'.Sublist es) (h : Inc n es) : Inc n es' := by
  induction hs generalizing n with
  | slnil => exact h
  | @cons l1 l2 a _ ih =>
    apply ih
    cases a with
    | none => exact inc_mono (m := n + 1) h (by omega)
    | some k => exact inc_mono h.2 (by have := h.1; omega)
  | @cons_cons l1 l2 a _ ih =>
    cases a with
    | none => exact ih (n := n + 1) h
    | some k => exact ⟨h.1, ih h.2⟩

theorem shrunk_good {k : Str} {d d' : List Tag} (h : (d'.map bare).Sublist (d.map bare)) (hg : GoodNames k d) :
    GoodNames k d' := by
  intro t ht
  have : bare t ∈ d.map bare := h.subset (List.mem_map_of_mem ht)
  obtain ⟨u, hu, he⟩ := List.mem_map.1 this
  have hn : t.name = u.name := (congrArg (fun x => x.name) he).symm
  obtain ⟨h1, h2⟩ := hg u hu
  rw [hn]
  refine ⟨h1, fun n hs => h2 n ?_⟩
  rw [← hs]; unfold sourceEntry; rw [hn]

theorem shrunk_inc {k : Str} {d d' : List Tag} (h : (d'.map bare).Sublist (d.map bare)) (hg : GoodNames k d)
    (hi : Spec.Increasing k d) : Spec.Increasing k d' := by
  have hg' := shrunk_good h hg
  rw [increasing_iff (good_newline hg)] at hi
  rw [increasing_iff (good_newline hg')]
  apply inc_sublist _ hi
  rw [← ents_bare k d, ← ents_bare k d']
  exact h.filterMap _

/-! ### adding comments -/

omit [Uni] in
theorem modify_map {α β : Type} (f : α → α) (g : α → β) (h : ∀ x, g (f x) = g x) (l : List α) (i : Nat) :
    (l.modify i f).map g = l.map g := by
  induction l generalizing i with
  | nil => simp
  | cons x l ih =>
    cases i with
    | zero => simp [h]
    | succ i => rw [List.modify_succ_cons]; simp [ih]

omit [Uni] in
theorem listLocations_eq (ls : List Sourcelist) :
    listLocations ls = (ls.map (fun l => l.data.map (·.location))).flatten := by
  unfold listLocations; rw [List.flatMap_def]

theorem extendComments_same (s : Sources) (x : SourceItem) (cs : List Str) :
    (s.extendComments x cs).locations = s.locations ∧ (s.extendComments x cs).kind = s.kind ∧
    (s.extendComments x cs).allowDuplicates = s.allowDuplicates ∧
    ents s.kind (s.extendComments x cs).tags.data = ents s.kind s.tags.data ∧
    (GoodNames s.kind s.tags.data → GoodNames s.kind (s.extendComments x cs).tags.data) := by
  cases x with
  | tag ts =>
    have key : ((s.tags.data.modify ts.idx (fun t => { t with comments := t.comments.extend cs })).map
        (fun t => (t.name, t.value))) = s.tags.data.map (fun t => (t.name, t.value)) := by
          rw [modify_map]; intro _; rfl
    have hents : ∀ d : List Tag, ents s.kind d =
        (d.map (fun t => (t.name, t.value))).filterMap (fun p => entryM s.kind ⟨p.1, p.2, [], ⟨[], []⟩, true, [], []⟩) := by
      intro d; unfold ents; rw [List.filterMap_map]; rfl
    have hvals : ∀ d : List Tag, vals s.kind d =
        ((d.map (fun t => (t.name, t.value))).filter
          (fun p => (entryM s.kind ⟨p.1, p.2, [], ⟨[], []⟩, true, [], []⟩).isSome)).map (·.2) := by
      intro d; unfold vals; rw [List.filter_map, List.map_map]; rfl
    refine ⟨?_, rfl, rfl, ?_, ?_⟩
    · rw [locations_eq, locations_eq]
      show vals s.kind (s.tags.data.modify ts.idx _) ++ _ = _
      rw [hvals, key, ← hvals]; rfl
    · show ents s.kind (s.tags.data.modify ts.idx _) = _
      rw [hents, key, ← hents]
    · intro hg t ht
      have : (t.name, t.value) ∈ s.tags.data.map (fun t => (t.name, t.value)) := by
        rw [← key]; exact List.mem_map_of_mem ht
      obtain ⟨u, hu, he⟩ := List.mem_map.1 this
      have hn : u.name = t.name := congrArg (·.1) he
      obtain ⟨h1, h2⟩ := hg u hu
      rw [← hn]
      refine ⟨h1, fun n hs => h2 n ?_⟩
      rw [← hs]; unfold sourceEntry; rw [hn]
  | entry e n k i =>
    refine ⟨?_, rfl, rfl, rfl, fun h => h⟩
    rw [locations_eq, locations_eq]
    show vals s.kind s.tags.data ++ listLocations (s.lists.modify k _) = _
    rw [listLocations_eq, listLocations_eq, modify_map]
    intro l
    rw [modify_map]; intro _; rfl

/-- what `add_patch` does is an insertion and perhaps a comment -/
theorem addPatch_cases (s : Sources) (loc : Str) (n : Option Int) (c : Option Str) (init : Int) :
    (s.addPatch loc n c init).1 = s ∨ (∃ m, (s.addPatch loc n c init).1 = (s.insertNumbered m loc).1) ∨
    (∃ m x cs, (s.addPatch loc n c init).1 = (s.insertNumbered m loc).1.extendComments x cs) := by
  have key : ∀ (m : Nat) (r : Res), r = s.addPatchAt m loc c →
      (∃ m, r.1 = (s.insertNumbered m loc).1) ∨ (∃ m x cs, r.1 = (s.insertNumbered m loc).1.extendComments x cs) := by
    intro m r hr
    unfold addPatchAt at hr
    cases h : s.insertNumbered m loc with
    | mk s' res =>
      rw [h] at hr
      cases res with
      | error e => subst hr; exact .inl ⟨m, by rw [h]⟩
      | ok i =>
        cases c with
        | none => subst hr; exact .inl ⟨m, by rw [h]⟩
        | some c =>
          simp only at hr
          split at hr
          · subst hr; exact .inl ⟨m, by rw [h]⟩
          · split at hr
            · subst hr; exact .inl ⟨m, by rw [h]⟩
            · subst hr; exact .inr ⟨m, _, _, by rw [h]⟩
  unfold addPatch
  cases n with
  | none => exact .inr (key _ _ rfl)
  | some n =>
    simp only
    split
    · exact .inl rfl
    · exact .inr (key _ _ rfl)

theorem insertNumbered_dup {s : Sources} {n : Nat} {loc : Str} (h : s.allowDuplicates = false) (h' : loc ∈ s.locations) :
    s.insertNumbered n loc = (s, .error .duplicateSource) := by
  unfold insertNumbered
  rw [if_pos (by simp [h, Sources.contains, h'])]

theorem insert_dup {s : Sources} {i : Int} {loc : Str} (h : s.allowDuplicates = false) (h' : loc ∈ s.locations) :
    s.insert i loc = (s, some .duplicateSource) := by
  unfold insert
  rw [if_pos (by simp [h, Sources.contains, h'])]

omit [Uni] in
theorem nodup_insertAt {l : List Str} (h : l.Nodup) {k : Nat} {x : Str} (hx : x ∉ l) : (insertAt l k x).Nodup := by
  unfold insertAt
  rw [List.nodup_append]
  refine ⟨h.sublist (List.take_sublist _ _), ?_, ?_⟩
  · rw [List.nodup_cons]
    exact ⟨fun h' => hx ((List.drop_sublist _ _).subset h'), h.sublist (List.drop_sublist _ _)⟩
  · intro a ha b hb
    rcases List.mem_cons.1 hb with rfl | hb
    · rintro rfl
      exact hx ((List.take_sublist _ _).subset ha)
    · rintro rfl
      have hd := h
      rw [← List.take_append_drop k l, List.nodup_append] at hd
      exact hd.2.2 a ha a hb rfl

/-- the locations after an insertion -/
theorem insert_locations (s : Sources) (i : Int) (loc : Str) :
    (s.insert i loc).1.allowDuplicates = s.allowDuplicates ∧
    ((s.insert i loc).1.locations = s.locations ∨ (s.allowDuplicates = true ∨ loc ∉ s.locations) ∧
      ∃ k, (s.insert i loc).1.locations = insertAt s.locations k loc) := by
  by_cases hd : s.allowDuplicates = true ∨ loc ∉ s.locations
  · rcases insert_cases s i loc hd with ⟨_, _, h⟩ | ⟨s', a, b, n, new, h, h1, h2, _⟩ | ⟨s', la, lb, l, a, b, new, h, h1, h2, _⟩
    · rw [h]; exact ⟨rfl, .inl rfl⟩
    · rw [h]
      refine ⟨?_, .inr ⟨hd, _, by rw [← h2]; exact h1.locations⟩⟩
      obtain ⟨t, ht⟩ := h1.same
      rw [ht]
    · rw [h]
      exact ⟨by rw [h1.result], .inr ⟨hd, _, by rw [← h2]; exact h1.locations⟩⟩
  · have hd' : s.allowDuplicates = false ∧ loc ∈ s.locations := by
      refine ⟨?_, Decidable.of_not_not fun h => hd (.inr h)⟩
      cases h : s.allowDuplicates with
      | false => rfl
      | true => exact absurd (.inl h) hd
    rw [insert_dup hd'.1 hd'.2]
    exact ⟨rfl, .inl rfl⟩

theorem insertNumbered_locations (s : Sources) (n : Nat) (loc : Str) :
    (s.insertNumbered n loc).1.allowDuplicates = s.allowDuplicates ∧
    ((s.insertNumbered n loc).1.locations = s.locations ∨ (s.allowDuplicates = true ∨ loc ∉ s.locations) ∧
      ∃ k, (s.insertNumbered n loc).1.locations = insertAt s.locations k loc) := by
  by_cases hd : s.allowDuplicates = true ∨ loc ∉ s.locations
  · obtain ⟨s', k, a, b, new, h, h1, h2, _⟩ := insertNumbered_spec s n loc hd
    rw [h]
    refine ⟨?_, .inr ⟨hd, _, by rw [← h2]; exact h1.locations⟩⟩
    obtain ⟨t, ht⟩ := h1.same
    rw [ht]
  · have hd' : s.allowDuplicates = false ∧ loc ∈ s.locations := by
      refine ⟨?_, Decidable.of_not_not fun h => hd (.inr h)⟩
      cases h : s.allowDuplicates with
      | false => rfl
      | true => exact absurd (.inl h) hd
    rw [insertNumbered_dup hd'.1 hd'.2]
    exact ⟨rfl, .inl rfl⟩

/-- what is done to the state by the deletions -/
theorem removeNumbered_state (s : Sources) (n : Nat) : Shrunk s.kind s (s.removeNumbered n).1 := by
  unfold removeNumbered
  cases h : s.items.find? (fun x => itemNumber x == n) with
  | none => exact shrunk_refl s
  | some x =>
    obtain ⟨k, hk⟩ := List.getElem?_of_mem (List.mem_of_find?_eq_some h)
    obtain ⟨s', h1, _, h2⟩ := delItem_shrunk hk
    rw [show (s.delItem x).1 = s' by rw [h1]]
    exact h2

theorem get_eq (s : Sources) (i : Int) :
    (pyIndex s.locations.length i = none ∧ s.get i = .error .indexError) ∨
    ∃ k x, pyIndex s.locations.length i = some k ∧ s.items[k]? = some x ∧ s.get i = .ok x := by
  unfold get
  rw [items_length]
  cases h : pyIndex s.locations.length i with
  | none => exact .inl ⟨rfl, rfl⟩
  | some k =>
    have := pyIndex_lt h
    rw [← items_length] at this
    refine .inr ⟨k, s.items[k], rfl, List.getElem?_eq_getElem this, ?_⟩
    simp only [List.getElem?_eq_getElem this]

theorem del_state (s : Sources) (i : Int) : Shrunk s.kind s (s.del i).1 := by
  unfold del
  rcases get_eq s i with ⟨_, h⟩ | ⟨k, x, _, hk, h⟩
  · rw [h]; exact shrunk_refl s
  · rw [h]
    obtain ⟨s', h1, _, h2⟩ := delItem_shrunk hk
    show Shrunk s.kind s (s.delItem x).1
    rw [h1]; exact h2

omit [Uni] in
theorem filterMap_reverse' {α β : Type} (f : α → Option β) (l : List α) :
    (l.filterMap f).reverse = l.reverse.filterMap f := by
  induction l with
  | nil => rfl
  | cons x l ih =>
    rw [List.reverse_cons, List.filterMap_append, ← ih]
    cases h : f x with
    | none => rw [List.filterMap_cons_none h]; simp [h]
    | some y => rw [List.filterMap_cons_some h]; simp [h]

theorem delSlice_eq {s : Sources} {start stop step : Option Int} {ks : List Nat}
    (h : sliceIndices s.locations.length start stop step = .ok ks) :
    s.delSlice start stop step = s.delItems (ks.reverse.filterMap (fun k => s.items[k]?)) := by
  unfold delSlice
  rw [items_length, h, ← filterMap_reverse']

theorem delSlice_state {s : Sources} {start stop step : Option Int} (hs : 0 < step.getD 1) :
    Shrunk s.kind s (s.delSlice start stop step).1 := by
  cases h : sliceIndices s.locations.length start stop step with
  | error e =>
    unfold delSlice
    rw [items_length, h]; exact shrunk_refl s
  | ok ks =>
    rw [delSlice_eq h]
    obtain ⟨h1, h2⟩ := increasing_pairwise' (sliceIndices_increasing hs h)
    obtain ⟨s', h3, h4⟩ := delItems_shrunk ks.reverse s (List.pairwise_reverse.2 h1) (by
      intro k hk
      rw [items_length]; exact h2 k (List.mem_reverse.1 hk))
    rw [h3]; exact h4

/-- all operations keep locations distinct -/
theorem run_nodup (op : SourceOp) (s : Sources) (hd : s.allowDuplicates = false) (h : s.locations.Nodup) :
    (op.run s).allowDuplicates = false ∧ (op.run s).locations.Nodup := by
  have ins : ∀ {s' : Sources} {loc : Str}, s'.allowDuplicates = s.allowDuplicates →
      (s'.locations = s.locations ∨ (s.allowDuplicates = true ∨ loc ∉ s.locations) ∧
        ∃ k, s'.locations = insertAt s.locations k loc) → s'.allowDuplicates = false ∧ s'.locations.Nodup := by
    intro s' loc h1 h2
    refine ⟨h1.trans hd, ?_⟩
    rcases h2 with h2 | ⟨h2, k, h3⟩
    · rw [h2]; exact h
    · rw [h3]
      exact nodup_insertAt h (h2.resolve_left (by simp [hd]))
  have sub : ∀ {s' : Sources}, s'.locations.Sublist s.locations → s'.allowDuplicates = s.allowDuplicates →
      s'.allowDuplicates = false ∧ s'.locations.Nodup := fun h1 h2 => ⟨h2.trans hd, h.sublist h1⟩
  cases op with
  | insert i loc => exact ins (insert_locations s i loc).1 (insert_locations s i loc).2
  | append loc => exact ins (insert_locations s _ loc).1 (insert_locations s _ loc).2
  | insertNumbered n loc => exact ins (insertNumbered_locations s n loc).1 (insertNumbered_locations s n loc).2
  | addPatch loc n c i =>
    show (s.addPatch loc n c i).1.allowDuplicates = false ∧ (s.addPatch loc n c i).1.locations.Nodup
    rcases addPatch_cases s loc n c i with h1 | ⟨m, h1⟩ | ⟨m, x, cs, h1⟩
    · rw [h1]; exact ⟨hd, h⟩
    · rw [h1]; exact ins (insertNumbered_locations s m loc).1 (insertNumbered_locations s m loc).2
    · obtain ⟨g1, _, g3, _⟩ := extendComments_same (s.insertNumbered m loc).1 x cs
      rw [h1, g1, g3]; exact ins (insertNumbered_locations s m loc).1 (insertNumbered_locations s m loc).2
  | remove loc => exact sub (delItems_sublist _ s).1 (delItems_sublist _ s).2
  | removeNumbered n =>
    show (s.removeNumbered n).1.allowDuplicates = false ∧ (s.removeNumbered n).1.locations.Nodup
    unfold removeNumbered
    split
    · exact ⟨hd, h⟩
    · exact sub (delItem_sublist s _).1 (delItem_sublist s _).2
  | del i =>
    show (s.del i).1.allowDuplicates = false ∧ (s.del i).1.locations.Nodup
    unfold del
    split
    · exact ⟨hd, h⟩
    · exact sub (delItem_sublist s _).1 (delItem_sublist s _).2
  | delSlice a b c =>
    show (s.delSlice a b c).1.allowDuplicates = false ∧ (s.delSlice a b c).1.locations.Nodup
    unfold delSlice
    split
    · exact ⟨hd, h⟩
    · exact sub (delItems_sublist _ s).1 (delItems_sublist _ s).2

omit [Uni] in
theorem room_increasing {ns ns' : List Nat} {k p : Nat} (h : Room ns k p ns') (hi : ns.Pairwise (· < ·)) :
    ns'.Pairwise (· < ·) := by
  obtain ⟨h1, h2, h3⟩ := h
  have hs := hi
  rw [← List.take_append_drop k ns, List.pairwise_append] at hs
  obtain ⟨g1, g2⟩ := makeRoom_inc (ns.drop k) p hs.2.1 h3
  rw [h1, List.pairwise_append]
  refine ⟨hs.1, List.pairwise_cons.2 ⟨g2, g1⟩, ?_⟩
  intro a ha b hb
  have := h2 a ha
  rcases List.mem_cons.1 hb with rfl | hb
  · exact this
  · have := g2 b hb; omega

/-- the numbers of the tags after an insertion at a non-negative index -/
theorem insert_numbers {s s' : Sources} {i : Int} {loc : Str} (hg : GoodNames s.kind s.tags.data)
    (hi : Spec.Increasing s.kind s.tags.data) (h0 : 0 ≤ i) (h : s.insert i loc = (s', none)) :
    GoodNames s.kind s'.tags.data ∧
    (s'.tags = s.tags ∨ ∃ k p, k ≤ (tagNumbers s.kind s.tags.data).length ∧
      k = insertPos s.locations.length i ∧
      p = ((tagNumbers s.kind s.tags.data)[k]?).getD (((tagNumbers s.kind s.tags.data).getLast?.map (· + 1)).getD 0) ∧
      Room (tagNumbers s.kind s.tags.data) k p (tagNumbers s.kind s'.tags.data)) := by
  have hd : s.allowDuplicates = true ∨ loc ∉ s.locations := by
    cases hd : s.allowDuplicates with
    | true => exact .inl rfl
    | false =>
      refine .inr fun hm => ?_
      rw [insert_dup hd hm] at h
      simp at h
  rcases insert_cases s i loc hd with ⟨_, _, g⟩ | ⟨s1, a, b, n, new, g, g1, g2, _, g3, _, g4⟩ | ⟨s1, la, lb, l, a, b, new, g, g1, _⟩
  · rw [g] at h; simp at h
  · rw [g] at h
    simp only [Prod.mk.injEq, and_true] at h
    subst h
    have hg' := g1.good hg
    refine ⟨hg', .inr ⟨insertPos s.locations.length i, _, ?_, rfl, rfl, ?_, ?_, ?_⟩⟩
    · rw [tagNumbers_eq (good_newline hg), numberEntries_length, ents_length, ← g3, g1.data, vals_append]
      simp
    · have hinc := (increasing_iff (good_newline hg)).1 hi
      have := g4 h0 (goodM_of hg) hinc _ rfl _ rfl
      rw [tagNumbers_eq (good_newline hg), tagNumbers_eq (good_newline hg'), this]
      have hl := numberEntries_last 0 (ents s.kind s.tags.data)
      rw [← hl]
      cases (numberEntries 0 (ents s.kind s.tags.data)).getLast? <;> rfl
    · intro m hm
      generalize hns : tagNumbers s.kind s.tags.data = ns at *
      generalize insertPos s.locations.length i = k at *
      unfold Spec.Increasing at hi
      rw [hns] at hi
      rw [← List.take_append_drop k ns, List.pairwise_append] at hi
      cases hd : ns[k]? with
      | some q =>
        have : q ∈ ns.drop k := by
          rw [List.mem_iff_getElem?]; exact ⟨0, by rw [List.getElem?_drop]; exact hd⟩
        exact hi.2.2 m hm q this
      | none =>
        have hk : ns.length ≤ k := List.getElem?_eq_none_iff.1 hd
        rw [List.take_of_length_le hk] at hm hi
        obtain ⟨init, last, rfl⟩ : ∃ init last, ns = init ++ [last] :=
          ⟨_, _, (List.dropLast_concat_getLast (List.ne_nil_of_mem hm)).symm⟩
        simp only [List.getLast?_append, List.getLast?_singleton, Option.some_or, Option.map_some, Option.getD_some,
          Option.getD_none]
        rw [List.pairwise_append] at hi
        rcases List.mem_append.1 hm with hm | hm
        · have := hi.1.2.2 m hm last (.head _); omega
        · simp at hm; omega
    · intro m hm
      generalize hns : tagNumbers s.kind s.tags.data = ns at *
      generalize insertPos s.locations.length i = k at *
      unfold Spec.Increasing at hi
      rw [hns] at hi
      rw [← List.take_append_drop k ns, List.pairwise_append] at hi
      cases hdk : ns.drop k with
      | nil => rw [hdk] at hm; cases hm
      | cons q r =>
        have : ns[k]? = some q := by
          have := congrArg (fun l => l[0]?) hdk
          simpa [List.getElem?_drop] using this
        rw [this]
        rw [hdk] at hm hi
        rcases List.mem_cons.1 hm with rfl | hm
        · exact Nat.le_refl _
        · exact Nat.le_of_lt ((List.pairwise_cons.1 hi.2.1).1 m hm)
  · rw [g] at h
    simp only [Prod.mk.injEq, and_true] at h
    subst h
    have : s1.tags = s.tags := by rw [g1.result]
    rw [this]
    exact ⟨hg, .inl rfl⟩

omit [Uni] in
theorem difference_dist (a b : Nat) : difference a b = dist a b := by
  unfold difference dist; split <;> omega

theorem canNumber_of {s : Sources} {n : Nat} (hg : GoodNames s.kind s.tags.data) (h : Numberable s.kind s n) :
    CanNumber s n := by
  have he := ents_eq (kind := s.kind) (good_newline hg)
  obtain ⟨h1, h2⟩ := h
  constructor
  · intro h
    apply h1
    rw [he] at h
    exact List.map_eq_nil_iff.1 h
  · rintro k m e hk hm hall rfl
    rw [he, List.getElem?_map, Option.map_eq_some_iff] at hk
    obtain ⟨⟨e', loc⟩, hk1, hk2⟩ := hk
    simp only at hk2
    subst hk2
    rw [← tagNumbers_eq (good_newline hg)] at hm hall
    obtain ⟨m', g1, g2⟩ := h2 k m loc hk1 hm
    have := hall m' g1
    rw [difference_dist, difference_dist] at g2
    omega

/-- inserting with a number -/
theorem insertNumbered_numbers {s s' : Sources} {n k : Nat} {loc : Str} (hg : GoodNames s.kind s.tags.data)
    (hi : Spec.Increasing s.kind s.tags.data) (h : s.insertNumbered n loc = (s', .ok k)) :
    GoodNames s.kind s'.tags.data ∧
      ∃ p, Room (tagNumbers s.kind s.tags.data) k p (tagNumbers s.kind s'.tags.data) ∧
        (Numberable s.kind s n → p = n) := by
  have hd : s.allowDuplicates = true ∨ loc ∉ s.locations := by
    cases hd : s.allowDuplicates with
    | true => exact .inl rfl
    | false =>
      refine .inr fun hm => ?_
      rw [insertNumbered_dup hd hm] at h
      simp at h
  obtain ⟨s1, k1, a, b, new, g, g1, g2, _, g3, g4⟩ := insertNumbered_spec s n loc hd
  rw [g] at h
  simp only [Prod.mk.injEq, Except.ok.injEq] at h
  obtain ⟨rfl, rfl⟩ := h
  have hg' := g1.good hg
  refine ⟨hg', ?_⟩
  obtain ⟨p, h1, h2⟩ := g4 (goodM_of hg) ((increasing_iff (good_newline hg)).1 hi)
  rw [← tagNumbers_eq (good_newline hg), ← tagNumbers_eq (good_newline hg')] at h1
  exact ⟨p, h1, fun hc => h2 (canNumber_of hg hc)⟩

/-- the numbers of the tags after an operation -/
theorem run_increasing (op : SourceOp) (hf : op.Forward) (s : Sources) (hg : GoodNames s.kind s.tags.data)
    (hi : Spec.Increasing s.kind s.tags.data) :
    (op.run s).kind = s.kind ∧ GoodNames s.kind (op.run s).tags.data ∧ Spec.Increasing s.kind (op.run s).tags.data := by
  have sh : ∀ {s' : Sources}, Shrunk s.kind s s' → s'.kind = s.kind ∧ GoodNames s.kind s'.tags.data ∧
      Spec.Increasing s.kind s'.tags.data := fun h =>
    ⟨shrunk_kind h, shrunk_good h.tags hg, shrunk_inc h.tags hg hi⟩
  have ins : ∀ {i : Int} {loc : Str}, 0 ≤ i → (s.insert i loc).1.kind = s.kind ∧ GoodNames s.kind (s.insert i loc).1.tags.data ∧
      Spec.Increasing s.kind (s.insert i loc).1.tags.data := by
    intro i loc h0
    by_cases hd : s.allowDuplicates = true ∨ loc ∉ s.locations
    · have hk : (s.insert i loc).1.kind = s.kind := by
        rcases insert_cases s i loc hd with ⟨_, _, g⟩ | ⟨s1, a, b, n, new, g, g1, _⟩ | ⟨s1, la, lb, l, a, b, new, g, g1, _⟩
        · rw [g]
        · rw [g]; exact g1.kind
        · rw [g]; exact g1.kind
      refine ⟨hk, ?_⟩
      cases hr : s.insert i loc with
      | mk s' e =>
        cases e with
        | some e =>
          rcases insert_cases s i loc hd with ⟨_, _, g⟩ | ⟨s1, a, b, n, new, g, g1, _⟩ | ⟨s1, la, lb, l, a, b, new, g, g1, _⟩
          · rw [hr] at g
            simp only [Prod.mk.injEq] at g
            obtain ⟨rfl, _⟩ := g
            exact ⟨hg, hi⟩
          · rw [hr] at g; simp at g
          · rw [hr] at g; simp at g
        | none =>
          obtain ⟨h1, h2⟩ := insert_numbers hg hi h0 hr
          refine ⟨h1, ?_⟩
          rcases h2 with h2 | ⟨k, p, _, _, _, h2⟩
          · show Spec.Increasing s.kind s'.tags.data
            rw [h2]; exact hi
          · exact room_increasing h2 hi
    · have hd' : s.allowDuplicates = false ∧ loc ∈ s.locations := by
        refine ⟨?_, Decidable.of_not_not fun h => hd (.inr h)⟩
        cases h : s.allowDuplicates with
        | false => rfl
        | true => exact absurd (.inl h) hd
      rw [insert_dup hd'.1 hd'.2]
      exact ⟨rfl, hg, hi⟩
  have insN : ∀ (n : Nat) (loc : Str), (s.insertNumbered n loc).1.kind = s.kind ∧
      GoodNames s.kind (s.insertNumbered n loc).1.tags.data ∧
      Spec.Increasing s.kind (s.insertNumbered n loc).1.tags.data := by
    intro n loc
    by_cases hd : s.allowDuplicates = true ∨ loc ∉ s.locations
    · obtain ⟨s1, k1, a, b, new, g, g1, _⟩ := insertNumbered_spec s n loc hd
      obtain ⟨h1, p, h2, _⟩ := insertNumbered_numbers hg hi g
      rw [g]
      exact ⟨g1.kind, h1, room_increasing h2 hi⟩
    · have hd' : s.allowDuplicates = false ∧ loc ∈ s.locations := by
        refine ⟨?_, Decidable.of_not_not fun h => hd (.inr h)⟩
        cases h : s.allowDuplicates with
        | false => rfl
        | true => exact absurd (.inl h) hd
      rw [insertNumbered_dup hd'.1 hd'.2]
      exact ⟨rfl, hg, hi⟩
  cases op with
  | insert i loc => exact ins hf
  | append loc => exact ins (Int.natCast_nonneg _)
  | insertNumbered n loc => exact insN n loc
  | addPatch loc n c i =>
    show (s.addPatch loc n c i).1.kind = _ ∧ GoodNames s.kind (s.addPatch loc n c i).1.tags.data ∧
      Spec.Increasing s.kind (s.addPatch loc n c i).1.tags.data
    rcases addPatch_cases s loc n c i with h1 | ⟨m, h1⟩ | ⟨m, x, cs, h1⟩
    · rw [h1]; exact ⟨rfl, hg, hi⟩
    · rw [h1]; exact insN m loc
    · obtain ⟨k1, k2, k3⟩ := insN m loc
      obtain ⟨_, g2, _, g4, g5⟩ := extendComments_same (s.insertNumbered m loc).1 x cs
      rw [k1] at g2 g4 g5
      have g6 := g5 k2
      rw [h1]
      refine ⟨g2, g6, ?_⟩
      rw [increasing_iff (good_newline g6), g4, ← increasing_iff (good_newline k2)]
      exact k3
  | remove loc => exact sh (remove_shrunk s loc)
  | removeNumbered n => exact sh (removeNumbered_state s n)
  | del i => exact sh (del_state s i)
  | delSlice a b c =>
    have h : ((s.delSlice a b c).1.tags.data.map bare).Sublist (s.tags.data.map bare) ∧ (s.delSlice a b c).1.kind = s.kind := by
      unfold delSlice
      split
      · exact ⟨List.Sublist.refl _, rfl⟩
      · exact delItems_tags _ _
    exact ⟨h.2, shrunk_good h.1 hg, shrunk_inc h.1 hg hi⟩

end Specfile.Sources
