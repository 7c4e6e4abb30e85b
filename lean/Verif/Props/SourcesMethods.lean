import Verif.Model.SourcesMethods
import Verif.Props.Sources
import Verif.Props.Equality
/-
C63 (continued): methods that sources inherit. C88 (continued): equality of sources.
-/
namespace Specfile.Props
open Py Spec Sources

section
variable [Uni]

theorem shrunk_trans {s s' s'' : Sources} (h : Shrunk s.kind s s') (h' : Shrunk s'.kind s' s'') : Shrunk s.kind s s'' := by
  have hk := shrunk_kind h
  refine ⟨h'.tags.trans h.tags, ?_, listsShrunk_trans h.lists h'.lists, ?_⟩
  · have := h'.others
    rw [hk] at this
    rw [this, h.others]
  · have h1 := h.same
    have h2 := h'.same
    rw [h1] at h2
    exact h2

theorem extend_kind {s s' : Sources} {loc : Str} (h : OneMore s.kind s s' loc) : s'.kind = s.kind ∧
    s'.allowDuplicates = s.allowDuplicates := by
  cases h with
  | tag a b new _ _ _ _ h => rw [h]; exact ⟨rfl, rfl⟩
  | entry la lb l a b v _ _ _ h => rw [h]; exact ⟨rfl, rfl⟩

/-- C63: `extend` and `+=` add the locations in order at the end, up to the first one that is there already, if duplicates are
not allowed: this one is reported, and what has been added stays. -/
theorem C63_extend (s : Sources) (locs : List Str) :
    ∃ added s' e, s.extend locs = (s', e) ∧ s'.kind = s.kind ∧
      allLocations s.kind s' = allLocations s.kind s ++ added ∧
      ((e = none ∧ added = locs) ∨
       (e = some .duplicateSource ∧ s.allowDuplicates = false ∧ ∃ loc rest, locs = added ++ loc :: rest ∧
         loc ∈ allLocations s.kind s ++ added)) ∧
      (s.allowDuplicates = false → (allLocations s.kind s).Nodup → (allLocations s.kind s').Nodup) := by
  induction locs generalizing s with
  | nil => exact ⟨[], s, none, rfl, rfl, by simp, .inl ⟨rfl, rfl⟩, fun _ h => h⟩
  | cons loc locs ih =>
    by_cases hd : s.allowDuplicates = true ∨ loc ∉ allLocations s.kind s
    · obtain ⟨s1, h1, h2, h3⟩ := C23_append s loc hd
      obtain ⟨hk, ha⟩ := extend_kind h3
      obtain ⟨added, s', e, g1, g2, g3, g4, g5⟩ := ih s1
      rw [hk, h2] at g3 g4 g5
      rw [ha] at g4 g5
      refine ⟨loc :: added, s', e, by simp only [Sources.extend, h1, g1], g2.trans hk, by rw [g3]; simp, ?_, ?_⟩
      · rcases g4 with ⟨rfl, rfl⟩ | ⟨rfl, hf, l, r, rfl, hm⟩
        · exact .inl ⟨rfl, rfl⟩
        · exact .inr ⟨rfl, hf, l, r, rfl, by simpa using hm⟩
      · intro hf hn
        refine g5 hf ?_
        rw [List.nodup_append]
        refine ⟨hn, by simp, ?_⟩
        intro a ha b hb
        rcases hd with hd | hd
        · rw [hf] at hd; cases hd
        · simp at hb; subst hb; rintro rfl; exact hd ha
    · have hf : s.allowDuplicates = false := by
        cases h : s.allowDuplicates with
        | false => rfl
        | true => exact absurd (.inl h) hd
      have hm : loc ∈ allLocations s.kind s := Decidable.not_not.1 (fun h => hd (.inr h))
      exact ⟨[], s, some .duplicateSource, by simp only [Sources.extend, (C24_rejected s loc hf hm).2.1], rfl, by simp,
        .inr ⟨rfl, hf, loc, locs, rfl, by simpa using hm⟩, fun _ h => h⟩

/-- C63: `pop` gives the source at the index and takes it away, and nothing else. -/
theorem C63_pop (s : Sources) (i : Int) :
    (pyIndex (allLocations s.kind s).length i = none ∧ s.pop i = (s, .error .indexError)) ∨
    ∃ k x s', pyIndex (allLocations s.kind s).length i = some k ∧ s.pop i = (s', .ok x) ∧
      (allLocations s.kind s)[k]? = some (location x) ∧ s.get i = .ok x ∧
      allLocations s.kind s' = (allLocations s.kind s).eraseIdx k ∧ Shrunk s.kind s s' := by
  rcases C63_get s i with ⟨h1, h2⟩ | ⟨k, x, h1, h2, h3, -⟩
  · exact .inl ⟨h1, by simp only [Sources.pop, h2]⟩
  · rcases C27_del s i with ⟨g1, -⟩ | ⟨s', k', g1, g2, g3, g4⟩
    · rw [g1] at h1; cases h1
    · rw [h1] at g1
      cases g1
      exact .inr ⟨k, x, s', h1, by simp only [Sources.pop, h2, g2], h3, h2, g3, g4⟩

/-- C63: `clear` always ends and takes all sources away, and nothing else. -/
theorem C63_clear (s : Sources) : ∃ s', s.clear = (s', none) ∧ allLocations s.kind s' = [] ∧ Shrunk s.kind s s' := by
  have key : ∀ (n : Nat) (s : Sources), (allLocations s.kind s).length < n →
      ∃ s', s.clearLoop n = (s', none) ∧ allLocations s.kind s' = [] ∧ Shrunk s.kind s s' := by
    intro n
    induction n with
    | zero => intro s h; omega
    | succ n ih =>
      intro s h
      rcases C63_pop s (-1) with ⟨h1, h2⟩ | ⟨k, x, s1, h1, h2, -, -, h3, h4⟩
      · refine ⟨s, by simp only [clearLoop, h2], ?_, shrunk_refl s⟩
        apply List.length_eq_zero_iff.1
        unfold pyIndex at h1
        rw [if_neg (by omega)] at h1
        split at h1
        · cases h1
        · omega
      · have hk := shrunk_kind h4
        obtain ⟨s', g1, g2, g3⟩ := ih s1 (by
          rw [hk, h3, List.length_eraseIdx, if_pos (pyIndex_lt h1)]
          have := pyIndex_lt h1
          omega)
        refine ⟨s', by simp only [clearLoop, h2, g1], by rw [← hk]; exact g2, shrunk_trans h4 g3⟩
  exact key _ s (by rw [(C63_read s).2.1]; omega)

theorem get_nat (s : Sources) (i : Nat) :
    (s.items[i]? = none → s.get i = .error .indexError) ∧ ∀ x, s.items[i]? = some x → s.get i = .ok x := by
  constructor
  · intro h
    have : ¬ i < s.items.length := by rw [List.getElem?_eq_none_iff] at h; omega
    simp [Sources.get, pyIndex, this]
  · intro x h
    have := (List.getElem?_eq_some_iff.1 h).1
    simp only [Sources.get, pyIndex_ofNat this, h]

/-- the search for a source: the first one that is the same -/
theorem indexLoop_spec (s : Sources) (same : SourceItem → Bool) : ∀ (n i : Nat), s.items.length < i + n → i ≤ s.items.length →
    (s.indexLoop same n i = .error .valueError ∧ ∀ y ∈ s.items.drop i, same y = false) ∨
    ∃ k y, s.indexLoop same n i = .ok k ∧ i ≤ k ∧ s.items[k]? = some y ∧ same y = true ∧
      ∀ (j : Nat) z, i ≤ j → j < k → s.items[j]? = some z → same z = false := by
  intro n
  induction n with
  | zero => intro i h1 h2; omega
  | succ n ih =>
    intro i h1 h2
    cases hx : s.items[i]? with
    | none =>
      refine .inl ⟨by simp only [indexLoop, (get_nat s i).1 hx], ?_⟩
      rw [List.drop_eq_nil_of_le (List.getElem?_eq_none_iff.1 hx)]
      simp
    | some x =>
      have hlt := (List.getElem?_eq_some_iff.1 hx).1
      have hg := (get_nat s i).2 x hx
      cases hs : same x with
      | true =>
        refine .inr ⟨i, x, by simp [indexLoop, hg, hs], Nat.le_refl _, hx, hs, ?_⟩
        intro j z h3 h4
        omega
      | false =>
        have hl : s.indexLoop same (n + 1) i = s.indexLoop same n (i + 1) := by simp [indexLoop, hg, hs]
        rw [hl]
        rcases ih (i + 1) (by omega) (by omega) with ⟨g1, g2⟩ | ⟨k, y, g1, g2, g3, g4, g5⟩
        · refine .inl ⟨g1, ?_⟩
          intro y hy
          rw [List.drop_eq_getElem_cons hlt] at hy
          rcases List.mem_cons.1 hy with rfl | hy
          · rw [List.getElem?_eq_getElem hlt] at hx
            cases hx; exact hs
          · exact g2 y hy
        · refine .inr ⟨k, y, g1, by omega, g3, g4, ?_⟩
          intro j z h3 h4 hz
          by_cases hj : j = i
          · subst hj; rw [hx] at hz; cases hz; exact hs
          · exact g5 j z (by omega) h4 hz

omit [Uni] in
theorem itemEq_refl (x : SourceItem) : itemEq x x = true := by
  cases x with
  | tag ts => simp [itemEq, Tags.eqv, Comments.eqv]
  | entry e n k i =>
    simp [itemEq, Equality.sourcelistEntryEq, Equality.commentsEq, (Equality.listEq_eq (fun _ _ => Equality.commentEq_iff))]

theorem itemEq_same {x y : SourceItem} (h : itemEq x y = true) : location x = location y ∧ itemNumber x = itemNumber y := by
  cases x with
  | tag a =>
    cases y with
    | tag b =>
      simp [itemEq, Tags.eqv] at h
      obtain ⟨⟨⟨⟨⟨⟨h1, h2⟩, -⟩, -⟩, -⟩, -⟩, h3⟩ := h
      refine ⟨h2, ?_⟩
      simp only [itemNumber, number, extractNumber, h1, h3]
    | entry => simp [itemEq] at h
  | entry e n k i =>
    cases y with
    | tag b => simp [itemEq] at h
    | entry f m k' i' =>
      simp [itemEq, Equality.sourcelistEntryEq] at h
      exact ⟨h.1.1, h.2⟩

/-- C63: `index` of a source that is there gives the position of the first source that is equal to it; this one has the
same location and the same number, and it is the source itself if no other source has its location or no other has its
number. Missing: `index` of a location, see `C63_index_violation`. -/
theorem C63_index_partial (s : Sources) (k : Nat) (x : SourceItem) (hx : s.items[k]? = some x) :
    ∃ j y, s.indexItem x = .ok j ∧ j ≤ k ∧ s.items[j]? = some y ∧ location y = location x ∧ itemNumber y = itemNumber x ∧
      ((allLocations s.kind s).count (location x) = 1 ∨ (s.items.map itemNumber).Nodup → j = k) := by
  have hk := (List.getElem?_eq_some_iff.1 hx).1
  rcases indexLoop_spec s (fun y => itemEq y x) (s.len + 1) 0 (by unfold len; omega) (Nat.zero_le _) with
    ⟨-, h2⟩ | ⟨j, y, h1, -, h2, h3, h4⟩
  · have := h2 x (by rw [List.drop_zero]; exact List.mem_of_getElem? hx)
    rw [itemEq_refl] at this
    cases this
  · obtain ⟨g1, g2⟩ := itemEq_same h3
    have hle : j ≤ k := by
      refine Nat.le_of_not_lt (fun hlt => ?_)
      have := h4 k x (Nat.zero_le _) hlt hx
      rw [itemEq_refl] at this
      cases this
    refine ⟨j, y, h1, hle, h2, g1, g2, ?_⟩
    rintro (hc | hn)
    · refine Decidable.byContradiction (fun hne => ?_)
      have hlt : j < k := by omega
      rw [← (C63_read s).1] at hc
      have hsub : [location x, location x].Sublist (s.items.map location) := by
        have e1 : (s.items.map location) = (s.items.map location).take k ++ (s.items.map location).drop k :=
          (List.take_append_drop ..).symm
        rw [e1]
        refine List.Sublist.append (l₁ := [location x]) (r₁ := [location x]) ?_ ?_
        · rw [List.singleton_sublist, List.mem_iff_getElem?]
          exact ⟨j, by rw [List.getElem?_take_of_lt hlt, List.getElem?_map, h2, ← g1]; rfl⟩
        · rw [List.singleton_sublist, List.mem_iff_getElem?]
          exact ⟨0, by rw [List.getElem?_drop, List.getElem?_map]; simp [hx]⟩
      have := hsub.count_le (location x)
      rw [hc] at this
      simp at this
    · have hj := (List.getElem?_eq_some_iff.1 h2).1
      refine (List.getElem_inj (h₀ := by simpa using hj) (h₁ := by simpa using hk) hn).1 ?_
      rw [List.getElem_map, List.getElem_map]
      rw [List.getElem?_eq_getElem hj] at h2
      rw [List.getElem?_eq_getElem hk] at hx
      simp only [Option.some.injEq] at h2 hx
      rw [h2, hx, g2]

/-- What is wrong with `index`: it raises `ValueError` for every location, also for one that is contained, counted and could
be removed. -/
theorem C63_index_violation (s : Sources) (loc : Str) : s.indexText loc = .error .valueError := by
  rcases indexLoop_spec s (fun y => itemEqText y loc) (s.len + 1) 0 (by unfold len; omega) (Nat.zero_le _) with
    ⟨h1, -⟩ | ⟨j, y, -, -, -, h, -⟩
  · exact h1
  · cases h

/-! ### equality -/

theorem tagLoop_eq (kind : Str) : ∀ (next i : Nat) (a b : List Tag), Equality.listEq Tags.eqv a b = true →
    (tagLoop kind next i a).map (fun ts => (ts.idx, ts.tag.name, ts.tag.value, ts.implicit)) =
      (tagLoop kind next i b).map (fun ts => (ts.idx, ts.tag.name, ts.tag.value, ts.implicit))
  | _, _, [], [], _ => rfl
  | _, _, [], _ :: _, h => by simp [Equality.listEq] at h
  | _, _, _ :: _, [], h => by simp [Equality.listEq] at h
  | next, i, x :: a, y :: b, h => by
    simp only [Equality.listEq, Bool.and_eq_true] at h
    obtain ⟨hx, h⟩ := h
    have hn : x.name = y.name ∧ x.value = y.value := by
      simp only [Tags.eqv, Bool.and_eq_true, beq_iff_eq] at hx
      exact ⟨hx.1.1.1.1.1, hx.1.1.1.1.2⟩
    have e1 : Tags.normalizedName x = Tags.normalizedName y := by unfold Tags.normalizedName; rw [hn.1]
    have e2 : number ⟨i, x, none⟩ = number ⟨i, y, none⟩ := by simp only [number, hn.1]
    rw [tagLoop, tagLoop, e1, e2]
    split
    · simp [hn, tagLoop_eq kind _ _ a b h]
    · split
      · simp [hn, tagLoop_eq kind _ _ a b h]
      · exact tagLoop_eq kind _ _ a b h

theorem listItems_eq (first k : Nat) : ∀ (i : Nat) (a b : List SourcelistEntry), Equality.listEq Equality.sourcelistEntryEq a b = true →
    (listItems first k i a).map (fun x => (location x, itemNumber x)) = (listItems first k i b).map (fun x => (location x, itemNumber x))
  | _, [], [], _ => rfl
  | _, [], _ :: _, h => by simp [Equality.listEq] at h
  | _, _ :: _, [], h => by simp [Equality.listEq] at h
  | i, x :: a, y :: b, h => by
    simp only [Equality.listEq, Bool.and_eq_true] at h
    have hx : x.location = y.location := by
      have := h.1
      simp only [Equality.sourcelistEntryEq, Bool.and_eq_true, beq_iff_eq] at this
      exact this.1
    have e : (location (.entry x (first + i) k i), itemNumber (.entry x (first + i) k i)) =
        (location (.entry y (first + i) k i), itemNumber (.entry y (first + i) k i)) := by simp [location, itemNumber, hx]
    simp only [listItems, List.map_cons, e, listItems_eq first k (i + 1) a b h.2]

theorem allListItems_eq (first : Nat) : ∀ (k : Nat) (a b : List Sourcelist), Equality.listEq Equality.sourcelistEq a b = true →
    (allListItems first k a).map (fun x => (location x, itemNumber x)) = (allListItems first k b).map (fun x => (location x, itemNumber x))
  | _, [], [], _ => rfl
  | _, [], _ :: _, h => by simp [Equality.listEq] at h
  | _, _ :: _, [], h => by simp [Equality.listEq] at h
  | k, x :: a, y :: b, h => by
    simp only [Equality.listEq, Bool.and_eq_true] at h
    simp [allListItems, listItems_eq first k 0 _ _ h.1, allListItems_eq first (k + 1) a b h.2]

/-- C88: comparing sources with `==` is an equivalence, and equal sources, both of them sources or both of them patches, have
the same locations and numbers in the same order. Missing: sources can be equal to patches, see `C88_violation_sources`. -/
theorem C88_sources_partial : Spec.Equivalence sourcesEq ∧ ∀ a b, sourcesEq a b = true → a.patches = b.patches →
    a.items.map (fun x => (location x, itemNumber x)) = b.items.map (fun x => (location x, itemNumber x)) := by
  constructor
  · have part : ∀ {α β : Type} [BEq β] [LawfulBEq β] (f : α → β), Spec.Equivalence (fun a b : α => f a == f b) :=
      fun f => Equality.comap Equality.beq_equivalence f
    exact Equality.and_equivalence (Equality.and_equivalence (Equality.and_equivalence (Equality.and_equivalence
      (Equality.comap C88_equivalence.2.2.2.2.2.1 Sources.tags)
      (Equality.comap (Equality.listEq_equivalence C88_equivalence.2.2.2.2.2.2.2.2.2.1) Sources.lists))
      (part Sources.allowDuplicates)) (part Sources.implicitDefault)) (part Sources.digits)
  · intro a b h hp
    simp only [sourcesEq, Equality.tagsEq, Bool.and_eq_true] at h
    obtain ⟨⟨⟨⟨ht, hl⟩, -⟩, -⟩, -⟩ := h
    have hk : a.kind = b.kind := by simp only [kind, hp]
    have key := tagLoop_eq a.kind 0 0 _ _ ht
    have e : ∀ s : Sources, s.getTags.map (fun ts => (ts.tag.value, number ts)) =
        (s.getTags.map (fun ts => (ts.idx, ts.tag.name, ts.tag.value, ts.implicit))).map
          (fun x => (x.2.2.1, number ⟨x.1, ⟨x.2.1, x.2.2.1, [], ⟨[], []⟩, true, [], []⟩, x.2.2.2⟩)) := by
      intro s
      rw [List.map_map]
      exact List.map_congr_left (fun ts _ => rfl)
    have k2 : a.getTags.map (fun ts => (ts.tag.value, number ts)) = b.getTags.map (fun ts => (ts.tag.value, number ts)) := by
      rw [e, e]
      congr 1
      show (tagLoop a.kind 0 0 a.tags.data).map _ = (tagLoop b.kind 0 0 b.tags.data).map _
      rw [← hk]
      exact key
    have k3 : a.firstListNumber = b.firstListNumber := by
      have := congrArg (fun l => l.getLast?.map (·.2)) k2
      simp only [List.getLast?_map] at this
      unfold firstListNumber
      cases ha : a.getTags.getLast? with
      | none => rw [ha] at this; cases hb : b.getTags.getLast? with
        | none => rfl
        | some y => rw [hb] at this; simp at this
      | some x => rw [ha] at this; cases hb : b.getTags.getLast? with
        | none => rw [hb] at this; simp at this
        | some y => rw [hb] at this; simp at this; simp [this]
    have k4 : ∀ s : Sources, (s.getTags.map SourceItem.tag).map (fun x => (location x, itemNumber x)) =
        s.getTags.map (fun ts => (ts.tag.value, number ts)) := fun s => by
      rw [List.map_map]
      exact List.map_congr_left (fun ts _ => rfl)
    rw [items, items, List.map_append, List.map_append, k4, k4, k2, k3, allListItems_eq _ 0 _ _ hl]

end

section
attribute [local instance] asciiUni

/-- cases for the methods: extended in spite of a duplicate, popped from the list and from the tags, cleared -/
example : (exSources.extend [s% "x", s% "y"]).2 = none := by decide +kernel
example : ((exSources.extend [s% "x", s% "a", s% "y"]).2, allLocations exSources.kind (exSources.extend [s% "x", s% "a", s% "y"]).1) =
    (some .duplicateSource, [s% "a", s% "b", s% "c", s% "d", s% "e", s% "x"]) := by decide +kernel
example : (allLocations exSources.kind (exSources.pop (-1)).1, allLocations exSources.kind (exSources.pop 1).1) =
    ([s% "a", s% "b", s% "c", s% "d"], [s% "a", s% "c", s% "d", s% "e"]) := by decide +kernel
example : exSources.clear.1.tags.data.map (·.name) = [s% "Name", s% "License", s% "Patch7"] := by decide +kernel
example : exSources.items.map (fun x => exSources.indexItem x) = [.ok 0, .ok 1, .ok 2, .ok 3, .ok 4] := by decide +kernel
example : exSources.contains (s% "a") = true ∧ exSources.count (s% "a") = 1 ∧
    exSources.indexText (s% "a") = .error .valueError := by decide +kernel

/-- the hypotheses of `C88_sources_partial` hold for different objects: what is valid is not compared -/
example : sourcesEq exSources { exSources with tags := { exSources.tags with remainder := [s% "x"] } } = true := by decide +kernel

/-- C88 fails for sources: they are equal to the patches of the same spec file, which are others. -/
theorem C88_violation_sources : sourcesEq exSources { exSources with patches := true } = true ∧
    exSources.locations = [s% "a", s% "b", s% "c", s% "d", s% "e"] ∧
    ({ exSources with patches := true } : Sources).locations ≠ exSources.locations ∧
    ({ exSources with patches := true, lists := [] } : Sources).items.map itemNumber = [7] := by decide +kernel

end

end Specfile.Props
