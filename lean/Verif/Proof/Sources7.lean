import Verif.Proof.Sources6
/-
Sources: what is left after deletions.
-/
namespace Specfile.Sources
open Py Regex Spec

theorem listsShrunk_refl : ∀ ls, ListsShrunk ls ls
  | [] => .nil
  | _ :: ls => .cons (List.Sublist.refl _) (listsShrunk_refl ls)

theorem listsShrunk_trans {a b c : List Sourcelist} (h : ListsShrunk a b) (h' : ListsShrunk b c) : ListsShrunk a c := by
  induction h generalizing c with
  | nil => exact h'
  | cons h1 _ ih =>
    cases h' with
    | cons g1 g2 => exact .cons (g1.trans h1) (ih g2)

theorem listsShrunk_append {a a' b b' : List Sourcelist} (h : ListsShrunk a a') (h' : ListsShrunk b b') :
    ListsShrunk (a ++ b) (a' ++ b') := by
  induction h with
  | nil => exact h'
  | cons h1 _ ih => exact .cons h1 ih

theorem listsShrunk_modify {f : Sourcelist → List SourcelistEntry} (h : ∀ l, (f l).Sublist l.data) (ls : List Sourcelist) :
    ∀ k, ListsShrunk ls (ls.modify k (fun l => { l with data := f l })) := by
  induction ls with
  | nil => intro k; simp; exact .nil
  | cons l ls ih =>
    intro k
    cases k with
    | zero => exact .cons (h l) (listsShrunk_refl _)
    | succ k => rw [List.modify_succ_cons]; exact .cons (List.Sublist.refl _) (ih k)

variable [Uni]

theorem shrunk_refl (s : Sources) : Shrunk s.kind s s :=
  ⟨List.Sublist.refl _, rfl, listsShrunk_refl _, rfl⟩

theorem shrunk_kind {k : Str} {s s' : Sources} (h : Shrunk k s s') : s'.kind = s.kind := by
  rw [h.same]; rfl

theorem shrunk_trans {k : Str} {s s' s'' : Sources} (h : Shrunk k s s') (h' : Shrunk k s' s'') : Shrunk k s s'' := by
  refine ⟨h'.tags.trans h.tags, h'.others.trans h.others, listsShrunk_trans h.lists h'.lists, ?_⟩
  rw [h'.same, h.same]

theorem isNone_bare {k : Str} (t : Tag) : (sourceEntry k (bare t)).isNone = (sourceEntry k t).isNone := rfl

theorem others_of_bare {k : Str} {a b : List Tag} (h : a.map bare = b.map bare) :
    (a.filter (fun t => (sourceEntry k t).isNone)).map bare = (b.filter (fun t => (sourceEntry k t).isNone)).map bare := by
  have key : ∀ l : List Tag, (l.filter (fun t => (sourceEntry k t).isNone)).map bare =
      (l.map bare).filter (fun t => (sourceEntry k t).isNone) := by
    intro l
    rw [List.filter_map]
    rfl
  rw [key, key, h]

theorem delItem_shrunk {s : Sources} {k : Nat} {x : SourceItem} (h : s.items[k]? = some x) :
    ∃ s', s.delItem x = (s', none) ∧ Deleted s s' k ∧ Shrunk s.kind s s' := by
  obtain ⟨s', h1, h2⟩ := delItem_item h
  refine ⟨s', h1, h2, ?_⟩
  rcases h2.tags with ⟨a, t, b, g1, _, g3, g4, g5⟩ | ⟨g1, g2⟩
  · refine ⟨?_, ?_, ?_, h2.same⟩
    · rw [g4, g1, List.map_append, List.map_append, List.map_cons]
      exact (List.Sublist.refl _).append (List.sublist_cons_self _ _)
    · rw [others_of_bare g4, g1, List.filter_append, List.filter_append, List.filter_cons_of_neg]
      rw [entryM_isSome] at g3
      simp [Option.isSome_iff_ne_none] at g3 ⊢
      exact g3
    · rw [g5]; exact listsShrunk_refl _
  · refine ⟨by rw [g2]; exact List.Sublist.refl _, by rw [g2], ?_, h2.same⟩
    cases x with
    | tag ts =>
      simp only [delItem, Prod.mk.injEq] at h1
      rw [← h1.1]
      exact listsShrunk_refl _
    | entry e n i j =>
      simp only [delItem] at h1
      split at h1
      rotate_left
      · simp at h1
      simp only [Prod.mk.injEq] at h1
      rw [← h1.1]
      exact listsShrunk_modify (fun l => List.eraseIdx_sublist _ _) _ _

/-- deleting at descending positions -/
theorem delItems_shrunk (ks : List Nat) : ∀ (s : Sources), (ks.Pairwise (· > ·)) → (∀ k ∈ ks, k < s.items.length) →
    ∃ s', s.delItems (ks.filterMap (fun k => s.items[k]?)) = (s', none) ∧ Shrunk s.kind s s' := by
  induction ks with
  | nil => intro s _ _; exact ⟨s, rfl, shrunk_refl s⟩
  | cons k ks ih =>
    intro s hp hk
    obtain ⟨hp1, hp2⟩ := List.pairwise_cons.1 hp
    have hkl := hk k (.head _)
    have hx : s.items[k]? = some s.items[k] := List.getElem?_eq_getElem hkl
    obtain ⟨s1, g1, g2, g3⟩ := delItem_shrunk hx
    have hget : ∀ j, j < k → s1.items[j]? = s.items[j]? := by
      intro j hj
      have := congrArg (fun l => l[j]?) g2.before
      simp only [List.getElem?_take, if_pos hj] at this
      exact this
    rw [List.filterMap_cons_some hx, delItems, g1]
    have hmap : ks.filterMap (fun j => s.items[j]?) = ks.filterMap (fun j => s1.items[j]?) :=
      filterMap_congr' (fun j hj => (hget j (hp1 j hj)).symm)
    rw [hmap]
    obtain ⟨s', q1, q2⟩ := ih s1 hp2 (by
      intro j hj
      have hjk := hp1 j hj
      have hjl : j < s.items.length := hk j (.tail _ hj)
      have := hget j hjk
      rw [List.getElem?_eq_getElem hjl, List.getElem?_eq_some_iff] at this
      exact this.1)
    rw [shrunk_kind g3] at q2
    exact ⟨s', q1, shrunk_trans g3 q2⟩

omit [Uni] in
theorem filter_positions {α : Type} (p : α → Bool) (l : List α) :
    ∃ ks : List Nat, ks.Pairwise (· > ·) ∧ (∀ k ∈ ks, k < l.length) ∧
      l.reverse.filter p = ks.filterMap (fun k => l[k]?) := by
  have key : ∀ (pre post : List α), ∃ ks : List Nat, ks.Pairwise (· > ·) ∧
      (∀ k ∈ ks, k < pre.length) ∧ pre.reverse.filter p = ks.filterMap (fun k => (pre ++ post)[k]?) := by
    intro pre
    generalize hr : pre.reverse = r
    induction r generalizing pre with
    | nil => intro post; exact ⟨[], .nil, by simp, rfl⟩
    | cons x r ih =>
      intro post
      have hpre : pre = r.reverse ++ [x] := by
        have := congrArg List.reverse hr
        simpa using this
      subst hpre
      obtain ⟨ks, h1, h2, h3⟩ := ih r.reverse (by simp) (x :: post)
      by_cases hx : p x = true
      · refine ⟨r.length :: ks, ?_, ?_, ?_⟩
        · rw [List.pairwise_cons]
          exact ⟨fun k hk => by have := h2 k hk; simp at this; omega, h1⟩
        · intro k hk
          rcases List.mem_cons.1 hk with rfl | hk
          · simp
          · have := h2 k hk; simp at this ⊢; omega
        · rw [List.filter_cons_of_pos hx, List.filterMap_cons_some (b := x)]
          · rw [h3]; simp
          · simp
      · refine ⟨ks, h1, fun k hk => by have := h2 k hk; simp at this ⊢; omega, ?_⟩
        rw [List.filter_cons_of_neg hx, h3]
        simp
  have := key l []
  simpa using this

theorem remove_shrunk (s : Sources) (loc : Str) : Shrunk s.kind s (s.remove loc).1 := by
  obtain ⟨ks, h1, h2, h3⟩ := filter_positions (fun x => location x == loc) s.items
  unfold remove
  rw [h3]
  obtain ⟨s', g1, g2⟩ := delItems_shrunk ks s h1 h2
  rw [g1]; exact g2

omit [Uni] in
theorem listsShrunk_le {a b : List Sourcelist} {p : Str → Bool} (h : ListsShrunk a b)
    (hp : ∀ x ∈ listLocations b, p x = true) :
    (listLocations b).length ≤ ((listLocations a).filter p).length := by
  induction h with
  | nil => simp [listLocations]
  | @cons l d ls ls' h1 _ ih =>
    simp only [listLocations, List.flatMap_cons, List.filter_append, List.length_append, List.mem_append] at hp ih ⊢
    have h2 := ih (fun x hx => hp x (.inr hx))
    have h3 : (d.map (·.location)).filter p = d.map (·.location) := by
      rw [List.filter_eq_self]; exact fun x hx => hp x (.inl hx)
    have h4 := ((h1.map (·.location)).filter p).length_le
    rw [h3] at h4
    simp only [List.length_map] at h4 h2 ⊢
    omega

omit [Uni] in
/-- lists shrunk as far as a filter would -/
theorem listsShrunk_filter {a b : List Sourcelist} {p : Str → Bool} (h : ListsShrunk a b)
    (hp : ∀ x ∈ listLocations b, p x = true) (hl : ((listLocations a).filter p).length ≤ (listLocations b).length) :
    b = a.map (fun l => { l with data := l.data.filter (fun e => p e.location) }) ∧
      (listLocations b).length = ((listLocations a).filter p).length := by
  refine ⟨?_, Nat.le_antisymm (listsShrunk_le h hp) hl⟩
  induction h with
  | nil => rfl
  | @cons l d ls ls' h1 h2 ih =>
    simp only [listLocations, List.flatMap_cons, List.filter_append, List.length_append, List.mem_append] at hp hl ih
    have hd : ∀ x ∈ d, p x.location = true := fun x hx => hp _ (.inl (List.mem_map_of_mem hx))
    have hfd : d.filter (fun e => p e.location) = d := List.filter_eq_self.2 hd
    have h4 := h1.filter (fun e => p e.location)
    rw [hfd] at h4
    have h5 := h4.length_le
    have h6 := listsShrunk_le h2 (fun x hx => hp x (.inr hx))
    simp only [listLocations] at h6
    have h7 : ((l.data.map (·.location)).filter p).length = (l.data.filter (fun e => p e.location)).length := by
      rw [List.filter_map, List.length_map]; rfl
    rw [h7] at hl
    simp only [List.length_map] at hl
    have h8 : d = l.data.filter (fun e => p e.location) := h4.eq_of_length (by omega)
    rw [List.map_cons, ← h8, ← ih (fun x hx => hp x (.inr hx)) (by omega)]

/-- the tags left are the others and those that pass -/
theorem tags_filter {k : Str} {d d' : List Tag} {p : Str → Bool} (h : (d'.map bare).Sublist (d.map bare))
    (ho : (d'.filter (fun t => (sourceEntry k t).isNone)).map bare = (d.filter (fun t => (sourceEntry k t).isNone)).map bare)
    (hp : ∀ x ∈ vals k d', p x = true) (hl : ((vals k d).filter p).length ≤ (vals k d').length) :
    d'.map bare = (d.filter (fun t => (sourceEntry k t).isNone || p t.value)).map bare := by
  have hq : ∀ l : List Tag, (l.filter (fun t => (sourceEntry k t).isNone || p t.value)).map bare =
      (l.map bare).filter (fun t => (sourceEntry k t).isNone || p t.value) := by
    intro l; rw [List.filter_map]; rfl
  have hall : d'.filter (fun t => (sourceEntry k t).isNone || p t.value) = d' := by
    rw [List.filter_eq_self]
    intro t ht
    cases hs : sourceEntry k t with
    | none => rfl
    | some e =>
      have : t.value ∈ vals k d' := by
        unfold vals
        apply List.mem_map_of_mem
        rw [List.mem_filter]
        exact ⟨ht, by rw [entryM_isSome, hs]; rfl⟩
      simp [hp _ this]
  have h1 := h.filter (fun t => (sourceEntry k t).isNone || p t.value)
  rw [← hq, ← hq, hall] at h1
  apply h1.eq_of_length_le
  rw [List.length_map, List.length_map]
  have count : ∀ l : List Tag, (l.filter (fun t => (sourceEntry k t).isNone || p t.value)).length =
      ((l.filter (fun t => (sourceEntry k t).isNone)).map bare).length + ((vals k l).filter p).length := by
    intro l
    induction l with
    | nil => rfl
    | cons t l ih =>
      cases hs : sourceEntry k t with
      | none =>
        have he : entryM k t = none := by
          have := entryM_isSome k t
          rw [hs] at this
          simpa using this
        rw [List.filter_cons_of_pos (by simp [hs]), List.filter_cons_of_pos (by simp [hs]), vals_cons_none he]
        simp only [List.length_cons, List.length_map] at ih ⊢
        omega
      | some e =>
        have : (entryM k t).isSome := by rw [entryM_isSome, hs]; rfl
        obtain ⟨e', he⟩ := Option.isSome_iff_exists.1 this
        rw [vals_cons_some he, List.filter_cons_of_neg (p := fun t => (sourceEntry k t).isNone) (by simp [hs])]
        cases hpv : p t.value with
        | true =>
          rw [List.filter_cons_of_pos (by simp [hpv]), List.filter_cons_of_pos hpv]
          simp only [List.length_cons, List.length_map] at ih ⊢
          omega
        | false =>
          rw [List.filter_cons_of_neg (by simp [hs, hpv]), List.filter_cons_of_neg (by simp [hpv])]
          exact ih
  have hc := count d
  have hc' := count d'
  rw [hall] at hc'
  have : (vals k d').filter p = vals k d' := List.filter_eq_self.2 hp
  rw [this] at hc'
  rw [ho] at hc'
  omega

theorem remove_exact (s : Sources) (loc : Str) : ∃ s', s.remove loc = (s', none) ∧
    s'.tags.data.map bare = (s.tags.data.filter (fun t => (sourceEntry s.kind t).isNone || t.value != loc)).map bare ∧
    s'.lists = s.lists.map (fun l => { l with data := l.data.filter (fun e => e.location != loc) }) ∧
    s' = { s with tags := s'.tags, lists := s'.lists } := by
  obtain ⟨s', h1, h2, h3⟩ := remove_spec s loc
  have h4 : Shrunk s.kind s s' := by have := remove_shrunk s loc; rw [h1] at this; exact this
  have hk := shrunk_kind h4
  rw [locations_eq, locations_eq, hk, List.filter_append] at h2
  have hall : ∀ x ∈ vals s.kind s'.tags.data ++ listLocations s'.lists, (x != loc) = true := by
    rw [h2, ← List.filter_append]
    intro x hx
    exact (List.mem_filter.1 hx).2
  have hlenL : (listLocations s'.lists).length ≤ ((listLocations s.lists).filter (fun l => l != loc)).length := by
    exact listsShrunk_le h4.lists (fun x hx => hall x (List.mem_append_right _ hx))
  have hlenT : (vals s.kind s'.tags.data).length ≤ ((vals s.kind s.tags.data).filter (fun l => l != loc)).length := by
    have h5 : (vals s.kind (s'.tags.data.map bare)).Sublist (vals s.kind (s.tags.data.map bare)) := by
      unfold vals
      exact (h4.tags.filter _).map _
    rw [vals_bare, vals_bare] at h5
    have h6 := (h5.filter (fun l => l != loc)).length_le
    rwa [List.filter_eq_self.2 (fun x hx => hall x (List.mem_append_left _ hx))] at h6
  have hsum := congrArg List.length h2
  simp only [List.length_append] at hsum
  refine ⟨s', h1, ?_, ?_, h3⟩
  · exact tags_filter h4.tags h4.others (fun x hx => hall x (List.mem_append_left _ hx)) (by omega)
  · exact (listsShrunk_filter h4.lists (fun x hx => hall x (List.mem_append_right _ hx)) (by omega)).1

end Specfile.Sources
