import Verif.Spec.Sharing
import Verif.Proof.Heap
/-
Lemmas about containers that share their elements.
-/
namespace Specfile.SharingProof
open Py ListMethods Slices Sharing Spec
open Heap (upd)

/-! ### the kinds of containers -/

theorem changelog_sound : Sound Changelog where
  build _ := rfl
  data _ _ := rfl
  rest _ _ _ := rfl
  pass _ l x := by
    cases x
    simp [Passing.pass]
  below _ l r := by simp [Passing.below]
  withData _ _ _ := rfl
  sliced _ _ _ := rfl
  del l r i := by
    simp only [Deleting.del, Changelog.delete, delParts, Passing.build, Passing.passes, Passing.pass, Passing.below,
      Passing.lines]
    cases pyIndex l.length i with
    | none => rfl
    | some k =>
      have e : ((l[k]?.map (·.following)).getD []).drop 1 = (l[k]?.map (fun e => e.following.drop 1)).getD [] := by
        cases l[k]? <;> rfl
      simp only [if_true, e]
      split
      · cases pyIndex (l.eraseIdx k).length i <;> rfl
      · rfl
  delAt c start stop step := by
    have loop : ∀ (ks : List Nat) (c : Changelog), Changelog.deleteAll ks c = delLoop c ks := by
      intro ks
      induction ks with
      | nil => intro c; rfl
      | cons k ks ih =>
        intro c
        simp only [Changelog.deleteAll, delLoop, Deleting.del]
        rcases Changelog.delete c k with ⟨c', _ | e⟩
        · exact ih c'
        · rfl
    simp only [Deleting.delAt, Changelog.deleteSlice, Listed.data, Passing.passes]
    split
    · next h => rw [h]
    · next h => rw [h]; simp [loop]

theorem definitions_sound : Sound MacroDefinitions where
  build _ := rfl
  data _ _ := rfl
  rest _ _ _ := rfl
  pass _ l x := by
    cases x
    simp [Passing.pass]
  below _ l r := by simp [Passing.below]
  withData _ _ _ := rfl
  sliced _ _ _ := rfl
  del l r i := by
    simp only [Deleting.del, MacroDefinitions.delItem, delParts, Passing.build, Passing.passes, Passing.pass, Passing.below,
      Passing.lines]
    cases pyIndex l.length i with
    | none => rfl
    | some k =>
      simp only [if_true]
      split
      · cases pyIndex (l.eraseIdx k).length i <;> rfl
      · rfl
  delAt c start stop step := by
    have loop : ∀ (ks : List Nat) (c : MacroDefinitions), MacroDefinitions.delAll c ks = delLoop c ks := by
      intro ks
      induction ks with
      | nil => intro c; rfl
      | cons k ks ih =>
        intro c
        simp only [MacroDefinitions.delAll, delLoop, Deleting.del]
        rcases MacroDefinitions.delItem c k with ⟨c', _ | e⟩
        · exact ih c'
        · rfl
    simp only [Deleting.delAt, MacroDefinitions.delSlice, Listed.data, Passing.passes]
    split
    · next h => rw [h]
    · next h => rw [h]; simp [loop]

theorem prep_sound [Uni] : Sound Prep where
  build _ := rfl
  data _ _ := rfl
  rest _ _ _ := rfl
  pass _ l x := by
    cases x
    simp [Passing.pass]
  below _ l r := by simp [Passing.below]
  withData _ _ _ := rfl
  sliced _ _ _ := rfl
  del l r i := by
    simp only [Deleting.del, Prep.delItem, delParts, Passing.build, Passing.passes, Passing.pass, Passing.below,
      Passing.lines]
    cases pyIndex l.length i with
    | none => rfl
    | some k =>
      simp only [if_true]
      split
      · cases pyIndex (l.eraseIdx k).length i <;> rfl
      · rfl
  delAt c start stop step := by
    have loop : ∀ (ks : List Nat) (c : Prep), Prep.delAll c ks = delLoop c ks := by
      intro ks
      induction ks with
      | nil => intro c; rfl
      | cons k ks ih =>
        intro c
        simp only [Prep.delAll, delLoop, Deleting.del]
        rcases Prep.delItem c k with ⟨c', _ | e⟩
        · exact ih c'
        · rfl
    simp only [Deleting.delAt, Prep.delSlice, Listed.data, Passing.passes]
    split
    · next h => rw [h]
    · next h => rw [h]; simp [loop]

theorem sections_sound : Sound Sections where
  build _ := rfl
  data _ _ := rfl
  rest p := by simp [Passing.passes] at p
  pass p := by simp [Passing.passes] at p
  below p := by simp [Passing.passes] at p
  withData _ _ _ := rfl
  sliced _ _ _ := rfl
  del l r i := by
    simp only [Deleting.del, Slices.delItem, delParts, Passing.build, Passing.passes, Listed.data, Listed.withData]
    cases pyIndex l.length i <;> rfl
  delAt c start stop step := by
    simp only [Deleting.delAt, Slices.delSlice, Passing.passes]
    cases sliceIndices (Listed.data c).length start stop step <;> rfl

theorem sourcelist_sound : Sound Sourcelist where
  build _ := rfl
  data _ _ := rfl
  rest p := by simp [Passing.passes] at p
  pass p := by simp [Passing.passes] at p
  below p := by simp [Passing.passes] at p
  withData _ _ _ := rfl
  sliced _ _ _ := rfl
  del l r i := by
    simp only [Deleting.del, Slices.delItem, delParts, Passing.build, Passing.passes, Listed.data, Listed.withData]
    cases pyIndex l.length i <;> rfl
  delAt c start stop step := by
    simp only [Deleting.delAt, Slices.delSlice, Passing.passes]
    cases sliceIndices (Listed.data c).length start stop step <;> rfl

/-! ### what an edit leaves alone -/

/-- the container `r` was edited, and objects were changed only if `P` -/
structure Frame {α : Type} (h h' : Mem α) (r : Nat) (P : Prop) : Prop where
  next : h.next ≤ h'.next
  other : ∀ x, x ≠ r → h'.obj x = h.obj x
  data : ∀ a ∈ (h'.obj r).data, a ∈ (h.obj r).data ∨ (h.next ≤ a ∧ a < h'.next)
  nodup : (∀ a ∈ (h.obj r).data, a < h.next) → (h.obj r).data.Nodup → (h'.obj r).data.Nodup
  rest : (h'.obj r).rest = (h.obj r).rest ∨ (h.next ≤ (h'.obj r).rest ∧ (h'.obj r).rest < h'.next)
  item : ∀ a, a < h.next → (a ∉ (h.obj r).data ∨ ¬P) → h'.item a = h.item a
  lines : ∀ a, a < h.next → (a ≠ (h.obj r).rest ∨ ¬P) → h'.lines a = h.lines a

variable {α : Type}

theorem Frame.refl (h : Mem α) (r : Nat) (P : Prop) : Frame h h r P :=
  ⟨Nat.le_refl _, fun _ _ => rfl, fun _ h => .inl h, fun _ h => h, .inl rfl, fun _ _ _ => rfl, fun _ _ _ => rfl⟩

theorem Frame.exists {h h' : Mem α} {r : Nat} {P : Prop} (f : Frame h h' r P) {x : Nat} (w : Exists h x) : Exists h' x := by
  by_cases e : x = r
  · subst e
    refine ⟨Nat.lt_of_lt_of_le w.self f.next, fun a ha => ?_, ?_⟩
    · rcases f.data a ha with m | m
      · exact Nat.lt_of_lt_of_le (w.data a m) f.next
      · exact m.2
    · rcases f.rest with m | m
      · rw [m]; exact Nat.lt_of_lt_of_le w.rest f.next
      · exact m.2
  · refine ⟨Nat.lt_of_lt_of_le w.self f.next, ?_, ?_⟩
    · rw [f.other x e]; exact fun a ha => Nat.lt_of_lt_of_le (w.data a ha) f.next
    · rw [f.other x e]; exact Nat.lt_of_lt_of_le w.rest f.next

theorem Frame.trans {h h' h'' : Mem α} {r : Nat} {P : Prop} (f : Frame h h' r P) (g : Frame h' h'' r P)
    (w : Exists h r) : Frame h h'' r P where
  next := Nat.le_trans f.next g.next
  other x hx := (g.other x hx).trans (f.other x hx)
  data a ha := by
    rcases g.data a ha with m | m
    · rcases f.data a m with m | m
      · exact .inl m
      · exact .inr ⟨m.1, Nat.lt_of_lt_of_le m.2 g.next⟩
    · exact .inr ⟨Nat.le_trans f.next m.1, m.2⟩
  nodup b n := g.nodup (f.exists w).data (f.nodup b n)
  rest := by
    rcases g.rest with m | m
    · rw [m]
      rcases f.rest with m | m
      · exact .inl m
      · exact .inr ⟨m.1, Nat.lt_of_lt_of_le m.2 g.next⟩
    · exact .inr ⟨Nat.le_trans f.next m.1, m.2⟩
  item a ha hp := by
    rw [g.item a (Nat.lt_of_lt_of_le ha f.next), f.item a ha hp]
    rcases hp with m | m
    · refine .inl fun hm => ?_
      rcases f.data a hm with q | q
      · exact m q
      · omega
    · exact .inr m
  lines a ha hp := by
    rw [g.lines a (Nat.lt_of_lt_of_le ha f.next), f.lines a ha hp]
    rcases hp with m | m
    · refine .inl fun hm => ?_
      rcases f.rest with q | q
      · exact m (hm.trans q)
      · omega
    · exact .inr m

/-- replacing the list of references by some of them -/
theorem frame_sublist (h : Mem α) (r : Nat) (P : Prop) {data : List Nat} (hs : data.Sublist (h.obj r).data) :
    Frame h (withData h r data) r P where
  next := Nat.le_refl _
  other x hx := by simp [withData, upd, hx]
  data a ha := by
    simp only [withData, upd, if_true] at ha
    exact .inl (hs.subset ha)
  nodup _ n := by
    simp only [withData, upd, if_true]
    exact n.sublist hs
  rest := .inl (by simp [withData, upd])
  item _ _ _ := rfl
  lines _ _ _ := rfl

/-- adding a new element -/
theorem frame_new (h : Mem α) (r : Nat) (P : Prop) (x : α) {data : List Nat}
    (hd : ∀ a ∈ data, a ∈ (h.obj r).data ∨ a = h.next)
    (hn : (∀ a ∈ (h.obj r).data, a < h.next) → (h.obj r).data.Nodup → data.Nodup) :
    Frame h (withData (newItem h x).1 r data) r P where
  next := Nat.le_succ _
  other x hx := by simp [withData, upd, hx, newItem]
  data a ha := by
    simp only [withData, upd, if_true] at ha
    rcases hd a ha with m | m
    · exact .inl m
    · subst m; exact .inr ⟨Nat.le_refl _, Nat.lt_succ_self _⟩
  nodup b n := by
    simp only [withData, upd, if_true]
    exact hn b n
  rest := .inl (by simp [withData, upd, newItem])
  item a ha _ := by
    have : a ≠ h.next := by omega
    simp [withData, newItem, upd, this]
  lines _ _ _ := rfl

theorem frame_newItem (h : Mem α) (r : Nat) (P : Prop) (x : α) : Frame h (newItem h x).1 r P where
  next := Nat.le_succ _
  other _ _ := rfl
  data _ ha := .inl ha
  nodup _ n := n
  rest := .inl rfl
  item a ha _ := by
    have : a ≠ h.next := by omega
    simp [newItem, upd, this]
  lines _ _ _ := rfl

variable {C : Type} [Deleting C α]

theorem frame_delItem (h : Mem α) (r : Nat) (i : Int) {P : Prop} (hp : Passing.passes C = true → P) :
    Frame h (Sharing.delItem C h r i).1 r P := by
  unfold Sharing.delItem
  cases pyIndex (h.obj r).data.length i with
  | none => exact Frame.refl ..
  | some k =>
    have fs := frame_sublist h r P (List.eraseIdx_sublist (h.obj r).data k)
    simp only
    split
    · next ps =>
      have p := hp ps
      split
      · cases pyIndex ((h.obj r).data.eraseIdx k).length i with
        | none => exact fs
        | some j =>
          simp only
          cases hj : ((h.obj r).data.eraseIdx k)[j]? with
          | none => exact fs
          | some a =>
            refine ⟨fs.next, fs.other, fs.data, fs.nodup, fs.rest, fun b hb hq => ?_, fs.lines⟩
            have : b ≠ a := by
              rintro rfl
              rcases hq with q | q
              · exact q ((List.eraseIdx_sublist _ k).subset (List.mem_of_getElem? hj))
              · exact q p
            simp [upd, this]
      · split
        · refine ⟨fs.next, fs.other, fs.data, fs.nodup, fs.rest, fs.item, fun b hb hq => ?_⟩
          have : b ≠ (h.obj r).rest := by
            rcases hq with q | q
            · exact q
            · exact absurd p q
          simp [upd, this]
        · refine ⟨Nat.le_succ _, fun x hx => by simp [upd, hx], ?_, ?_, ?_, fs.item, fun b hb hq => ?_⟩
          · intro a ha
            simp only [upd, if_true] at ha
            exact .inl ((List.eraseIdx_sublist _ k).subset ha)
          · intro _ n
            simp only [upd, if_true]
            exact n.sublist (List.eraseIdx_sublist _ k)
          · exact .inr (by simp [upd])
          · have : b ≠ h.next := by omega
            simp [upd, this]
    · exact fs

theorem frame_delAll {P : Prop} (hp : Passing.passes C = true → P) (r : Nat) : ∀ (ks : List Nat) (h : Mem α), Exists h r →
    Frame h (delAll C h r ks).1 r P
  | [], h, _ => Frame.refl ..
  | k :: ks, h, w => by
    have f := frame_delItem (C := C) h r k hp
    unfold delAll
    cases e : Sharing.delItem C h r k with
    | mk h' o =>
      rw [e] at f
      cases o with
      | some _ => exact f
      | none => exact f.trans (frame_delAll hp r ks h' (f.exists w)) w

theorem dropAll_sublist {β : Type} (ks : List Nat) : ∀ (l : List β) (k : Nat), (dropAll ks k l).Sublist l
  | [], _ => .slnil
  | x :: l, k => by
    unfold dropAll
    split
    · exact (dropAll_sublist ks l _).cons _
    · exact (dropAll_sublist ks l _).cons_cons _

/-- an edit changes objects of its container only -/
theorem frame_edit (h : Mem α) (r : Nat) (e : Edit α) (w : Exists h r) : Frame h (e.run C h r).1 r (InPlace C e) := by
  cases e with
  | del i => exact frame_delItem h r i (fun p => p)
  | delSlice start stop step =>
    simp only [Edit.run, Sharing.delSlice]
    cases sliceIndices (h.obj r).data.length start stop step with
    | error e => exact Frame.refl ..
    | ok ks =>
      simp only
      split
      · exact frame_delAll (fun p => p) r _ h w
      · exact frame_sublist _ _ _ (dropAll_sublist ..)
  | insert i x =>
    simp only [Edit.run]
    have e : (h.obj r).data = (h.obj r).data.take (insertPos (h.obj r).data.length i) ++
      (h.obj r).data.drop (insertPos (h.obj r).data.length i) := (List.take_append_drop ..).symm
    refine frame_new h r _ x ?_ ?_
    · intro a ha
      rcases List.mem_append.1 ha with m | m
      · exact .inl (List.mem_of_mem_take m)
      · rcases List.mem_cons.1 m with m | m
        · exact .inr m
        · exact .inl (List.mem_of_mem_drop m)
    · intro b n
      refine (List.perm_middle.nodup_iff).2 ?_
      rw [List.take_append_drop]
      exact List.nodup_cons.2 ⟨fun m => Nat.lt_irrefl _ (b _ m), n⟩
  | append x =>
    simp only [Edit.run]
    refine frame_new h r _ x ?_ ?_
    · intro a ha
      rcases List.mem_append.1 ha with m | m
      · exact .inl m
      · exact .inr (by simpa [newItem] using m)
    · intro b n
      refine List.nodup_append.2 ⟨n, by simp, fun a ha c hc e => ?_⟩
      have := b a ha
      simp only [List.mem_singleton] at hc
      have : (newItem h x).2 = h.next := rfl
      omega
  | set i x =>
    simp only [Edit.run]
    cases pyIndex ((newItem h x).1.obj r).data.length i with
    | none => exact frame_newItem ..
    | some k =>
      refine frame_new h r _ x ?_ ?_
      · intro a ha
        rcases List.mem_or_eq_of_mem_set ha with m | m
        · exact .inl m
        · exact .inr m
      · intro b n
        change ((h.obj r).data.set k h.next).Nodup
        rw [List.Nodup, List.pairwise_iff_getElem] at n ⊢
        intro i j hi hj hij
        simp only [List.length_set] at hi hj
        simp only [List.getElem_set]
        have n1 := b _ (List.getElem_mem hi)
        have n2 := b _ (List.getElem_mem hj)
        have n3 := n i j hi hj hij
        split <;> split <;> omega
  | pop i =>
    simp only [Edit.run]
    cases pyIndex (h.obj r).data.length i with
    | none => exact Frame.refl ..
    | some k => exact frame_sublist _ _ _ (List.eraseIdx_sublist ..)
  | clear => exact frame_sublist _ _ _ (List.nil_sublist _)
  | reverse =>
    refine ⟨Nat.le_refl _, fun x hx => by simp [Edit.run, withData, upd, hx], ?_, ?_, .inl ?_, fun _ _ _ => rfl,
      fun _ _ _ => rfl⟩
    · intro a ha
      simp only [Edit.run, withData, upd, if_true, List.mem_reverse] at ha
      exact .inl ha
    · intro _ n
      simp only [Edit.run, withData, upd, if_true]
      exact (List.reverse_perm _).nodup_iff.2 n
    · simp [Edit.run, withData, upd]
  | change i f =>
    simp only [Edit.run]
    cases pyIndex (h.obj r).data.length i with
    | none => exact Frame.refl ..
    | some k =>
      simp only
      cases hk : (h.obj r).data[k]? with
      | none => exact Frame.refl ..
      | some a =>
        refine ⟨Nat.le_refl _, fun _ _ => rfl, fun _ h => .inl h, fun _ n => n, .inl rfl, fun b hb hq => ?_,
          fun _ _ _ => rfl⟩
        have : b ≠ a := by
          rintro rfl
          rcases hq with q | q
          · exact q (List.mem_of_getElem? hk)
          · exact q trivial
        simp [upd, this]

end Specfile.SharingProof
