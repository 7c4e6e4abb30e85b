import Verif.Proof.Heap
/-
Objects with identity: values and comments of tags.
-/
namespace Specfile.Heap
open Py Spec

theorem flatMap_nodup_inj {α β : Type} {f : α → List β} {l : List α} (h : (l.flatMap f).Nodup) {j k : Nat} {x y : α}
    (hx : l[j]? = some x) (hy : l[k]? = some y) {b : β} (hb : b ∈ f x) (hb' : b ∈ f y) : j = k := by
  induction l generalizing j k with
  | nil => simp at hx
  | cons a l ih =>
    rw [List.flatMap_cons, List.nodup_append] at h
    cases j with
    | zero =>
      cases k with
      | zero => rfl
      | succ k =>
        simp only [List.getElem?_cons_zero, Option.some.injEq] at hx
        simp only [List.getElem?_cons_succ] at hy
        subst hx
        exact absurd rfl (h.2.2 b hb b (List.mem_flatMap.mpr ⟨y, List.mem_of_getElem? hy, hb'⟩))
    | succ j =>
      simp only [List.getElem?_cons_succ] at hx
      cases k with
      | zero =>
        simp only [List.getElem?_cons_zero, Option.some.injEq] at hy
        subst hy
        exact absurd rfl (h.2.2 b hb' b (List.mem_flatMap.mpr ⟨x, List.mem_of_getElem? hx, hb⟩))
      | succ k =>
        simp only [List.getElem?_cons_succ] at hy
        rw [ih h.2.1 hx hy]

theorem flatMap_nodup_mem {α β : Type} {f : α → List β} {l : List α} (h : (l.flatMap f).Nodup) {x : α} (hx : x ∈ l) :
    (f x).Nodup := by
  induction l with
  | nil => simp at hx
  | cons a l ih =>
    rw [List.flatMap_cons, List.nodup_append] at h
    rcases List.mem_cons.mp hx with rfl | hx
    · exact h.1
    · exact ih h.2.1 hx

/-- pointwise comparison with a modified list -/
theorem map_eq_modify {α β : Type} {l : List α} {f g : α → β} {k : Nat} {x : α} {m : β → β} (hk : l[k]? = some x)
    (h1 : g x = m (f x)) (h2 : ∀ j y, l[j]? = some y → j ≠ k → g y = f y) : l.map g = (l.map f).modify k m := by
  apply List.ext_getElem?
  intro j
  rw [List.getElem?_modify, List.getElem?_map, List.getElem?_map]
  cases hj : l[j]? with
  | none => simp
  | some y =>
    by_cases e : k = j
    · subst e
      rw [hk] at hj; cases hj
      simp [h1]
    · simp [e, h2 j y hj (fun e' => e e'.symm)]

/-! ### values -/

theorem setValue_same (h : Heap) (t : Nat) (v : Str) (r : Nat) : (setValue h t v).tags r = h.tags r ∧
    commentsOf (setValue h t v) r = commentsOf h r ∧ linesOf (setValue h t v) r = linesOf h r ∧
    textsOf (setValue h t v) r = textsOf h r := by
  have hc : commentsOf (setValue h t v) r = commentsOf h r := by
    unfold commentsOf setValue
    refine map_congr' fun a _ => ?_
    simp only [upd]
    split
    · rename_i e; rw [e]
    · rfl
  refine ⟨rfl, hc, ?_, ?_⟩
  · unfold linesOf; rw [hc]; rfl
  · unfold textsOf; rw [hc]; rfl

theorem setValue_does {n : Nat} {h : Heap} {r k t : Nat} {v : Str} (o : Own h r) (ht : (h.tags r).data[k]? = some t) :
    Does n h (setValue h t v) r ((readTags h r).setValueAt k v) := by
  obtain ⟨e1, e2, e3, e4⟩ := setValue_same h t v r
  have hm := List.mem_of_getElem? ht
  refine ⟨?_, ⟨o.self, by rw [e1]; exact o.tag, by rw [e2]; exact o.comments, by rw [e3]; exact o.lines,
    by rw [e4]; exact o.texts⟩, Nat.le_refl _, fun _ _ _ => rfl, ?_, fun _ _ _ => rfl, fun _ _ _ => rfl,
    fun _ _ _ => rfl, fun _ h => .inl h, by rw [e2]; exact fun _ h => .inl h, by rw [e3]; exact fun _ h => .inl h,
    by rw [e4]; exact fun _ h => .inl h⟩
  · unfold readTags Tags.setValueAt
    rw [e1]
    simp only
    congr 1
    refine map_eq_modify ht ?_ ?_
    · simp [readTag, readComments, setValue]
    · intro j y hj hne
      have : y ≠ t := fun e => hne ((List.getElem?_inj (List.getElem?_eq_some_iff.mp hj).1 o.tag.1).mp (by rw [hj, ht, e]))
      simp only [readTag, readComments, setValue, upd_ne _ _ this]
  · intro x _ hx
    exact upd_ne _ _ (fun e => hx (e ▸ hm))

/-! ### comments -/

theorem Own_ne_comments {h : Heap} {r j k y t : Nat} (o : Own h r) (hj : (h.tags r).data[j]? = some y)
    (ht : (h.tags r).data[k]? = some t) (hne : j ≠ k) : (h.tag y).comments ≠ (h.tag t).comments :=
  fun e => hne (nodup_map_inj o.comments.1 hj ht e)

theorem set_eq_modify' {α : Type} {l : List α} {k : Nat} {x : α} (f : α → α) (hk : l[k]? = some x) :
    l.set k (f x) = l.modify k f := by
  apply List.ext_getElem?
  intro j
  rw [List.getElem?_set, List.getElem?_modify]
  by_cases e : k = j
  · subst e
    obtain ⟨hl, e⟩ := List.getElem?_eq_some_iff.mp hk
    simp [hl, e]
  · simp [e]

theorem setText_does {n : Nat} {h : Heap} {r i t : Nat} {j : Int} {v : Str} (o : Own h r)
    (ht : (h.tags r).data[i]? = some t) :
    Does n h (setText h (h.tag t).comments j v).1 r (effectOn (readTags h r) (.setText i j v)).1 ∧
      (setText h (h.tag t).comments j v).2 = (effectOn (readTags h r) (.setText i j v)).2 := by
  have hm := List.mem_of_getElem? ht
  have hc : (h.tag t).comments ∈ commentsOf h r := List.mem_map.mpr ⟨t, hm, rfl⟩
  have hci : (commentsOf h r)[i]? = some (h.tag t).comments := by unfold commentsOf; rw [List.getElem?_map, ht]; rfl
  unfold setText effectOn Comments.setText
  simp only [read_data, ht, Option.map_some]
  rw [show (readTag h t).comments.data.length = (h.comments (h.tag t).comments).data.length from by
    simp [readTag, readComments]]
  cases hk : pyIndex (h.comments (h.tag t).comments).data.length j with
  | none => exact ⟨.refl o, rfl⟩
  | some k =>
    obtain ⟨a, ha⟩ : ∃ a, (h.comments (h.tag t).comments).data[k]? = some a :=
      ⟨_, List.getElem?_eq_getElem (pyIndex_lt hk)⟩
    simp only [ha]
    have ham := List.mem_of_getElem? ha
    have hat : a ∈ textsOf h r := List.mem_flatMap.mpr ⟨_, hc, ham⟩
    refine ⟨⟨?_, ⟨o.self, o.tag, o.comments, o.lines, o.texts⟩, Nat.le_refl _, fun _ _ _ => rfl, fun _ _ _ => rfl,
      fun _ _ _ => rfl, fun _ _ _ => rfl, fun x _ hx => upd_ne _ _ (fun e => hx (e ▸ hat)), fun _ h => .inl h,
      fun _ h => .inl h, fun _ h => .inl h, fun _ h => .inl h⟩, trivial⟩
    unfold readTags
    simp only
    congr 1
    rw [set_eq_modify' (f := fun x : Tag => { x with comments := { x.comments with
      data := x.comments.data.modify k (fun x => { x with text := v }) } }) (x := readTag h t)
      (by rw [List.getElem?_map, ht]; rfl)]
    refine map_eq_modify ht ?_ ?_
    · unfold readTag readComments
      simp only
      congr 2
      refine map_eq_modify ha (by simp) ?_
      intro j' y hj hne
      refine upd_ne _ _ fun e => hne ?_
      exact (List.getElem?_inj (List.getElem?_eq_some_iff.mp hj).1 (flatMap_nodup_mem o.texts.1 hc)).mp (by rw [hj, ha, e])
    · intro j' y hj hne
      unfold readTag readComments
      simp only
      congr 2
      refine map_congr' fun b hb => upd_ne _ _ fun e => hne ?_
      subst e
      exact flatMap_nodup_inj o.texts.1 (x := (h.tag y).comments) (by unfold commentsOf; rw [List.getElem?_map, hj]; rfl)
        hci hb ham

theorem appendText_of (h : Heap) (c : Nat) (v : Str) (r : Nat) :
    commentsOf (appendText h c v) r = commentsOf h r ∧ linesOf (appendText h c v) r = linesOf h r := by
  refine ⟨rfl, ?_⟩
  unfold linesOf
  rw [show commentsOf (appendText h c v) r = commentsOf h r from rfl]
  refine congrArg _ (map_congr' fun a _ => ?_)
  unfold appendText
  simp only [upd]
  split
  · rename_i e; rw [e]
  · rfl

theorem flatMap_append_one {α β : Type} [DecidableEq α] {f g : α → List β} {l : List α} {x : α} {b : β} (hx : x ∈ l)
    (hl : l.Nodup) (h1 : g x = f x ++ [b]) (h2 : ∀ y, y ≠ x → g y = f y) : (l.flatMap g).Perm (b :: l.flatMap f) := by
  induction l with
  | nil => simp at hx
  | cons a l ih =>
    rw [List.flatMap_cons, List.flatMap_cons]
    rw [List.nodup_cons] at hl
    by_cases e : a = x
    · subst e
      have : l.flatMap g = l.flatMap f := by
        rw [List.flatMap_def, List.flatMap_def]
        rw [map_congr' fun y hy => h2 y (fun e => hl.1 (e ▸ hy))]
      rw [h1, this, List.append_assoc]
      exact List.perm_middle
    · rw [h2 a e]
      have := ih (by rcases List.mem_cons.mp hx with h | h; exact absurd h.symm e; exact h) hl.2
      exact (this.append_left _).trans List.perm_middle

theorem appendText_does {h : Heap} {r i t : Nat} {v : Str} (o : Own h r)
    (ht : (h.tags r).data[i]? = some t) :
    Does h.next h (appendText h (h.tag t).comments v) r (effectOn (readTags h r) (.append i v)).1 := by
  have hm := List.mem_of_getElem? ht
  have hc : (h.tag t).comments ∈ commentsOf h r := List.mem_map.mpr ⟨t, hm, rfl⟩
  obtain ⟨e2, e3⟩ := appendText_of h (h.tag t).comments v r
  have e4 : (textsOf (appendText h (h.tag t).comments v) r).Perm (h.next :: textsOf h r) := by
    unfold textsOf
    rw [e2]
    refine flatMap_append_one hc o.comments.1 ?_ ?_
    · simp [appendText]
    · intro y hy
      unfold appendText
      simp only [upd_ne _ _ hy]
  have hnew : h.next ∉ textsOf h r := fun hm => by have := o.texts.2 _ hm; omega
  refine ⟨?_, ⟨Nat.lt_succ_of_lt o.self, ⟨o.tag.1, fun a ha => Nat.lt_succ_of_lt (o.tag.2 a ha)⟩,
    ⟨by rw [e2]; exact o.comments.1, by rw [e2]; exact fun a ha => Nat.lt_succ_of_lt (o.comments.2 a ha)⟩,
    ⟨by rw [e3]; exact o.lines.1, by rw [e3]; exact fun a ha => Nat.lt_succ_of_lt (o.lines.2 a ha)⟩,
    ⟨e4.nodup_iff.mpr (List.nodup_cons.mpr ⟨hnew, o.texts.1⟩), fun a ha => ?_⟩⟩,
    Nat.le_succ _, fun _ _ _ => rfl, fun _ _ _ => rfl, fun x _ hx => upd_ne _ _ (fun e => hx (e ▸ hc)),
    fun _ _ _ => rfl, fun x hx _ => upd_ne _ _ (by omega), fun _ h => .inl h, by rw [e2]; exact fun _ h => .inl h,
    by rw [e3]; exact fun _ h => .inl h, fun a ha => ?_⟩
  · unfold effectOn
    simp only [read_data, ht, Option.map_some]
    unfold readTags
    congr 1
    simp only
    rw [set_eq_modify' (f := fun x : Tag => { x with comments := x.comments.append v }) (x := readTag h t)
      (by rw [List.getElem?_map, ht]; rfl)]
    have hold : ∀ c ∈ commentsOf h r, (h.comments c).data.map (upd h.comment h.next (.ofText v)) =
        (h.comments c).data.map h.comment := fun c hc => map_congr' fun b hb => upd_ne _ _ fun e => by
      have := o.texts.2 b (List.mem_flatMap.mpr ⟨c, hc, hb⟩); omega
    refine map_eq_modify ht ?_ ?_
    · unfold readTag readComments Comments.append appendText
      simp only [upd_same, List.map_append, List.map_cons, List.map_nil]
      rw [hold _ hc]
    · intro j y hj hne
      have hne' := Own_ne_comments o hj ht hne
      unfold readTag readComments appendText
      simp only [upd_ne _ _ hne']
      rw [hold _ (List.mem_map.mpr ⟨y, List.mem_of_getElem? hj, rfl⟩)]
  · rcases List.mem_cons.mp (e4.mem_iff.mp ha) with rfl | ha
    · exact Nat.lt_succ_self _
    · exact Nat.lt_succ_of_lt (o.texts.2 a ha)
  · rcases List.mem_cons.mp (e4.mem_iff.mp ha) with rfl | ha
    · exact .inr (Nat.le_refl _)
    · exact .inl ha

end Specfile.Heap
