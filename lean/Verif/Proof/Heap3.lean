import Verif.Proof.Heap2
/-
Objects with identity: construction and insertion.
-/
namespace Specfile.Heap
open Py Spec

/-- only new objects are made -/
structure Grows (h h' : Heap) : Prop where
  grow : h.next ≤ h'.next
  tags : ∀ a < h.next, h'.tags a = h.tags a
  tag : ∀ a < h.next, h'.tag a = h.tag a
  comments : ∀ a < h.next, h'.comments a = h.comments a
  lines : ∀ a < h.next, h'.lines a = h.lines a
  texts : ∀ a < h.next, h'.comment a = h.comment a

theorem Grows.refl (h : Heap) : Grows h h :=
  ⟨Nat.le_refl _, fun _ _ => rfl, fun _ _ => rfl, fun _ _ => rfl, fun _ _ => rfl, fun _ _ => rfl⟩

theorem Grows.trans {h h' h'' : Heap} (a : Grows h h') (b : Grows h' h'') : Grows h h'' where
  grow := Nat.le_trans a.grow b.grow
  tags x hx := by rw [b.tags x (Nat.lt_of_lt_of_le hx a.grow), a.tags x hx]
  tag x hx := by rw [b.tag x (Nat.lt_of_lt_of_le hx a.grow), a.tag x hx]
  comments x hx := by rw [b.comments x (Nat.lt_of_lt_of_le hx a.grow), a.comments x hx]
  lines x hx := by rw [b.lines x (Nat.lt_of_lt_of_le hx a.grow), a.lines x hx]
  texts x hx := by rw [b.texts x (Nat.lt_of_lt_of_le hx a.grow), a.texts x hx]

theorem Grows.untouched {h h' : Heap} {r : Nat} (g : Grows h h') (o : Own h r) : Untouched h h' r :=
  ⟨g.tags r o.self, fun a ha => g.tag a (o.tag.2 a ha), fun a ha => g.comments a (o.comments.2 a ha),
   fun a ha => g.lines a (o.lines.2 a ha), fun a ha => g.texts a (o.texts.2 a ha)⟩

theorem Grows.loc {h h' : Heap} {r : Nat} (g : Grows h h') (o : Own h r) : Local h.next h h' r := by
  have u := g.untouched o
  refine ⟨g.grow, fun x hx _ => g.tags x hx, fun x hx _ => g.tag x hx, fun x hx _ => g.comments x hx,
    fun x hx _ => g.lines x hx, fun x hx _ => g.texts x hx, ?_, ?_, ?_, ?_⟩
  · rw [u.tags]; exact fun _ h => .inl h
  · rw [u.commentsOf]; exact fun _ h => .inl h
  · rw [u.linesOf]; exact fun _ h => .inl h
  · rw [u.textsOf]; exact fun _ h => .inl h

/-- a tag with everything it refers to lies in a range of addresses -/
structure Within (n : Nat) (h : Heap) (t : Nat) : Prop where
  tag : n ≤ t ∧ t < h.next
  comments : n ≤ (h.tag t).comments ∧ (h.tag t).comments < h.next
  lines : n ≤ precedingOf h t ∧ precedingOf h t < h.next
  texts : ((h.comments (h.tag t).comments).data).Nodup ∧
    ∀ a ∈ (h.comments (h.tag t).comments).data, n ≤ a ∧ a < h.next

theorem Within.keep {n : Nat} {h h' : Heap} {t : Nat} (w : Within n h t) (g : Grows h h') :
    Within n h' t ∧ readTag h' t = readTag h t ∧ (h'.tag t).comments = (h.tag t).comments ∧
      precedingOf h' t = precedingOf h t ∧ (h'.comments (h'.tag t).comments).data = (h.comments (h.tag t).comments).data := by
  have e1 := g.tag t w.tag.2
  have e2 := g.comments _ w.comments.2
  have e3 : precedingOf h' t = precedingOf h t := by unfold precedingOf; rw [e1, e2]
  have hg := g.grow
  refine ⟨⟨⟨w.tag.1, by have := w.tag.2; omega⟩, ?_, ?_, ?_⟩, ?_, by rw [e1], e3, by rw [e1, e2]⟩
  · rw [e1]; exact ⟨w.comments.1, by have := w.comments.2; omega⟩
  · rw [e3]; exact ⟨w.lines.1, by have := w.lines.2; omega⟩
  · rw [e1, e2]; exact ⟨w.texts.1, fun a ha => ⟨(w.texts.2 a ha).1, by have := (w.texts.2 a ha).2; omega⟩⟩
  · unfold readTag readComments
    rw [e1, e2]
    congr 2
    · exact map_congr' fun a ha => g.texts a (w.texts.2 a ha).2
    · exact g.lines _ w.lines.2

theorem Within.mono {n m : Nat} {h : Heap} {t : Nat} (w : Within m h t) (hn : n ≤ m) : Within n h t :=
  ⟨⟨Nat.le_trans hn w.tag.1, w.tag.2⟩, ⟨Nat.le_trans hn w.comments.1, w.comments.2⟩,
   ⟨Nat.le_trans hn w.lines.1, w.lines.2⟩, w.texts.1, fun a ha => ⟨Nat.le_trans hn (w.texts.2 a ha).1, (w.texts.2 a ha).2⟩⟩

theorem newTexts_read (h : Heap) (cs : List Comment) :
    (newTexts h cs).2.map (newTexts h cs).1.comment = cs := by
  unfold newTexts
  simp only [List.map_map]
  apply List.ext_getElem?
  intro j
  rw [List.getElem?_map]
  by_cases hj : j < cs.length
  · rw [List.getElem?_range hj]
    simp [hj]
  · rw [List.getElem?_eq_none (by simp; omega), List.getElem?_eq_none (by omega)]; rfl

theorem map_add_nodup (n : Nat) {l : List Nat} (hl : l.Nodup) : (l.map (n + ·)).Nodup := by
  unfold List.Nodup at *
  rw [List.pairwise_map]
  exact hl.imp fun h e => h (by omega)

theorem modify_at {α : Type} (pre l : List α) (x : α) (f : α → α) :
    (pre ++ x :: l).modify pre.length f = pre ++ f x :: l := by
  induction pre with
  | nil => rfl
  | cons a pre ih => simp only [List.cons_append, List.length_cons, List.modify_succ_cons, ih]

theorem modify_next {α : Type} (pre l : List α) (x y : α) (f : α → α) :
    (pre ++ x :: y :: l).modify (pre.length + 1) f = pre ++ x :: f y :: l := by
  have := modify_at (pre ++ [x]) l y f
  simpa using this

theorem buildTag_ok (h : Heap) (t : Tag) :
    Grows h (buildTag h t).1 ∧ Within h.next (buildTag h t).1 (buildTag h t).2 ∧
      readTag (buildTag h t).1 (buildTag h t).2 = t := by
  have hr := newTexts_read h t.comments.data
  have hmem : ∀ a ∈ (newTexts h t.comments.data).2, h.next ≤ a ∧ a < h.next + t.comments.data.length := by
    intro a ha
    obtain ⟨b, hb, rfl⟩ := List.mem_map.mp ha
    have := List.mem_range.mp hb
    omega
  have hnd : (newTexts h t.comments.data).2.Nodup := map_add_nodup _ List.nodup_range
  revert hr hmem hnd
  unfold buildTag
  have e1 : (newTexts h t.comments.data).1.next = h.next + t.comments.data.length := rfl
  have e2 : ∀ a < h.next, (newTexts h t.comments.data).1.comment a = h.comment a := by
    intro a ha
    unfold newTexts
    simp only
    rw [if_neg (by omega)]
  have e3 : (newTexts h t.comments.data).1.comments = h.comments := rfl
  have e4 : (newTexts h t.comments.data).1.lines = h.lines := rfl
  have e5 : (newTexts h t.comments.data).1.tag = h.tag := rfl
  have e6 : (newTexts h t.comments.data).1.tags = h.tags := rfl
  revert e1 e2 e3 e4 e5 e6
  generalize newTexts h t.comments.data = x
  obtain ⟨h1, data⟩ := x
  intro e1 e2 e3 e4 e5 e6 hr hmem hnd
  simp only at e1 e2 e3 e4 e5 e6 hr hmem hnd
  simp only [newComments, newTag, copyComments]
  refine ⟨⟨?_, ?_, ?_, ?_, ?_, ?_⟩, ⟨?_, ?_, ?_, ?_⟩, ?_⟩
  · simp only; omega
  · intro a _; simp only [e6]
  · intro a ha
    simp only
    rw [upd_ne _ _ (by omega), e5]
  · intro a ha
    simp only
    rw [upd_ne _ _ (by omega), upd_ne _ _ (by omega), e3]
  · intro a ha
    simp only
    rw [upd_ne _ _ (by omega), e4]
  · exact e2
  · simp only; omega
  · simp only [upd_same]; omega
  · simp only [precedingOf, upd_same]; omega
  · simp only [upd_same]
    exact ⟨hnd, fun a ha => by have := hmem a ha; omega⟩
  · simp only [readTag, readComments, upd_same, hr]

/-- a container with tags that have no object in common is its own -/
theorem perm_own {h : Heap} {r t : Nat} {data : List Nat} (o : Own h r) {n : Nat} (w : Within n h t)
    (hp : data.Perm (t :: (h.tags r).data)) (ht : ∀ a ∈ (h.tags r).data, a < n) (hc : ∀ a ∈ commentsOf h r, a < n)
    (hl : ∀ a ∈ linesOf h r, a < n) (hx : ∀ a ∈ textsOf h r, a < n) :
    Own (withData h r data) r ∧ Local n h (withData h r data) r := by
  have pc : (commentsOf (withData h r data) r).Perm ((h.tag t).comments :: commentsOf h r) := by
    rw [withData_commentsOf]; exact hp.map _
  have pl : (linesOf (withData h r data) r).Perm (precedingOf h t :: linesOf h r) := by
    rw [withData_linesOf, linesOf_eq]
    exact ((hp.map (precedingOf h)).cons _).trans (List.Perm.swap _ _ _)
  have px : (textsOf (withData h r data) r).Perm ((h.comments (h.tag t).comments).data ++ textsOf h r) := by
    have := pc.flatMap_right (f := fun c => (h.comments c).data)
    exact this
  constructor
  · refine ⟨o.self, ?_, ?_, ?_, ?_⟩
    · rw [withData_tags]
      refine ⟨hp.nodup_iff.mpr (List.nodup_cons.mpr ⟨fun hm => ?_, o.tag.1⟩), fun a ha => ?_⟩
      · have := ht _ hm; have := w.tag.1; omega
      · rcases List.mem_cons.mp (hp.mem_iff.mp ha) with rfl | ha
        · exact w.tag.2
        · exact o.tag.2 a ha
    · refine ⟨pc.nodup_iff.mpr (List.nodup_cons.mpr ⟨fun hm => ?_, o.comments.1⟩), fun a ha => ?_⟩
      · have := hc _ hm; have := w.comments.1; omega
      · rcases List.mem_cons.mp (pc.mem_iff.mp ha) with rfl | ha
        · exact w.comments.2
        · exact o.comments.2 a ha
    · refine ⟨pl.nodup_iff.mpr (List.nodup_cons.mpr ⟨fun hm => ?_, o.lines.1⟩), fun a ha => ?_⟩
      · have := hl _ hm; have := w.lines.1; omega
      · rcases List.mem_cons.mp (pl.mem_iff.mp ha) with rfl | ha
        · exact w.lines.2
        · exact o.lines.2 a ha
    · refine ⟨px.nodup_iff.mpr (List.nodup_append.mpr ⟨w.texts.1, o.texts.1, fun a ha b hb e => ?_⟩), fun a ha => ?_⟩
      · have := hx b hb; have := (w.texts.2 a ha).1; omega
      · rcases List.mem_append.mp (px.mem_iff.mp ha) with ha | ha
        · exact (w.texts.2 a ha).2
        · exact o.texts.2 a ha
  · refine ⟨Nat.le_refl _, fun x _ hx => upd_ne _ _ hx, fun _ _ _ => rfl, fun _ _ _ => rfl, fun _ _ _ => rfl,
      fun _ _ _ => rfl, fun a ha => ?_, fun a ha => ?_, fun a ha => ?_, fun a ha => ?_⟩
    · rw [withData_tags] at ha
      rcases List.mem_cons.mp (hp.mem_iff.mp ha) with rfl | ha
      · exact .inr w.tag.1
      · exact .inl ha
    · rcases List.mem_cons.mp (pc.mem_iff.mp ha) with rfl | ha
      · exact .inr w.comments.1
      · exact .inl ha
    · rcases List.mem_cons.mp (pl.mem_iff.mp ha) with rfl | ha
      · exact .inr w.lines.1
      · exact .inl ha
    · rcases List.mem_append.mp (px.mem_iff.mp ha) with ha | ha
      · exact .inr (w.texts.2 a ha).1
      · exact .inl ha

theorem splitEndif_drop (ls : List Str) : ls.drop (Tags.splitEndif ls).1.length = (Tags.splitEndif ls).2 := by
  unfold Tags.splitEndif
  cases h : ls.findIdx? (fun l => startsWith l (s% "%endif")) with
  | none => rfl
  | some k =>
    have : k < ls.length := by
      obtain ⟨h, _⟩ := List.findIdx?_eq_some_iff_getElem.mp h
      exact h
    simp only [List.length_take]
    rw [Nat.min_eq_left (by omega)]

/-- inserting a new tag -/
theorem insert_does {h : Heap} {r t : Nat} {i : Int} (o : Own h r) {n : Nat} (w : Within n h t)
    (ht : ∀ a ∈ (h.tags r).data, a < n) (hc : ∀ a ∈ commentsOf h r, a < n)
    (hl : ∀ a ∈ linesOf h r, a < n) (hx : ∀ a ∈ textsOf h r, a < n) :
    Does n h (insert h r i t).1 r ((readTags h r).insert i (readTag h t)).1 ∧
      (insert h r i t).2 = ((readTags h r).insert i (readTag h t)).2 := by
  unfold insert Tags.insert
  simp only [read_length]
  split
  · cases hk : pyIndex (h.tags r).data.length i with
    | none => exact ⟨.refl o, rfl⟩
    | some k =>
      have hlt := pyIndex_lt hk
      obtain ⟨u, hu⟩ : ∃ u, (h.tags r).data[k]? = some u := ⟨_, List.getElem?_eq_getElem hlt⟩
      simp only [hu, read_data, Option.map_some, Option.getD_some, preceding_read]
      have hum := List.mem_of_getElem? hu
      have hpu : precedingOf h u < n := hl _ (by rw [linesOf_eq]; exact .tail _ (List.mem_map.mpr ⟨u, hum, rfl⟩))
      have hdrop : (h.tags r).data.drop k = u :: (h.tags r).data.drop (k + 1) := by
        rw [List.drop_eq_getElem_cons hlt]
        congr 1
        exact (List.getElem?_eq_some_iff.mp hu).2
      obtain ⟨ow, lw⟩ := perm_own (data := (h.tags r).data.take k ++ t :: (h.tags r).data.drop k) o w
        (by
          have := List.perm_middle (a := t) (l₁ := (h.tags r).data.take k) (l₂ := (h.tags r).data.drop k)
          rwa [List.take_append_drop] at this) ht hc hl hx
      have rw' := withData_read h r ((h.tags r).data.take k ++ t :: (h.tags r).data.drop k)
      have hw := withData_tags h r ((h.tags r).data.take k ++ t :: (h.tags r).data.drop k)
      have hll : ∀ a, (withData h r ((h.tags r).data.take k ++ t :: (h.tags r).data.drop k)).lines a = h.lines a :=
        fun _ => rfl
      have hpp : ∀ a, precedingOf (withData h r ((h.tags r).data.take k ++ t :: (h.tags r).data.drop k)) a =
        precedingOf h a := fun _ => rfl
      revert ow lw rw' hw hll hpp
      generalize withData h r ((h.tags r).data.take k ++ t :: (h.tags r).data.drop k) = h1
      intro ow lw rw' hw hll hpp
      refine ⟨?_, trivial⟩
      unfold moveLines
      have d0 : Does n h h1 r _ := ⟨rfl, ow, lw⟩
      have hlen : ((h.tags r).data.take k).length = k := by simp; omega
      have hk1 : (h1.tags r).data[k]? = some t := by
        rw [hw]; simp only
        rw [List.getElem?_append_right (by omega), hlen, Nat.sub_self]; rfl
      have hk2 : (h1.tags r).data[k + 1]? = some u := by
        rw [hw]; simp only
        rw [List.getElem?_append_right (by omega), hlen, hdrop, Nat.add_sub_cancel_left]; rfl
      have d1 := d0.trans (does_setLines_prec (n := n) (v := (Tags.splitEndif (h1.lines (precedingOf h u))).1 ++
        h1.lines (precedingOf h1 t)) ow hk1)
      have hk3 : ((setLines h1 (precedingOf h1 t) ((Tags.splitEndif (h1.lines (precedingOf h u))).1 ++
        h1.lines (precedingOf h1 t))).tags r).data[k + 1]? = some u := hk2
      have d2 := d1.trans (does_setLines_prec (n := n) (v := (Tags.splitEndif (h.lines (precedingOf h u))).2) d1.own hk3)
      rw [d1.read, rw'] at d2
      rw [show precedingOf (setLines h1 (precedingOf h1 t) ((Tags.splitEndif (h1.lines (precedingOf h u))).1 ++
        h1.lines (precedingOf h1 t))) u = precedingOf h u from hpp u] at d2
      have hlast : (setLines h1 (precedingOf h1 t) ((Tags.splitEndif (h1.lines (precedingOf h u))).1 ++
        h1.lines (precedingOf h1 t))).lines (precedingOf h u) = h.lines (precedingOf h u) := by
        unfold setLines
        simp only
        rw [upd_ne _ _ (by rw [hpp]; have := w.lines.1; omega), hll]
      simp only
      rw [hlast, hll (precedingOf h u), splitEndif_drop]
      rw [hll (precedingOf h u)] at d2
      have heq : List.modify (List.modify (List.map (readTag h) ((h.tags r).data.take k ++ t :: (h.tags r).data.drop k)) k
            (withPreceding ((Tags.splitEndif (h.lines (precedingOf h u))).1 ++ h1.lines (precedingOf h1 t)))) (k + 1)
            (withPreceding (Tags.splitEndif (h.lines (precedingOf h u))).2) =
          (readTags h r).data.take k ++ Tags.prependTo (readTag h t) (Tags.splitEndif (h.lines (precedingOf h u))).1 ::
          ((readTags h r).data.drop k).modify 0 (fun x => { x with comments :=
            { x.comments with preceding := (Tags.splitEndif (h.lines (precedingOf h u))).2 } }) := by
        have e1 : (readTags h r).data.take k = ((h.tags r).data.take k).map (readTag h) := by
          unfold readTags; simp only; rw [List.map_take]
        have e2 : (readTags h r).data.drop k = ((h.tags r).data.drop k).map (readTag h) := by
          unfold readTags; simp only; rw [List.map_drop]
        rw [e1, e2, hdrop, List.map_append]
        have hlen' : (((h.tags r).data.take k).map (readTag h)).length = k := by rw [List.length_map, hlen]
        revert hlen'
        generalize ((h.tags r).data.take k).map (readTag h) = pre
        intro hlen'
        subst hlen'
        rw [List.map_cons, List.map_cons, modify_at, modify_next]
        rw [hll, hpp]; rfl
      rw [heq] at d2
      exact d2
  · have hrn : (h.tags r).remainder < n := hl _ (.head _)
    obtain ⟨ow, lw⟩ := perm_own (data := (h.tags r).data ++ [t]) o w
      (by
        have := List.perm_middle (a := t) (l₁ := (h.tags r).data) (l₂ := [])
        rwa [List.append_nil] at this) ht hc hl hx
    have rw' := withData_read h r ((h.tags r).data ++ [t])
    have hw := withData_tags h r ((h.tags r).data ++ [t])
    have hll : ∀ a, (withData h r ((h.tags r).data ++ [t])).lines a = h.lines a := fun _ => rfl
    have hpp : ∀ a, precedingOf (withData h r ((h.tags r).data ++ [t])) a = precedingOf h a := fun _ => rfl
    revert ow lw rw' hw hll hpp
    generalize withData h r ((h.tags r).data ++ [t]) = h1
    intro ow lw rw' hw hll hpp
    refine ⟨?_, rfl⟩
    unfold moveLines
    have d0 : Does n h h1 r _ := ⟨rfl, ow, lw⟩
    have hk1 : (h1.tags r).data[(h.tags r).data.length]? = some t := by
      rw [hw]; simp
    have d1 := d0.trans (does_setLines_prec (n := n) (v := (Tags.splitEndif (h1.lines (h.tags r).remainder)).1 ++
      h1.lines (precedingOf h1 t)) ow hk1)
    have d2 := d1.trans (does_setLines_rem (n := n) (v := (Tags.splitEndif (h.lines (h.tags r).remainder)).2) d1.own)
    rw [d1.read, rw'] at d2
    rw [show ((setLines h1 (precedingOf h1 t) ((Tags.splitEndif (h1.lines (h.tags r).remainder)).1 ++
      h1.lines (precedingOf h1 t))).tags r).remainder = (h.tags r).remainder from by
        rw [show (setLines h1 (precedingOf h1 t) ((Tags.splitEndif (h1.lines (h.tags r).remainder)).1 ++
          h1.lines (precedingOf h1 t))).tags r = h1.tags r from rfl, hw]] at d2
    have hlast : (setLines h1 (precedingOf h1 t) ((Tags.splitEndif (h1.lines (h.tags r).remainder)).1 ++
      h1.lines (precedingOf h1 t))).lines (h.tags r).remainder = h.lines (h.tags r).remainder := by
      unfold setLines
      simp only
      rw [upd_ne _ _ (by rw [hpp]; have := w.lines.1; omega), hll]
    simp only
    rw [hlast, hll (h.tags r).remainder, splitEndif_drop]
    rw [hll (h.tags r).remainder] at d2
    have heq : List.modify (List.map (readTag h) ((h.tags r).data ++ [t])) (h.tags r).data.length
        (withPreceding ((Tags.splitEndif (h.lines (h.tags r).remainder)).1 ++ h1.lines (precedingOf h1 t))) =
        (readTags h r).data ++ [Tags.prependTo (readTag h t) (Tags.splitEndif (h.lines (h.tags r).remainder)).1] := by
      have := modify_at ((h.tags r).data.map (readTag h)) [] (readTag h t) (withPreceding
        ((Tags.splitEndif (h.lines (h.tags r).remainder)).1 ++ h1.lines (precedingOf h1 t)))
      rw [List.length_map] at this
      rw [List.map_append, List.map_cons, List.map_nil, this, hll, hpp]; rfl
    rw [heq] at d2
    exact d2

/-! ### all operations -/

theorem run_does {h : Heap} {r : Nat} (o : Own h r) (op : Op) :
    Does h.next h (op.run h r).1 r (effectOn (readTags h r) op).1 ∧ (op.run h r).2 = (effectOn (readTags h r) op).2 := by
  cases op with
  | del i => exact delItem_does o
  | delSlice a b c => exact delSlice_does o
  | insert i t =>
    have hb := buildTag_ok h t
    rw [show Op.run h r (.insert i t) = insert (buildTag h t).1 r i (buildTag h t).2 from rfl]
    revert hb
    generalize buildTag h t = x
    obtain ⟨h1, a⟩ := x
    rintro ⟨g, w, e⟩
    simp only at g w e
    have u := g.untouched o
    have o1 := u.own g.grow o
    have := insert_does (i := i) o1 w (by rw [u.tags]; exact o.tag.2) (by rw [u.commentsOf]; exact o.comments.2)
      (by rw [u.linesOf]; exact o.lines.2) (by rw [u.textsOf]; exact o.texts.2)
    rw [u.read, e] at this
    exact ⟨⟨this.1.read, this.1.own, (g.loc o).trans this.1.loc⟩, this.2⟩
  | setValue i v =>
    cases ht : (h.tags r).data[i]? with
    | none =>
      have := List.getElem?_eq_none_iff.mp ht
      simp only [Op.run, effectOn, ht, read_length, if_neg (show ¬ i < (h.tags r).data.length by omega)]
      exact ⟨.refl o, trivial⟩
    | some t =>
      have := (List.getElem?_eq_some_iff.mp ht).1
      simp only [Op.run, effectOn, ht, read_length, if_pos this]
      exact ⟨setValue_does o ht, trivial⟩
  | setText i j v =>
    cases ht : (h.tags r).data[i]? with
    | none =>
      simp only [Op.run, effectOn, ht, read_data, Option.map_none]
      exact ⟨.refl o, trivial⟩
    | some t =>
      have := setText_does (n := h.next) (j := j) (v := v) o ht
      rw [show Op.run h r (.setText i j v) = setText h (h.tag t).comments j v from by simp only [Op.run, ht]]
      exact this
  | append i v =>
    cases ht : (h.tags r).data[i]? with
    | none =>
      simp only [Op.run, effectOn, ht, read_data, Option.map_none]
      exact ⟨.refl o, trivial⟩
    | some t =>
      have := appendText_does (v := v) o ht
      rw [show Op.run h r (.append i v) = (appendText h (h.tag t).comments v, none) from by simp only [Op.run, ht]]
      exact ⟨this, by simp only [effectOn, read_data, ht, Option.map_some]⟩

/-- other containers are not affected -/
theorem run_others {h : Heap} {r r' : Nat} (o : Own h r) (o' : Own h r') (a : Apart h r r') (op : Op) :
    readTags (op.run h r).1 r' = readTags h r' ∧ Own (op.run h r).1 r' ∧ Apart (op.run h r).1 r r' := by
  have d := (run_does o op).1
  have u := d.loc.untouched o' a
  exact ⟨u.read, u.own d.loc.grow o', d.loc.apart o' a⟩

theorem runAll_reads (rs : List Nat) (l : List (Nat × Op)) : ∀ (h : Heap), (∀ r ∈ rs, Own h r) →
    (∀ r ∈ rs, ∀ r' ∈ rs, r ≠ r' → Apart h r r') → (∀ x ∈ l, x.1 ∈ rs) →
    (∀ r ∈ rs, readTags (runAll h l) r = effectOfAll (readTags h r) (opsOn r l)) ∧
    (∀ r ∈ rs, Own (runAll h l) r) ∧ (∀ r ∈ rs, ∀ r' ∈ rs, r ≠ r' → Apart (runAll h l) r r') := by
  induction l with
  | nil => exact fun h o a _ => ⟨fun _ _ => rfl, o, a⟩
  | cons x l ih =>
    obtain ⟨q, op⟩ := x
    intro h o a hx
    have hq := hx _ (.head _)
    have d := run_does (o q hq) op
    have ho : ∀ r ∈ rs, Own (op.run h q).1 r := by
      intro r hr
      by_cases e : q = r
      · subst e; exact d.1.own
      · exact (run_others (o q hq) (o r hr) (a q hq r hr e) op).2.1
    have ha : ∀ r ∈ rs, ∀ r' ∈ rs, r ≠ r' → Apart (op.run h q).1 r r' := by
      intro r hr r' hr' e
      by_cases e1 : q = r
      · subst e1
        exact (run_others (o q hq) (o r' hr') (a q hq r' hr' e) op).2.2
      · by_cases e2 : q = r'
        · subst e2
          exact (run_others (o q hq) (o r hr) (a q hq r hr e1) op).2.2.symm
        · exact (a r hr r' hr' e).keep (d.1.loc.untouched (o r hr) (a q hq r hr e1))
            (d.1.loc.untouched (o r' hr') (a q hq r' hr' e2))
    obtain ⟨h1, h2, h3⟩ := ih _ ho ha (fun x hm => hx x (.tail _ hm))
    refine ⟨fun r hr => ?_, h2, h3⟩
    show readTags (runAll (op.run h q).1 l) r = _
    rw [h1 r hr]
    by_cases e : q = r
    · subst e
      rw [d.1.read]
      simp [opsOn, effectOfAll]
    · rw [(run_others (o q hq) (o r hr) (a q hq r hr e) op).1]
      simp [opsOn, e]

/-! ### deep copies -/

theorem deepcopy_grows (h : Heap) (r : Nat) : Grows h (deepcopy h r).1 := by
  refine ⟨Nat.le_add_left _ _, ?_, ?_, ?_, ?_, ?_⟩ <;>
  · intro a ha
    unfold deepcopy
    simp only
    rw [if_neg (by omega)]

theorem deepcopy_ok {h : Heap} {r : Nat} (o : Own h r) :
    readTags (deepcopy h r).1 (deepcopy h r).2 = readTags h r ∧ Own (deepcopy h r).1 (deepcopy h r).2 ∧
    ∀ r', Own h r' → Apart (deepcopy h r).1 (deepcopy h r).2 r' := by
  have hsub : ∀ a, h.next + a - h.next = a := fun a => by omega
  have et : ((deepcopy h r).1.tags (deepcopy h r).2) =
      ⟨(h.tags r).data.map (h.next + ·), h.next + (h.tags r).remainder⟩ := by
    unfold deepcopy; simp only [Nat.le_add_right, if_true, hsub]
  have eg : ∀ a, (deepcopy h r).1.tag (h.next + a) = { h.tag a with comments := h.next + (h.tag a).comments } := by
    intro a; unfold deepcopy; simp only [Nat.le_add_right, if_true, hsub]
  have ec : ∀ a, (deepcopy h r).1.comments (h.next + a) =
      ⟨(h.comments a).data.map (h.next + ·), h.next + (h.comments a).preceding⟩ := by
    intro a; unfold deepcopy; simp only [Nat.le_add_right, if_true, hsub]
  have el : ∀ a, (deepcopy h r).1.lines (h.next + a) = h.lines a := by
    intro a; unfold deepcopy; simp only [Nat.le_add_right, if_true, hsub]
  have ex : ∀ a, (deepcopy h r).1.comment (h.next + a) = h.comment a := by
    intro a; unfold deepcopy; simp only [Nat.le_add_right, if_true, hsub]
  have en : (deepcopy h r).1.next = h.next + h.next := rfl
  have e2 : (deepcopy h r).2 = h.next + r := rfl
  have g := deepcopy_grows h r
  revert et eg ec el ex en e2 g
  generalize deepcopy h r = x
  obtain ⟨h', r1⟩ := x
  intro et eg ec el ex en e2 g
  simp only at et eg ec el ex en e2 g ⊢
  have k1 : commentsOf h' r1 = (commentsOf h r).map (h.next + ·) := by
    unfold commentsOf
    rw [et]
    simp only [List.map_map]
    exact map_congr' fun a _ => by simp only [Function.comp, eg]
  have k2 : linesOf h' r1 = (linesOf h r).map (h.next + ·) := by
    unfold linesOf
    rw [et, k1]
    simp only [List.map_map, List.map_cons]
    exact congrArg _ (map_congr' fun a _ => by simp only [Function.comp, ec])
  have k3 : textsOf h' r1 = (textsOf h r).map (h.next + ·) := by
    unfold textsOf
    rw [k1, List.flatMap_map, List.map_flatMap]
    exact congrArg (fun f => List.flatMap f _) (funext fun a => by simp only [ec])
  have lt : ∀ {l : List Nat}, (∀ a ∈ l, a < h.next) → ∀ a ∈ l.map (h.next + ·), h.next ≤ a ∧ a < h'.next := by
    intro l hl a ha
    obtain ⟨b, hb, rfl⟩ := List.mem_map.mp ha
    have := hl b hb
    omega
  refine ⟨?_, ⟨by have := o.self; omega, ?_, ?_, ?_, ?_⟩, fun r' o' => ⟨?_, ?_, ?_, ?_, ?_⟩⟩
  · unfold readTags
    rw [et]
    simp only [List.map_map, el]
    congr 1
    refine map_congr' fun t _ => ?_
    simp only [Function.comp, readTag, readComments, eg, ec, el, List.map_map]
    congr 2
    exact map_congr' fun a _ => by simp only [Function.comp, ex]
  · rw [et]; exact ⟨map_add_nodup _ o.tag.1, fun a ha => (lt o.tag.2 a ha).2⟩
  · rw [k1]; exact ⟨map_add_nodup _ o.comments.1, fun a ha => (lt o.comments.2 a ha).2⟩
  · rw [k2]; exact ⟨map_add_nodup _ o.lines.1, fun a ha => (lt o.lines.2 a ha).2⟩
  · rw [k3]; exact ⟨map_add_nodup _ o.texts.1, fun a ha => (lt o.texts.2 a ha).2⟩
  · have := o'.self; omega
  · rw [et, (g.untouched o').tags]
    intro a ha hm
    have := (lt o.tag.2 a ha).1; have := o'.tag.2 a hm; omega
  · rw [k1, (g.untouched o').commentsOf]
    intro a ha hm
    have := (lt o.comments.2 a ha).1; have := o'.comments.2 a hm; omega
  · rw [k2, (g.untouched o').linesOf]
    intro a ha hm
    have := (lt o.lines.2 a ha).1; have := o'.lines.2 a hm; omega
  · rw [k3, (g.untouched o').textsOf]
    intro a ha hm
    have := (lt o.texts.2 a ha).1; have := o'.texts.2 a hm; omega

end Specfile.Heap
