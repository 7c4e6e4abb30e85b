import Verif.Spec.Heap
/-
Objects with identity: helper lemmas.
-/
namespace Specfile.Heap
open Py Spec

@[simp] theorem upd_same {α : Type} (f : Nat → α) (a : Nat) (v : α) : upd f a v a = v := by simp [upd]
theorem upd_ne {α : Type} (f : Nat → α) {a b : Nat} (v : α) (h : b ≠ a) : upd f a v b = f b := by simp [upd, h]

theorem nodup_map_inj {α β : Type} {f : α → β} {l : List α} (h : (l.map f).Nodup) {j k : Nat} {x y : α}
    (hx : l[j]? = some x) (hy : l[k]? = some y) (e : f x = f y) : j = k := by
  have h1 : (l.map f)[j]? = some (f x) := by simp [hx]
  have h2 : (l.map f)[k]? = some (f x) := by simp [hy, e]
  have hj : j < (l.map f).length := (List.getElem?_eq_some_iff.mp h1).1
  exact (List.getElem?_inj hj h).mp (h1.trans h2.symm)

theorem nodup_mem_inj {α β : Type} {f : α → β} {l : List α} (h : (l.map f).Nodup) {x y : α}
    (hx : x ∈ l) (hy : y ∈ l) (e : f x = f y) : x = y := by
  obtain ⟨j, hj⟩ := List.getElem?_of_mem hx
  obtain ⟨k, hk⟩ := List.getElem?_of_mem hy
  have := nodup_map_inj h hj hk e
  subst this
  rw [hj] at hk
  cases hk; rfl

/-- what an operation on the container `r` does to the memory; objects from `n` on are new -/
structure Local (n : Nat) (h h' : Heap) (r : Nat) : Prop where
  grow : h.next ≤ h'.next
  tags : ∀ a < n, a ≠ r → h'.tags a = h.tags a
  tag : ∀ a < n, a ∉ (h.tags r).data → h'.tag a = h.tag a
  comments : ∀ a < n, a ∉ commentsOf h r → h'.comments a = h.comments a
  lines : ∀ a < n, a ∉ linesOf h r → h'.lines a = h.lines a
  texts : ∀ a < n, a ∉ textsOf h r → h'.comment a = h.comment a
  tag' : ∀ a ∈ (h'.tags r).data, a ∈ (h.tags r).data ∨ n ≤ a
  comments' : ∀ a ∈ commentsOf h' r, a ∈ commentsOf h r ∨ n ≤ a
  lines' : ∀ a ∈ linesOf h' r, a ∈ linesOf h r ∨ n ≤ a
  texts' : ∀ a ∈ textsOf h' r, a ∈ textsOf h r ∨ n ≤ a

theorem Local.refl (n : Nat) (h : Heap) (r : Nat) : Local n h h r :=
  ⟨Nat.le_refl _, fun _ _ _ => rfl, fun _ _ _ => rfl, fun _ _ _ => rfl, fun _ _ _ => rfl, fun _ _ _ => rfl,
   fun _ h => .inl h, fun _ h => .inl h, fun _ h => .inl h, fun _ h => .inl h⟩

theorem Local.trans {n : Nat} {h h' h'' : Heap} {r : Nat} (a : Local n h h' r) (b : Local n h' h'' r) :
    Local n h h'' r where
  grow := Nat.le_trans a.grow b.grow
  tags x hx hr := by rw [b.tags x hx hr, a.tags x hx hr]
  tag x hx hr := by
    rw [b.tag x hx (fun hm => ?_), a.tag x hx hr]
    rcases a.tag' x hm with hm | hm
    · exact hr hm
    · omega
  comments x hx hr := by
    rw [b.comments x hx (fun hm => ?_), a.comments x hx hr]
    rcases a.comments' x hm with hm | hm
    · exact hr hm
    · omega
  lines x hx hr := by
    rw [b.lines x hx (fun hm => ?_), a.lines x hx hr]
    rcases a.lines' x hm with hm | hm
    · exact hr hm
    · omega
  texts x hx hr := by
    rw [b.texts x hx (fun hm => ?_), a.texts x hx hr]
    rcases a.texts' x hm with hm | hm
    · exact hr hm
    · omega
  tag' x hx := (b.tag' x hx).elim (a.tag' x) .inr
  comments' x hx := (b.comments' x hx).elim (a.comments' x) .inr
  lines' x hx := (b.lines' x hx).elim (a.lines' x) .inr
  texts' x hx := (b.texts' x hx).elim (a.texts' x) .inr

theorem Local.mono {n m : Nat} {h h' : Heap} {r : Nat} (l : Local m h h' r) (hn : n ≤ m) : Local n h h' r where
  grow := l.grow
  tags x hx := l.tags x (by omega)
  tag x hx := l.tag x (by omega)
  comments x hx := l.comments x (by omega)
  lines x hx := l.lines x (by omega)
  texts x hx := l.texts x (by omega)
  tag' x hx := (l.tag' x hx).imp id (fun h => by omega)
  comments' x hx := (l.comments' x hx).imp id (fun h => by omega)
  lines' x hx := (l.lines' x hx).imp id (fun h => by omega)
  texts' x hx := (l.texts' x hx).imp id (fun h => by omega)

/-! ### other containers -/

theorem map_congr' {α β : Type} {f g : α → β} {l : List α} (h : ∀ x ∈ l, f x = g x) : l.map f = l.map g :=
  List.map_congr_left h

/-- a container of which nothing is touched -/
structure Untouched (h h' : Heap) (r : Nat) : Prop where
  tags : h'.tags r = h.tags r
  tag : ∀ a ∈ (h.tags r).data, h'.tag a = h.tag a
  comments : ∀ a ∈ commentsOf h r, h'.comments a = h.comments a
  lines : ∀ a ∈ linesOf h r, h'.lines a = h.lines a
  texts : ∀ a ∈ textsOf h r, h'.comment a = h.comment a

theorem Untouched.commentsOf {h h' : Heap} {r : Nat} (u : Untouched h h' r) : commentsOf h' r = commentsOf h r := by
  unfold Spec.commentsOf
  rw [u.tags]
  exact map_congr' fun t ht => by rw [u.tag t ht]

theorem Untouched.linesOf {h h' : Heap} {r : Nat} (u : Untouched h h' r) : linesOf h' r = linesOf h r := by
  unfold Spec.linesOf
  rw [u.tags, u.commentsOf]
  rw [map_congr' fun c hc => by rw [u.comments c hc]]

theorem Untouched.textsOf {h h' : Heap} {r : Nat} (u : Untouched h h' r) : textsOf h' r = textsOf h r := by
  unfold Spec.textsOf
  rw [u.commentsOf]
  rw [List.flatMap_def, List.flatMap_def, map_congr' fun c hc => by rw [u.comments c hc]]

theorem Untouched.read {h h' : Heap} {r : Nat} (u : Untouched h h' r) : readTags h' r = readTags h r := by
  unfold readTags
  rw [u.tags, u.lines _ (.head _)]
  congr 1
  refine map_congr' fun t ht => ?_
  have hc : (h.tag t).comments ∈ Spec.commentsOf h r := List.mem_map.mpr ⟨t, ht, rfl⟩
  unfold readTag readComments
  rw [u.tag t ht, u.comments _ hc]
  congr 2
  · refine map_congr' fun a ha => u.texts a ?_
    exact List.mem_flatMap.mpr ⟨_, hc, ha⟩
  · exact u.lines _ (.tail _ (List.mem_map.mpr ⟨_, hc, rfl⟩))

theorem Untouched.own {h h' : Heap} {r : Nat} (u : Untouched h h' r) (hn : h.next ≤ h'.next) (o : Own h r) : Own h' r where
  self := by have := o.self; omega
  tag := by rw [u.tags]; exact ⟨o.tag.1, fun a ha => by have := o.tag.2 a ha; omega⟩
  comments := by rw [u.commentsOf]; exact ⟨o.comments.1, fun a ha => by have := o.comments.2 a ha; omega⟩
  lines := by rw [u.linesOf]; exact ⟨o.lines.1, fun a ha => by have := o.lines.2 a ha; omega⟩
  texts := by rw [u.textsOf]; exact ⟨o.texts.1, fun a ha => by have := o.texts.2 a ha; omega⟩

theorem _root_.Specfile.Spec.Apart.symm {h : Heap} {r r' : Nat} (a : Apart h r r') : Apart h r' r :=
  ⟨a.self.symm, fun x h1 h2 => a.tag x h2 h1, fun x h1 h2 => a.comments x h2 h1, fun x h1 h2 => a.lines x h2 h1,
   fun x h1 h2 => a.texts x h2 h1⟩

theorem Local.untouched {h h' : Heap} {r r' : Nat} (l : Local h.next h h' r) (o : Own h r') (a : Apart h r r') :
    Untouched h h' r' where
  tags := l.tags r' o.self a.self.symm
  tag x hx := l.tag x (o.tag.2 x hx) (fun hm => a.tag x hm hx)
  comments x hx := l.comments x (o.comments.2 x hx) (fun hm => a.comments x hm hx)
  lines x hx := l.lines x (o.lines.2 x hx) (fun hm => a.lines x hm hx)
  texts x hx := l.texts x (o.texts.2 x hx) (fun hm => a.texts x hm hx)

theorem Local.apart {h h' : Heap} {r r' : Nat} (l : Local h.next h h' r) (o : Own h r') (a : Apart h r r') : Apart h' r r' := by
  have u := l.untouched o a
  refine ⟨a.self, ?_, ?_, ?_, ?_⟩
  · intro x hx hm
    rw [u.tags] at hm
    rcases l.tag' x hx with h1 | h1
    · exact a.tag x h1 hm
    · have := o.tag.2 x hm; omega
  · intro x hx hm
    rw [u.commentsOf] at hm
    rcases l.comments' x hx with h1 | h1
    · exact a.comments x h1 hm
    · have := o.comments.2 x hm; omega
  · intro x hx hm
    rw [u.linesOf] at hm
    rcases l.lines' x hx with h1 | h1
    · exact a.lines x h1 hm
    · have := o.lines.2 x hm; omega
  · intro x hx hm
    rw [u.textsOf] at hm
    rcases l.texts' x hx with h1 | h1
    · exact a.texts x h1 hm
    · have := o.texts.2 x hm; omega

/-- two containers of which nothing is touched -/
theorem _root_.Specfile.Spec.Apart.keep {h h' : Heap} {r r' : Nat} (u : Untouched h h' r) (u' : Untouched h h' r') (a : Apart h r r') :
    Apart h' r r' := by
  refine ⟨a.self, ?_, ?_, ?_, ?_⟩
  · rw [u.tags, u'.tags]; exact a.tag
  · rw [u.commentsOf, u'.commentsOf]; exact a.comments
  · rw [u.linesOf, u'.linesOf]; exact a.lines
  · rw [u.textsOf, u'.textsOf]; exact a.texts

/-! ### primitive changes -/

/-- changing a list of lines changes no references -/
theorem setLines_of (h : Heap) (r a : Nat) (v : List Str) : commentsOf (setLines h a v) r = commentsOf h r ∧
    linesOf (setLines h a v) r = linesOf h r ∧ textsOf (setLines h a v) r = textsOf h r := ⟨rfl, rfl, rfl⟩

theorem setLines_own {h : Heap} {r a : Nat} {v : List Str} (o : Own h r) : Own (setLines h a v) r :=
  ⟨o.self, o.tag, o.comments, o.lines, o.texts⟩

theorem setLines_local {n : Nat} {h : Heap} {r a : Nat} {v : List Str} (ha : a ∈ linesOf h r) :
    Local n h (setLines h a v) r where
  grow := Nat.le_refl _
  tags _ _ _ := rfl
  tag _ _ _ := rfl
  comments _ _ _ := rfl
  lines _ _ hx := upd_ne _ _ (fun e => hx (e ▸ ha))
  texts _ _ _ := rfl
  tag' _ h := .inl h
  comments' _ h := .inl h
  lines' _ h := .inl h
  texts' _ h := .inl h

theorem linesOf_eq (h : Heap) (r : Nat) :
    linesOf h r = (h.tags r).remainder :: (h.tags r).data.map (precedingOf h) := by
  unfold linesOf commentsOf
  rw [List.map_map]; rfl

theorem _root_.Specfile.Spec.Own.rem_ne {h : Heap} {r t : Nat} (o : Own h r) (ht : t ∈ (h.tags r).data) :
    precedingOf h t ≠ (h.tags r).remainder := by
  have := o.lines.1
  rw [linesOf_eq, List.nodup_cons] at this
  exact fun e => this.1 (e ▸ List.mem_map.mpr ⟨t, ht, rfl⟩)

theorem _root_.Specfile.Spec.Own.prec_nodup {h : Heap} {r : Nat} (o : Own h r) : ((h.tags r).data.map (precedingOf h)).Nodup := by
  have := o.lines.1
  rw [linesOf_eq, List.nodup_cons] at this
  exact this.2

/-- replacing the preceding lines of a tag -/
def withPreceding (v : List Str) (x : Tag) : Tag := { x with comments := { x.comments with preceding := v } }

theorem readTag_setLines_ne {h : Heap} {a t : Nat} {v : List Str} (ht : precedingOf h t ≠ a) :
    readTag (setLines h a v) t = readTag h t := by
  unfold precedingOf at ht
  unfold readTag readComments setLines
  simp only
  rw [upd_ne _ _ ht]

theorem readTag_setLines {h : Heap} {t : Nat} {v : List Str} :
    readTag (setLines h (precedingOf h t) v) t = withPreceding v (readTag h t) := by
  unfold readTag readComments setLines withPreceding precedingOf
  simp only [upd_same]

theorem read_setLines_rem {h : Heap} {r : Nat} {v : List Str} (o : Own h r) :
    readTags (setLines h (h.tags r).remainder v) r = { readTags h r with remainder := v } := by
  unfold readTags
  rw [show (setLines h (h.tags r).remainder v).tags r = h.tags r from rfl]
  congr 1
  · exact map_congr' fun t ht => readTag_setLines_ne (o.rem_ne ht)
  · simp [setLines]

theorem read_setLines_prec {h : Heap} {r k t : Nat} {v : List Str} (o : Own h r) (ht : (h.tags r).data[k]? = some t) :
    readTags (setLines h (precedingOf h t) v) r =
      { readTags h r with data := (readTags h r).data.modify k (withPreceding v) } := by
  have hm := List.mem_of_getElem? ht
  unfold readTags
  rw [show (setLines h (precedingOf h t) v).tags r = h.tags r from rfl]
  congr 1
  · apply List.ext_getElem?
    intro j
    rw [List.getElem?_modify, List.getElem?_map, List.getElem?_map]
    cases hj : (h.tags r).data[j]? with
    | none => simp
    | some u =>
      simp only [Option.map_some]
      by_cases e : k = j
      · subst e
        rw [ht] at hj; cases hj
        rw [readTag_setLines]; simp
      · simp only [if_neg e, Option.map_eq_map, Option.map_some]
        rw [readTag_setLines_ne]
        intro e'
        exact e (nodup_map_inj o.prec_nodup ht hj e'.symm)
  · unfold setLines
    exact upd_ne _ _ (o.rem_ne hm).symm

theorem withData_tags (h : Heap) (r : Nat) (data : List Nat) :
    (withData h r data).tags r = { h.tags r with data := data } := by simp [withData]

theorem withData_commentsOf (h : Heap) (r : Nat) (data : List Nat) :
    commentsOf (withData h r data) r = data.map (fun t => (h.tag t).comments) := by
  unfold commentsOf; rw [withData_tags]; rfl

theorem withData_linesOf (h : Heap) (r : Nat) (data : List Nat) :
    linesOf (withData h r data) r = (h.tags r).remainder :: data.map (precedingOf h) := by
  rw [linesOf_eq, withData_tags]; rfl

theorem withData_textsOf (h : Heap) (r : Nat) (data : List Nat) :
    textsOf (withData h r data) r = (data.map (fun t => (h.tag t).comments)).flatMap (fun c => (h.comments c).data) := by
  unfold textsOf; rw [withData_commentsOf]; rfl

theorem withData_read (h : Heap) (r : Nat) (data : List Nat) :
    readTags (withData h r data) r = ⟨data.map (readTag h), (readTags h r).remainder⟩ := by
  unfold readTags; rw [withData_tags]; rfl

theorem flatMap_sublist {α β : Type} {f : α → List β} {l l' : List α} (h : l.Sublist l') :
    (l.flatMap f).Sublist (l'.flatMap f) := by
  induction h with
  | slnil => exact List.Sublist.slnil
  | cons a _ ih => rw [List.flatMap_cons]; exact ih.trans (List.sublist_append_right _ _)
  | cons_cons a _ ih => rw [List.flatMap_cons, List.flatMap_cons]; exact (List.Sublist.refl _).append ih

theorem withData_own {h : Heap} {r : Nat} {data : List Nat} (o : Own h r) (hs : data.Sublist (h.tags r).data) :
    Own (withData h r data) r := by
  have hc := hs.map (fun t => (h.tag t).comments)
  have hl := hs.map (precedingOf h)
  refine ⟨o.self, ?_, ?_, ?_, ?_⟩
  · rw [withData_tags]
    exact ⟨hs.nodup o.tag.1, fun a ha => o.tag.2 a (hs.subset ha)⟩
  · rw [withData_commentsOf]
    exact ⟨hc.nodup o.comments.1, fun a ha => o.comments.2 a (hc.subset ha)⟩
  · rw [withData_linesOf]
    have h1 := o.lines
    rw [linesOf_eq] at h1
    have h2 := hl.cons_cons (h.tags r).remainder
    exact ⟨h2.nodup h1.1, fun a ha => h1.2 a (h2.subset ha)⟩
  · rw [withData_textsOf]
    have h2 := flatMap_sublist (f := fun c => (h.comments c).data) hc
    exact ⟨h2.nodup o.texts.1, fun a ha => o.texts.2 a (h2.subset ha)⟩

theorem withData_local {n : Nat} {h : Heap} {r : Nat} {data : List Nat} (hs : data.Sublist (h.tags r).data) :
    Local n h (withData h r data) r where
  grow := Nat.le_refl _
  tags x _ hx := upd_ne _ _ hx
  tag _ _ _ := rfl
  comments _ _ _ := rfl
  lines _ _ _ := rfl
  texts _ _ _ := rfl
  tag' x hx := by rw [withData_tags] at hx; exact .inl (hs.subset hx)
  comments' x hx := by rw [withData_commentsOf] at hx; exact .inl ((hs.map _).subset hx)
  lines' x hx := by
    rw [withData_linesOf] at hx
    rw [linesOf_eq]
    exact .inl (((hs.map _).cons_cons _).subset hx)
  texts' x hx := by
    rw [withData_textsOf] at hx
    exact .inl ((flatMap_sublist (hs.map _)).subset hx)

/-! ### deletion -/

/-- an operation on a container: what is left in it, and what happens to the memory -/
structure Does (n : Nat) (h h' : Heap) (r : Nat) (m : Tags) : Prop where
  read : readTags h' r = m
  own : Own h' r
  loc : Local n h h' r

theorem Does.refl {n : Nat} {h : Heap} {r : Nat} (o : Own h r) : Does n h h r (readTags h r) := ⟨rfl, o, .refl n h r⟩

theorem Does.trans {n : Nat} {h h' h'' : Heap} {r : Nat} {m m' : Tags} (a : Does n h h' r m) (b : Does n h' h'' r m') :
    Does n h h'' r m' := ⟨b.read, b.own, a.loc.trans b.loc⟩

theorem does_setLines_rem {n : Nat} {h : Heap} {r : Nat} {v : List Str} (o : Own h r) :
    Does n h (setLines h (h.tags r).remainder v) r { readTags h r with remainder := v } :=
  ⟨read_setLines_rem o, setLines_own o, setLines_local (.head _)⟩

theorem does_setLines_prec {n : Nat} {h : Heap} {r k t : Nat} {v : List Str} (o : Own h r)
    (ht : (h.tags r).data[k]? = some t) :
    Does n h (setLines h (precedingOf h t) v) r
      { readTags h r with data := (readTags h r).data.modify k (withPreceding v) } :=
  ⟨read_setLines_prec o ht, setLines_own o, setLines_local (by
    rw [linesOf_eq]; exact .tail _ (List.mem_map.mpr ⟨t, List.mem_of_getElem? ht, rfl⟩))⟩

theorem does_withData {n : Nat} {h : Heap} {r : Nat} {data : List Nat} (o : Own h r)
    (hs : data.Sublist (h.tags r).data) :
    Does n h (withData h r data) r ⟨data.map (readTag h), (readTags h r).remainder⟩ :=
  ⟨withData_read h r data, withData_own o hs, withData_local hs⟩

theorem read_length (h : Heap) (r : Nat) : (readTags h r).data.length = (h.tags r).data.length := by
  simp [readTags]

theorem read_data (h : Heap) (r k : Nat) : (readTags h r).data[k]? = ((h.tags r).data[k]?).map (readTag h) := by
  simp [readTags]

theorem preceding_read (h : Heap) (t : Nat) : (readTag h t).comments.preceding = h.lines (precedingOf h t) := rfl

theorem eraseIdx_map {α β : Type} (f : α → β) (l : List α) (k : Nat) : (l.eraseIdx k).map f = (l.map f).eraseIdx k := by
  induction l generalizing k with
  | nil => simp
  | cons a l ih => cases k <;> simp [ih]

theorem modify_congr' {α : Type} {f g : α → α} {l : List α} {k : Nat} {x : α} (hk : l[k]? = some x) (h : f x = g x) :
    l.modify k f = l.modify k g := by
  apply List.ext_getElem?
  intro j
  rw [List.getElem?_modify, List.getElem?_modify]
  by_cases e : k = j
  · subst e; simp [hk, h]
  · simp [e]

theorem delItem_does {n : Nat} {h : Heap} {r : Nat} {i : Int} (o : Own h r) :
    Does n h (delItem h r i).1 r ((readTags h r).delItem i).1 ∧
      (delItem h r i).2 = ((readTags h r).delItem i).2 := by
  unfold delItem Tags.delItem
  rw [read_length]
  cases hk : pyIndex (h.tags r).data.length i with
  | none => exact ⟨.refl o, rfl⟩
  | some k =>
    have hlt := pyIndex_lt hk
    have ht : (h.tags r).data[k]? = some (h.tags r).data[k] := List.getElem?_eq_getElem hlt
    simp only [ht]
    have hd : (readTags h r).data.eraseIdx k = ((h.tags r).data.eraseIdx k).map (readTag h) := by
      rw [eraseIdx_map]; rfl
    rw [hd, List.length_map, read_data, ht]
    simp only [Option.map_some, Option.getD_some, preceding_read]
    generalize (h.tags r).data[k] = t
    have d1 : Does n h (withData h r ((h.tags r).data.eraseIdx k)) r _ :=
      does_withData o (List.eraseIdx_sublist _ _)
    have hw := withData_tags h r ((h.tags r).data.eraseIdx k)
    have hr := withData_read h r ((h.tags r).data.eraseIdx k)
    have hl : ∀ a, (withData h r ((h.tags r).data.eraseIdx k)).lines a = h.lines a := fun _ => rfl
    have hp : ∀ a, precedingOf (withData h r ((h.tags r).data.eraseIdx k)) a = precedingOf h a := fun _ => rfl
    revert d1 hw hr hl hp
    generalize withData h r ((h.tags r).data.eraseIdx k) = h1
    intro d1 hw hr hl hp
    split
    · cases hj : pyIndex ((h.tags r).data.eraseIdx k).length i with
      | none => exact ⟨d1, rfl⟩
      | some j =>
        obtain ⟨u, hu⟩ : ∃ u, ((h.tags r).data.eraseIdx k)[j]? = some u :=
          ⟨_, List.getElem?_eq_getElem (pyIndex_lt hj)⟩
        simp only [hu]
        have hu' : (h1.tags r).data[j]? = some u := by rw [hw]; exact hu
        refine ⟨?_, trivial⟩
        have d2 := d1.trans (does_setLines_prec (n := n) (v := Tags.compress (h.lines (precedingOf h t))
          (h1.lines (precedingOf h1 u))) d1.own hu')
        rw [hr] at d2
        have : List.modify (List.map (readTag h) ((h.tags r).data.eraseIdx k)) j (withPreceding
            (Tags.compress (h.lines (precedingOf h t)) (h1.lines (precedingOf h1 u)))) =
            List.modify (List.map (readTag h) ((h.tags r).data.eraseIdx k)) j (fun x => { x with comments :=
              { x.comments with preceding := Tags.compress (h.lines (precedingOf h t)) x.comments.preceding } }) := by
          refine modify_congr' (x := readTag h u) (by rw [List.getElem?_map, hu]; rfl) ?_
          rw [hp, hl]; rfl
        rw [this] at d2
        exact d2
    · have hrem : (h1.tags r).remainder = (h.tags r).remainder := by rw [hw]
      have d2 := d1.trans (does_setLines_rem (n := n) (v := Tags.compress (h.lines (precedingOf h t))
          (h1.lines (h.tags r).remainder)) d1.own)
      rw [hr, hrem] at d2
      rw [hl] at d2 ⊢
      exact ⟨d2, rfl⟩

theorem delAll_does {n : Nat} {r : Nat} (l : List Nat) : ∀ {h : Heap}, Own h r →
    Does n h (delAll h r l).1 r ((readTags h r).delAll l).1 ∧
      (delAll h r l).2 = ((readTags h r).delAll l).2 := by
  induction l with
  | nil => exact fun o => ⟨.refl o, rfl⟩
  | cons i l ih =>
    intro h o
    have d := delItem_does (n := n) (i := i) o
    unfold delAll Tags.delAll
    revert d
    generalize delItem h r i = x
    generalize (readTags h r).delItem i = y
    obtain ⟨h1, e1⟩ := x
    obtain ⟨m1, e2⟩ := y
    rintro ⟨d, e⟩
    simp only at d e
    subst e
    cases e1 with
    | some e => exact ⟨d, rfl⟩
    | none =>
      have := ih d.own
      rw [d.read] at this
      exact ⟨d.trans this.1, this.2⟩

theorem delSlice_does {n : Nat} {h : Heap} {r : Nat} {a b c : Option Int} (o : Own h r) :
    Does n h (delSlice h r a b c).1 r ((readTags h r).delSlice a b c).1 ∧
      (delSlice h r a b c).2 = ((readTags h r).delSlice a b c).2 := by
  unfold delSlice Tags.delSlice
  rw [read_length]
  cases sliceIndices (h.tags r).data.length a b c with
  | error e => exact ⟨.refl o, rfl⟩
  | ok l => exact delAll_does _ o

end Specfile.Heap
