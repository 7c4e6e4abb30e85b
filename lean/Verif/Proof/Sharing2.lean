import Verif.Proof.Sharing
import Verif.Proof.Slices
import Verif.Py.Seq2
/-
Edits in memory do what they do to values, and programs that are careful cannot tell the difference.
-/
namespace Specfile.SharingProof
open Py ListMethods Slices Sharing Spec
open Heap (upd)

variable {α C : Type} [Deleting C α]

theorem data_read (S : Sound C) (h : Mem α) (r : Nat) : Listed.data (contents C h r) = (h.obj r).data.map h.item :=
  S.data _ _

theorem map_upd_new {l : List Nat} {n : Nat} (hl : ∀ a ∈ l, a < n) (f : Nat → α) (x : α) :
    l.map (upd f n x) = l.map f := by
  refine List.map_congr_left fun a ha => ?_
  have : a ≠ n := by have := hl a ha; omega
  simp [upd, this]

theorem map_upd_modify {l : List Nat} (n : l.Nodup) {j a : Nat} (hj : l[j]? = some a) (f : Nat → α) (g : α → α) :
    l.map (upd f a (g (f a))) = (l.map f).modify j g := by
  apply List.ext_getElem?
  intro i
  rw [List.getElem?_map, List.getElem?_modify, List.getElem?_map]
  cases hi : l[i]? with
  | none => simp
  | some b =>
    by_cases e : j = i
    · subst e
      rw [hi] at hj
      cases hj
      simp [upd]
    · have : b ≠ a := by
        rintro rfl
        have h1 := (List.getElem?_eq_some_iff.1 hi)
        have h2 := (List.getElem?_eq_some_iff.1 hj)
        exact e ((List.getElem_inj n).1 (h2.2.trans h1.2.symm))
      simp [upd, this, e]

theorem map_eraseIdx {β γ : Type} (f : β → γ) (l : List β) (k : Nat) : (l.eraseIdx k).map f = (l.map f).eraseIdx k := by
  rw [List.eraseIdx_eq_take_drop_succ, List.eraseIdx_eq_take_drop_succ, List.map_append, List.map_take, List.map_drop]

theorem delItem_self (S : Sound C) (h : Mem α) (r : Nat)
    (n : Passing.passes C = true → (h.obj r).data.Nodup) (i : Int) :
    contents C (Sharing.delItem C h r i).1 r = (Deleting.del (contents C h r) i).1 ∧
    (Sharing.delItem C h r i).2 = (Deleting.del (contents C h r) i).2 := by
  have v : Deleting.del (contents C h r) i = delParts C ((h.obj r).data.map h.item) (h.lines (h.obj r).rest) i := S.del _ _ _
  rw [v]
  unfold Sharing.delItem delParts
  rw [List.length_map]
  cases hk : pyIndex (h.obj r).data.length i with
  | none => exact ⟨rfl, rfl⟩
  | some k =>
    simp only [← map_eraseIdx, List.length_map]
    by_cases p : Passing.passes C = true
    · simp only [p, if_true]
      have n' := (n p).sublist (List.eraseIdx_sublist (h.obj r).data k)
      have hl : (((h.obj r).data.map h.item)[k]?.map (Passing.lines C)).getD [] =
          ((h.obj r).data[k]?.map (fun a => Passing.lines C (h.item a))).getD [] := by
        rw [List.getElem?_map]
        cases (h.obj r).data[k]? <;> rfl
      rw [hl]
      split
      · cases hj : pyIndex ((h.obj r).data.eraseIdx k).length i with
        | none => exact ⟨by simp [contents, withData, upd], rfl⟩
        | some j =>
          simp only
          cases ha : ((h.obj r).data.eraseIdx k)[j]? with
          | none =>
            exact absurd (pyIndex_lt hj) (by simpa using ha)
          | some a =>
            refine ⟨?_, rfl⟩
            simp only [contents, withData, upd, if_true]
            congr 1
            exact map_upd_modify n' ha _ _
      · split
        · exact ⟨by simp [contents, withData, upd], rfl⟩
        · exact ⟨by simp [contents, withData, upd], rfl⟩
    · simp only [p, if_false, Bool.false_eq_true]
      exact ⟨by simp [contents, withData, upd], trivial⟩

theorem delAll_self (S : Sound C) (p : Passing.passes C = true) (r : Nat) : ∀ (ks : List Nat) (h : Mem α), Exists h r →
    (h.obj r).data.Nodup →
    contents C (Sharing.delAll C h r ks).1 r = (delLoop (contents C h r) ks).1 ∧
    (Sharing.delAll C h r ks).2 = (delLoop (contents C h r) ks).2
  | [], _, _, _ => ⟨rfl, rfl⟩
  | k :: ks, h, w, n => by
    have f := frame_delItem (C := C) h r k (P := True) (fun _ => trivial)
    have d := delItem_self S h r (fun _ => n) k
    unfold Sharing.delAll delLoop
    cases e : Sharing.delItem C h r k with
    | mk h' o =>
      cases e' : Deleting.del (contents C h r) (k : Int) with
      | mk c o' =>
        rw [e] at f d
        rw [e'] at d
        simp only at d
        obtain ⟨rfl, rfl⟩ := d
        cases o with
        | some _ => exact ⟨rfl, rfl⟩
        | none => exact delAll_self S p r ks h' (f.exists w) (f.nodup w.data n)

theorem dropAll_map {β γ : Type} (f : β → γ) (ks : List Nat) : ∀ (l : List β) (k : Nat),
    dropAll ks k (l.map f) = (dropAll ks k l).map f
  | [], _ => rfl
  | x :: l, k => by
    simp only [List.map_cons, dropAll, dropAll_map f ks l]
    split <;> rfl

/-- an edit in memory does to its container what it does to the value -/
theorem edit_self (S : Sound C) (h : Mem α) (r : Nat) (w : Exists h r) (e : Edit α)
    (n : InPlace C e → (h.obj r).data.Nodup) :
    contents C (e.run C h r).1 r = (editValue (contents C h r) e).1 ∧ (e.run C h r).2 = (editValue (contents C h r) e).2 := by
  have wd : ∀ l', Listed.withData (contents C h r) l' = Passing.build l' (h.lines (h.obj r).rest) := fun l' => S.withData _ _ _
  have new : ∀ (x : α) (l : List Nat), contents C (withData (newItem h x).1 r l) r =
      Passing.build (l.map (upd h.item h.next x)) (h.lines (h.obj r).rest) := by
    intro x l
    simp [contents, withData, newItem, upd]
  have old : ∀ (l : List Nat), contents C (withData h r l) r = Passing.build (l.map h.item) (h.lines (h.obj r).rest) := by
    intro l
    simp [contents, withData, upd]
  cases e with
  | del i => exact delItem_self S h r n i
  | delSlice start stop step =>
    simp only [Edit.run, editValue, S.delAt, Sharing.delSlice, data_read S, List.length_map]
    cases sliceIndices (h.obj r).data.length start stop step with
    | error e => exact ⟨rfl, rfl⟩
    | ok ks =>
      simp only
      by_cases p : Passing.passes C = true
      · simp only [p, if_true]
        exact delAll_self S p r _ h w (n p)
      · simp only [p, if_false, Bool.false_eq_true]
        refine ⟨?_, trivial⟩
        rw [old, wd, dropAll_map]
  | insert i x =>
    refine ⟨?_, rfl⟩
    simp only [Edit.run, editValue, ListMethods.insert]
    have e : ((newItem h x).1.obj r).data = (h.obj r).data := rfl
    rw [e, new, wd, data_read S, List.length_map, List.map_append, List.map_cons,
      map_upd_new (fun a ha => w.data a (List.mem_of_mem_take ha)),
      map_upd_new (fun a ha => w.data a (List.mem_of_mem_drop ha)), List.map_take, List.map_drop]
    simp [newItem, upd]
  | append x =>
    refine ⟨?_, rfl⟩
    simp only [Edit.run, editValue, ListMethods.append]
    rw [new, wd, data_read S, List.map_append]
    have : ((newItem h x).1.obj r).data = (h.obj r).data := rfl
    rw [this, map_upd_new w.data]
    simp [newItem, upd]
  | set i x =>
    simp only [Edit.run, editValue, ListMethods.setItem, data_read S, List.length_map]
    have e : ((newItem h x).1.obj r).data = (h.obj r).data := rfl
    rw [e]
    cases pyIndex (h.obj r).data.length i with
    | none =>
      refine ⟨?_, rfl⟩
      simp only [contents, newItem, map_upd_new w.data]
    | some k =>
      refine ⟨?_, rfl⟩
      simp only
      rw [new, wd, List.map_set, map_upd_new w.data]
      simp [newItem, upd]
  | pop i =>
    simp only [Edit.run, editValue, ListMethods.pop, data_read S, List.length_map, List.getElem?_map]
    cases hk : pyIndex (h.obj r).data.length i with
    | none => exact ⟨rfl, rfl⟩
    | some k =>
      simp only
      cases ha : (h.obj r).data[k]? with
      | none => exact absurd (pyIndex_lt hk) (by simpa using ha)
      | some a =>
        refine ⟨?_, rfl⟩
        simp only [Option.map_some]
        rw [old, wd, map_eraseIdx]
  | clear =>
    refine ⟨?_, rfl⟩
    simp only [Edit.run, editValue, ListMethods.clear]
    rw [old, wd]
    rfl
  | reverse =>
    refine ⟨?_, rfl⟩
    simp only [Edit.run, editValue, ListMethods.reverse]
    rw [old, wd, data_read S, List.map_reverse]
  | change i f =>
    simp only [Edit.run, editValue, data_read S, List.length_map]
    cases hk : pyIndex (h.obj r).data.length i with
    | none => exact ⟨rfl, rfl⟩
    | some k =>
      simp only
      cases ha : (h.obj r).data[k]? with
      | none => exact absurd (pyIndex_lt hk) (by simpa using ha)
      | some a =>
        refine ⟨?_, rfl⟩
        simp only
        rw [wd]
        simp only [contents]
        congr 1
        exact map_upd_modify (n trivial) ha _ _

/-- an edit does nothing to a container without common objects, or if it is not in place -/
theorem edit_other {h h' : Mem α} {r : Nat} {P : Prop} (f : Frame h h' r P) {y : Nat} (hy : y ≠ r) (w : Exists h y)
    (ap : P → (∀ a ∈ (h.obj y).data, a ∉ (h.obj r).data) ∧ (h.obj y).rest ≠ (h.obj r).rest) :
    contents C h' y = contents C h y := by
  simp only [contents, f.other y hy]
  have e1 : (h.obj y).data.map h'.item = (h.obj y).data.map h.item := by
    refine List.map_congr_left fun a ha => f.item a (w.data a ha) ?_
    by_cases p : P
    · exact .inl ((ap p).1 a ha)
    · exact .inr p
  have e2 : h'.lines (h.obj y).rest = h.lines (h.obj y).rest := by
    refine f.lines _ w.rest ?_
    by_cases p : P
    · exact .inl (ap p).2
    · exact .inr p
  rw [e1, e2]

/-! ### programs -/

/-- what the marks tell about the memory -/
structure Marked (h : Mem α) (rs : List Nat) (m : Marks) : Prop where
  count : m.count = rs.length
  distinct : rs.Nodup
  exist : ∀ r ∈ rs, Exists h r
  doubled : ∀ x r, rs[x]? = some r → x ∉ m.doubled → (h.obj r).data.Nodup
  sub : ∀ x ∈ m.doubled, x ∈ m.shared
  apart : ∀ x r y r', rs[x]? = some r → rs[y]? = some r' → x ≠ y → x ∉ m.shared →
    (∀ a ∈ (h.obj r').data, a ∉ (h.obj r).data) ∧ (h.obj r').rest ≠ (h.obj r).rest

theorem getElem?_snoc_cases {β : Type} {l : List β} {a b : β} {x : Nat} (h : (l ++ [a])[x]? = some b) :
    l[x]? = some b ∨ (x = l.length ∧ b = a) := by
  rw [List.getElem?_append] at h
  split at h
  · exact .inl h
  · next hx =>
    right
    have : x - l.length = 0 := by
      have := (List.getElem?_eq_some_iff.1 h).1
      simp at this
      omega
    rw [this] at h
    simp at h
    exact ⟨by omega, h.symm⟩

/-- a new container whose references satisfy the rest of the conditions -/
theorem marked_snoc {h h' : Mem α} {rs : List Nat} {m : Marks} (k : Marked h rs m) {r : Nat} {shared doubled : List Nat}
    (hr : h.next ≤ r) (ex : Exists h' r) (next : h.next ≤ h'.next) (same : ∀ x, x < h.next → h'.obj x = h.obj x)
    (hs : ∀ x ∈ m.shared, x ∈ shared) (hd : ∀ x ∈ m.doubled, x ∈ doubled) (sub : ∀ x ∈ doubled, x ∈ shared)
    (nd : rs.length ∉ doubled → (h'.obj r).data.Nodup)
    (ap : ∀ x r', rs[x]? = some r' → (x ∉ shared ∨ rs.length ∉ shared) →
      (∀ a ∈ (h.obj r').data, a ∉ (h'.obj r).data) ∧ (h.obj r').rest ≠ (h'.obj r).rest) :
    Marked h' (rs ++ [r]) ⟨m.count + 1, shared, doubled⟩ := by
  have lt : ∀ x r', rs[x]? = some r' → r' < h.next := fun x r' e => (k.exist r' (List.mem_of_getElem? e)).self
  refine ⟨by simp [k.count], ?_, ?_, ?_, sub, ?_⟩
  · refine List.nodup_append.2 ⟨k.distinct, by simp, fun a ha b hb e => ?_⟩
    have := (k.exist a ha).self
    simp at hb
    omega
  · intro x hx
    rcases List.mem_append.1 hx with hx | hx
    · have w := k.exist x hx
      have e := same x w.self
      exact ⟨Nat.lt_of_lt_of_le w.self next, by rw [e]; exact fun a ha => Nat.lt_of_lt_of_le (w.data a ha) next,
        by rw [e]; exact Nat.lt_of_lt_of_le w.rest next⟩
    · simp at hx
      subst hx
      exact ex
  · intro x r' hx nx
    rcases getElem?_snoc_cases hx with e | ⟨rfl, rfl⟩
    · rw [same r' (lt x r' e)]
      exact k.doubled x r' e (fun q => nx (hd x q))
    · exact nd nx
  · intro x r1 y r2 hx hy ne nx
    rcases getElem?_snoc_cases hx with e | ⟨rfl, rfl⟩ <;> rcases getElem?_snoc_cases hy with e' | ⟨rfl, rfl⟩
    · rw [same r1 (lt x r1 e), same r2 (lt y r2 e')]
      exact k.apart x r1 y r2 e e' ne (fun q => nx (hs x q))
    · rw [same r1 (lt x r1 e)]
      obtain ⟨a1, a2⟩ := ap x r1 e (.inl nx)
      exact ⟨fun a ha hb => a1 a hb ha, fun q => a2 q.symm⟩
    · rw [same r2 (lt y r2 e')]
      exact ap y r2 e' (.inr nx)
    · exact absurd rfl ne

theorem marked_edit {h h' : Mem α} {rs : List Nat} {m : Marks} (k : Marked h rs m) {x r : Nat} (hx : rs[x]? = some r)
    {P : Prop} (f : Frame h h' r P) : Marked h' rs m := by
  have inj : ∀ {x y r : Nat}, rs[x]? = some r → rs[y]? = some r → x = y := by
    intro x y r h1 h2
    have a := List.getElem?_eq_some_iff.1 h1
    have b := List.getElem?_eq_some_iff.1 h2
    exact (List.getElem_inj k.distinct).1 (a.2.trans b.2.symm)
  refine ⟨k.count, k.distinct, fun r' hr' => f.exists (k.exist r' hr'), ?_, k.sub, ?_⟩
  · intro y r' hy ny
    have n := k.doubled y r' hy ny
    by_cases e : r' = r
    · subst e
      exact f.nodup (k.exist r' (List.mem_of_getElem? hy)).data n
    · rw [f.other r' e]
      exact n
  · intro y r1 z r2 hy hz ne ny
    obtain ⟨a1, a2⟩ := k.apart y r1 z r2 hy hz ne ny
    have w1 := k.exist r1 (List.mem_of_getElem? hy)
    have w2 := k.exist r2 (List.mem_of_getElem? hz)
    have ner : r1 ≠ r2 := fun e => ne (inj (e ▸ hy) hz)
    by_cases e1 : r1 = r
    · subst e1
      rw [f.other r2 (fun e => ner e.symm)]
      refine ⟨fun a ha hb => ?_, fun q => ?_⟩
      · rcases f.data a hb with q | q
        · exact a1 a ha q
        · have := w2.data a ha
          omega
      · rcases f.rest with e | e
        · exact a2 (q.trans e)
        · have := w2.rest
          omega
    · rw [f.other r1 e1]
      by_cases e2 : r2 = r
      · subst e2
        refine ⟨fun a ha hb => ?_, fun q => ?_⟩
        · rcases f.data a ha with q | q
          · exact a1 a q hb
          · have := w1.data a hb
            omega
        · rcases f.rest with e | e
          · exact a2 (e.symm.trans q)
          · have := w1.rest
            omega
      · rw [f.other r2 e2]
        exact ⟨a1, a2⟩

/-- the values of the containers -/
def values (C : Type) [Deleting C α] (h : Mem α) (rs : List Nat) : List C := rs.map (contents C h)

theorem values_snoc {h h' : Mem α} {rs : List Nat} {m : Marks} (k : Marked h rs m)
    (obj : ∀ x, x < h.next → h'.obj x = h.obj x) (item : ∀ x, x < h.next → h'.item x = h.item x)
    (lines : ∀ x, x < h.next → h'.lines x = h.lines x) (r : Nat) :
    values C h' (rs ++ [r]) = values C h rs ++ [contents C h' r] := by
  simp only [values, List.map_append, List.map_cons, List.map_nil]
  congr 1
  refine List.map_congr_left fun a ha => ?_
  have w := k.exist a ha
  simp only [contents, obj a w.self, lines _ w.rest]
  congr 1
  exact List.map_congr_left fun b hb => item b (w.data b hb)

theorem values_get (h : Mem α) (rs : List Nat) (x : Nat) : (values C h rs)[x]? = rs[x]?.map (contents C h) := by
  simp [values]

theorem values_edit {h h' : Mem α} {rs : List Nat} {m : Marks} (k : Marked h rs m) {x r : Nat} (hx : rs[x]? = some r)
    {P : Prop} (f : Frame h h' r P) (hp : P → x ∉ m.shared) :
    values C h' rs = (values C h rs).set x (contents C h' r) := by
  apply List.ext_getElem?
  intro y
  rw [values_get, List.getElem?_set, values_get]
  have hl : x < rs.length := (List.getElem?_eq_some_iff.1 hx).1
  by_cases e : x = y
  · subst e
    simp [values, hl, (List.getElem?_eq_some_iff.1 hx).2]
  · rw [if_neg e]
    cases hy : rs[y]? with
    | none => rfl
    | some r' =>
      have ne : r' ≠ r := by
        rintro rfl
        have a := List.getElem?_eq_some_iff.1 hx
        have b := List.getElem?_eq_some_iff.1 hy
        exact e ((List.getElem_inj k.distinct).1 (a.2.trans b.2.symm))
      simp only [Option.map_some]
      rw [edit_other f ne (k.exist r' (List.mem_of_getElem? hy)) (fun p => k.apart x r y r' hx hy e (hp p))]

end Specfile.SharingProof
