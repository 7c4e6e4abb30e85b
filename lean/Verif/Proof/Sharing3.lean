import Verif.Proof.Sharing2
/-
One statement of a program.
-/
namespace Specfile.SharingProof
open Py ListMethods Slices Sharing Spec
open Heap (upd)

variable {α C : Type} [Deleting C α]

theorem pick_map {β γ : Type} (f : β → γ) (l : List β) (ks : List Nat) : pick (l.map f) ks = (pick l ks).map f := by
  simp only [pick, List.getElem?_map]
  induction ks with
  | nil => rfl
  | cons k ks ih =>
    simp only [List.filterMap_cons]
    cases l[k]? with
    | none => exact ih
    | some b => simp [ih]

theorem pick_nodup {l : List Nat} (n : l.Nodup) : ∀ {ks : List Nat}, ks.Nodup → (pick l ks).Nodup
  | [], _ => by simp [pick]
  | k :: ks, h => by
    have ih := pick_nodup n (List.nodup_cons.1 h).2
    simp only [pick, List.filterMap_cons] at ih ⊢
    cases e : l[k]? with
    | none => exact ih
    | some a =>
      refine List.nodup_cons.2 ⟨fun m => ?_, ih⟩
      obtain ⟨j, hj, e'⟩ := List.mem_filterMap.1 m
      have a1 := List.getElem?_eq_some_iff.1 e
      have a2 := List.getElem?_eq_some_iff.1 e'
      have : k = j := (List.getElem_inj n).1 (a1.2.trans a2.2.symm)
      exact (List.nodup_cons.1 h).1 (this ▸ hj)

theorem pick_mem {β : Type} {l : List β} {ks : List Nat} {a : β} (h : a ∈ pick l ks) : a ∈ l := by
  obtain ⟨j, _, e⟩ := List.mem_filterMap.1 h
  exact List.mem_of_getElem? e

/-- adding an element of another container -/
theorem marked_put {h : Mem α} {rs : List Nat} {m : Marks} (k : Marked h rs m) {x r y r' a : Nat}
    (hx : rs[x]? = some r) (hy : rs[y]? = some r') (ha : a ∈ (h.obj r').data) {data : List Nat}
    (hd : ∀ b ∈ data, b ∈ (h.obj r).data ∨ b = a) :
    Marked (withData h r data) rs ⟨m.count, x :: y :: m.shared, x :: m.doubled⟩ := by
  have inj : ∀ {x y r : Nat}, rs[x]? = some r → rs[y]? = some r → x = y := by
    intro x y r h1 h2
    have a := List.getElem?_eq_some_iff.1 h1
    have b := List.getElem?_eq_some_iff.1 h2
    exact (List.getElem_inj k.distinct).1 (a.2.trans b.2.symm)
  have other : ∀ z, z ≠ r → (withData h r data).obj z = h.obj z := fun z hz => by simp [withData, upd, hz]
  have self : (withData h r data).obj r = ⟨data, (h.obj r).rest⟩ := by simp [withData, upd]
  refine ⟨k.count, k.distinct, ?_, ?_, ?_, ?_⟩
  · intro z hz
    have w := k.exist z hz
    by_cases e : z = r
    · subst e
      refine ⟨w.self, fun b hb => ?_, by rw [self]; exact w.rest⟩
      rw [self] at hb
      rcases hd b hb with q | rfl
      · exact w.data b q
      · exact (k.exist r' (List.mem_of_getElem? hy)).data b ha
    · exact ⟨w.self, by rw [other z e]; exact w.data, by rw [other z e]; exact w.rest⟩
  · intro z r1 hz nz
    simp only [List.mem_cons, not_or] at nz
    have ne : r1 ≠ r := fun e => nz.1 (inj (e ▸ hz) hx)
    rw [other r1 ne]
    exact k.doubled z r1 hz nz.2
  · intro z hz
    rcases List.mem_cons.1 hz with rfl | hz
    · simp
    · simp [k.sub z hz]
  · intro z r1 z' r2 hz hz' ne nz
    simp only [List.mem_cons, not_or] at nz
    have ne1 : r1 ≠ r := fun e => nz.1 (inj (e ▸ hz) hx)
    rw [other r1 ne1]
    by_cases e : r2 = r
    · subst e
      rw [self]
      obtain ⟨a1, a2⟩ := k.apart z r1 z' r2 hz hz' ne nz.2.2
      refine ⟨fun b hb => ?_, a2⟩
      rcases hd b hb with q | rfl
      · exact a1 b q
      · exact (k.apart z r1 y r' hz hy nz.2.1 nz.2.2).1 b ha
    · rw [other r2 e]
      exact k.apart z r1 z' r2 hz hz' ne nz.2.2

/-- the list of references of one container was replaced -/
theorem values_withData {h : Mem α} {rs : List Nat} {m : Marks} (k : Marked h rs m) {x r : Nat} (hx : rs[x]? = some r)
    (data : List Nat) :
    values C (withData h r data) rs = (values C h rs).set x (Passing.build (data.map h.item) (h.lines (h.obj r).rest)) := by
  apply List.ext_getElem?
  intro y
  rw [values_get, List.getElem?_set, values_get]
  have hl : x < rs.length := (List.getElem?_eq_some_iff.1 hx).1
  by_cases e : x = y
  · subst e
    simp [values, hl, (List.getElem?_eq_some_iff.1 hx).2, contents, withData, upd]
  · rw [if_neg e]
    cases hy : rs[y]? with
    | none => rfl
    | some r' =>
      have ne : r' ≠ r := by
        rintro rfl
        have a := List.getElem?_eq_some_iff.1 hx
        have b := List.getElem?_eq_some_iff.1 hy
        exact e ((List.getElem_inj k.distinct).1 (a.2.trans b.2.symm))
      simp [contents, withData, upd, ne]

/-- a copy or a slice: some of the references of `r`, the rest shared or new -/
theorem marked_copy {h h' : Mem α} {rs : List Nat} {m : Marks} (k : Marked h rs m) {x r r' : Nat} (hx : rs[x]? = some r)
    (hr : r' = h.next) (next : h'.next = h.next + 1) (same : ∀ z, z < h.next → h'.obj z = h.obj z)
    (hd : ∀ a ∈ (h'.obj r').data, a ∈ (h.obj r).data) (hn : (h.obj r).data.Nodup → (h'.obj r').data.Nodup)
    (hrest : (h'.obj r').rest = (h.obj r).rest ∨ (h'.obj r').rest = h.next) :
    Marked h' (rs ++ [r']) ⟨m.count + 1, x :: m.count :: m.shared,
      if x ∈ m.doubled then m.count :: m.doubled else m.doubled⟩ := by
  have w := k.exist r (List.mem_of_getElem? hx)
  refine marked_snoc k (by omega) ⟨by omega, fun a ha => ?_, ?_⟩ (by omega) same ?_ ?_ ?_ ?_ ?_
  · have := w.data a (hd a ha)
    omega
  · have := w.rest
    omega
  · intro z hz
    simp [hz]
  · intro z hz
    split
    · simp [hz]
    · exact hz
  · intro z hz
    split at hz
    · rcases List.mem_cons.1 hz with rfl | hz
      · simp
      · simp [k.sub z hz]
    · simp [k.sub z hz]
  · intro nz
    split at nz
    · simp [k.count] at nz
    · next q => exact hn (k.doubled x r hx q)
  · intro z r1 hz nz
    simp only [List.mem_cons, not_or, k.count, or_true, true_or, not_true, or_false] at nz
    obtain ⟨a1, a2⟩ := k.apart z r1 x r hz hx nz.1 nz.2.2
    refine ⟨fun a ha hb => a1 a (hd a hb) ha, fun e => ?_⟩
    rcases hrest with q | q
    · exact a2 (q.symm.trans e.symm)
    · have := (k.exist r1 (List.mem_of_getElem? hz)).rest
      omega

theorem perform_ok (S : Sound C) {h : Mem α} {rs : List Nat} {m : Marks} (k : Marked h rs m) (c : Statement C α) :
    Marked (perform (h, rs) c).1.1 (perform (h, rs) c).1.2 (m.after c) ∧
    ((∀ x e, c = .edit x e → InPlace C e → x ∉ m.shared) →
      values C (perform (h, rs) c).1.1 (perform (h, rs) c).1.2 = (calculate (values C h rs) c).1 ∧
      (perform (h, rs) c).2 = (calculate (values C h rs) c).2) := by
  have lt : ∀ {x r : Nat}, rs[x]? = some r → x < m.count := fun hx => by
    rw [k.count]; exact (List.getElem?_eq_some_iff.1 hx).1
  have ge : ∀ {x : Nat}, rs[x]? = none → ¬ x < m.count := fun hx => by
    rw [k.count]; simpa using hx
  cases c with
  | parse c =>
    simp only [perform, calculate]
    refine ⟨?_, fun _ => ⟨?_, trivial⟩⟩
    · refine marked_snoc k (by simp [parsed, newObj]) ⟨?_, ?_, ?_⟩ ?_ ?_ (fun _ h => h) (fun _ h => h) k.sub ?_ ?_
      · simp [parsed, newObj]
      · intro a ha
        simp [parsed, newObj, upd] at ha
        obtain ⟨b, hb, rfl⟩ := ha
        simp [parsed, newObj]
        omega
      · simp [parsed, newObj, upd]
      · simp [parsed, newObj]
        omega
      · intro x hx
        have : x ≠ h.next + (Listed.data c).length := by omega
        simp [parsed, newObj, upd, this]
      · intro _
        simp [parsed, newObj, upd]
        rw [List.Nodup, List.pairwise_map]
        exact List.nodup_range.imp (fun n e => n (by omega))
      · intro x r hx _
        have w := k.exist r (List.mem_of_getElem? hx)
        refine ⟨fun a ha hb => ?_, ?_⟩
        · have := w.data a ha
          simp [parsed, newObj, upd] at hb
          omega
        · have := w.rest
          simp [parsed, newObj, upd]
          omega
    · rw [values_snoc k]
      · congr 2
        simp only [contents, parsed, newObj, upd, if_true]
        rw [List.map_map]
        conv => rhs; rw [← S.build c]
        congr 1
        apply List.ext_getElem?
        intro i
        rw [List.getElem?_map]
        by_cases hi : i < (Listed.data c).length
        · rw [List.getElem?_range hi]
          simp [hi]
        · rw [List.getElem?_eq_none (by simpa using hi), List.getElem?_eq_none (by simpa using hi)]
          rfl
      · intro x hx
        have : x ≠ h.next + (Listed.data c).length := by omega
        simp [parsed, newObj, upd, this]
      · intro x hx
        simp [parsed, newObj]
        omega
      · intro x hx
        have : x ≠ h.next + (Listed.data c).length := by omega
        simp [parsed, newObj, upd, this]
  | deepcopy x =>
    simp only [perform, calculate, values_get]
    cases hx : rs[x]? with
    | none => simp [Marks.after, ge hx, k]
    | some r =>
      have w := k.exist r (List.mem_of_getElem? hx)
      have o : (deepcopyOf h r).1.obj (h.next + r) = ⟨(h.obj r).data.map (h.next + ·), h.next + (h.obj r).rest⟩ := by
        simp [deepcopyOf]
      have old : ∀ {β : Type} (f g : Nat → β) (z : Nat), z < h.next → (if h.next ≤ z then f z else g z) = g z := by
        intro β f g z hz
        rw [if_neg (by omega)]
      simp only [Option.map_some]
      refine ⟨?_, fun _ => ⟨?_, trivial⟩⟩
      · simp only [Marks.after, lt hx, if_true]
        refine marked_snoc k (r := h.next + r) (by omega) ⟨?_, ?_, ?_⟩ ?_ ?_ ?_ ?_ ?_ ?_ ?_
        · have := w.self
          simp [deepcopyOf]
          omega
        · intro a ha
          rw [o] at ha
          obtain ⟨b, hb, rfl⟩ := List.mem_map.1 ha
          have := w.data b hb
          simp [deepcopyOf]
          omega
        · rw [o]
          have := w.rest
          simp [deepcopyOf]
          omega
        · simp [deepcopyOf]
        · intro z hz
          simp [deepcopyOf]
          omega
        · intro z hz
          split
          · simp [hz]
          · exact hz
        · intro z hz
          split
          · simp [hz]
          · exact hz
        · intro z hz
          split at hz
          · next q =>
            rw [if_pos q]
            rcases List.mem_cons.1 hz with rfl | hz
            · simp
            · simp [k.sub z hz]
          · next q => rw [if_neg q]; exact k.sub z hz
        · intro nz
          split at nz
          · simp [k.count] at nz
          · next q =>
            rw [o, List.Nodup, List.pairwise_map]
            exact (k.doubled x r hx q).imp (fun n e => n (by omega))
        · intro z r1 hz _
          have w1 := k.exist r1 (List.mem_of_getElem? hz)
          rw [o]
          refine ⟨fun a ha hb => ?_, ?_⟩
          · have := w1.data a ha
            obtain ⟨b, _, rfl⟩ := List.mem_map.1 hb
            omega
          · have := w1.rest
            simp only
            omega
      · rw [values_snoc k]
        · congr 2
          have e : (deepcopyOf h r).2 = h.next + r := rfl
          rw [e]
          simp only [contents, o]
          congr 1
          · rw [List.map_map]
            refine List.map_congr_left fun a _ => ?_
            simp [deepcopyOf]
          · simp [deepcopyOf]
        · intro z hz
          simp [deepcopyOf]
          omega
        · intro z hz
          simp [deepcopyOf]
          omega
        · intro z hz
          simp [deepcopyOf]
          omega
  | copy x =>
    simp only [perform, calculate, values_get]
    cases hx : rs[x]? with
    | none => simp [Marks.after, ge hx, k]
    | some r =>
      have o : (copyOf h r).1.obj h.next = h.obj r := by simp [copyOf, upd]
      have same : ∀ z, z < h.next → (copyOf h r).1.obj z = h.obj z := fun z hz => by
        have : z ≠ h.next := by omega
        simp [copyOf, upd, this]
      simp only [Option.map_some]
      refine ⟨?_, fun _ => ⟨?_, trivial⟩⟩
      · simp only [Marks.after, lt hx, if_true]
        exact marked_copy k hx rfl rfl same (fun a ha => by rw [← o]; exact ha) (fun n => by
          show ((copyOf h r).1.obj h.next).data.Nodup
          rw [o]; exact n) (.inl (by
          show ((copyOf h r).1.obj h.next).rest = _
          rw [o]))
      · rw [values_snoc k same (fun _ _ => rfl) (fun _ _ => rfl)]
        congr 2
        have e : (copyOf h r).2 = h.next := rfl
        simp only [Slices.copy, data_read S]
        rw [e]
        simp only [contents, o, S.withData]
        rfl
  | slice x start stop step =>
    simp only [perform, calculate, values_get]
    cases hx : rs[x]? with
    | none => simp [Marks.after, ge hx, k]
    | some r =>
      simp only [Option.map_some, sliceOf, getSlice, data_read S, List.length_map]
      cases hs : sliceIndices (h.obj r).data.length start stop step with
      | error e =>
        have z : step.getD 1 = 0 := by
          by_cases q : step.getD 1 = 0
          · exact q
          · obtain ⟨ks, e', _⟩ := sliceIndices_denotes (h.obj r).data.length start stop step q
            rw [hs] at e'
            cases e'
        simp [Marks.after, z, k]
      | ok ks =>
        have z : step.getD 1 ≠ 0 := fun q => by
          rw [sliceIndices_zero q] at hs
          cases hs
        have o : (newObj h (pick (h.obj r).data ks) (h.lines (h.obj r).rest)).1.obj h.next =
            ⟨pick (h.obj r).data ks, h.next⟩ := by simp [newObj, upd]
        have same : ∀ z, z < h.next →
            (newObj h (pick (h.obj r).data ks) (h.lines (h.obj r).rest)).1.obj z = h.obj z := fun z hz => by
          have : z ≠ h.next := by omega
          simp [newObj, upd, this]
        refine ⟨?_, fun _ => ⟨?_, rfl⟩⟩
        · simp only [Marks.after, lt hx, z, ne_eq, not_false_eq_true, and_self, if_true]
          refine marked_copy k hx rfl rfl same (fun a ha => ?_) (fun n => ?_) (.inr ?_)
          · rw [show (newObj h (pick (h.obj r).data ks) (h.lines (h.obj r).rest)).2 = h.next from rfl, o] at ha
            exact pick_mem ha
          · rw [show (newObj h (pick (h.obj r).data ks) (h.lines (h.obj r).rest)).2 = h.next from rfl, o]
            exact pick_nodup n (sliceIndices_range hs).1
          · rw [show (newObj h (pick (h.obj r).data ks) (h.lines (h.obj r).rest)).2 = h.next from rfl, o]
        · simp only
          rw [values_snoc k same (fun _ _ => rfl) (fun z hz => by
            have : z ≠ h.next := by omega
            simp [newObj, upd, this])]
          congr 2
          rw [show (newObj h (pick (h.obj r).data ks) (h.lines (h.obj r).rest)).2 = h.next from rfl]
          conv => rhs; rw [contents, S.sliced, pick_map]
          simp [contents, newObj, upd]
  | edit x e =>
    simp only [perform, calculate, values_get]
    cases hx : rs[x]? with
    | none => simp [Marks.after, k]
    | some r =>
      have w := k.exist r (List.mem_of_getElem? hx)
      have f := frame_edit (C := C) h r e w
      refine ⟨marked_edit k hx f, fun careful => ?_⟩
      have ed := edit_self S h r w e (fun p => k.doubled x r hx (fun q => careful x e rfl p (k.sub x q)))
      refine ⟨?_, ed.2⟩
      simp only [Option.map_some]
      rw [values_edit k hx f (careful x e rfl), ed.1]
  | put x i y j =>
    simp only [perform, calculate, values_get, Marks.after]
    have weak : Marked h rs ⟨m.count, x :: y :: m.shared, x :: m.doubled⟩ :=
      ⟨k.count, k.distinct, k.exist, fun z r hz nz => k.doubled z r hz (fun q => nz (by simp [q])),
        fun z hz => by
          rcases List.mem_cons.1 hz with rfl | hz
          · simp
          · simp [k.sub z hz],
        fun z r z' r' h1 h2 ne nz => k.apart z r z' r' h1 h2 ne (fun q => nz (by simp [q]))⟩
    cases hx : rs[x]? with
    | none => exact ⟨weak, fun _ => ⟨rfl, rfl⟩⟩
    | some r =>
      cases hy : rs[y]? with
      | none => exact ⟨weak, fun _ => ⟨rfl, rfl⟩⟩
      | some r' =>
        simp only [Option.map_some, putItem, data_read S, List.length_map, List.getElem?_map]
        cases hj : pyIndex (h.obj r').data.length j with
        | none => exact ⟨weak, fun _ => ⟨rfl, rfl⟩⟩
        | some p =>
          simp only
          cases ha : (h.obj r').data[p]? with
          | none => exact ⟨weak, fun _ => ⟨rfl, rfl⟩⟩
          | some a =>
            simp only [Option.map_some]
            refine ⟨marked_put k hx hy (List.mem_of_getElem? ha) ?_, fun _ => ⟨?_, trivial⟩⟩
            · intro b hb
              rcases List.mem_append.1 hb with q | q
              · exact .inl (List.mem_of_mem_take q)
              · rcases List.mem_cons.1 q with q | q
                · exact .inr q
                · exact .inl (List.mem_of_mem_drop q)
            · rw [values_withData k hx]
              congr 1
              simp only [ListMethods.insert, data_read S, List.length_map]
              rw [contents, S.withData, List.map_append, List.map_cons, List.map_take, List.map_drop]

theorem performAll_marked (S : Sound C) : ∀ (l : List (Statement C α)) {h : Mem α} {rs : List Nat} {m : Marks},
    Marked h rs m → Marked (performAll (h, rs) l).1.1 (performAll (h, rs) l).1.2 (l.foldl Marks.after m)
  | [], _, _, _, k => k
  | c :: l, _, _, _, k => performAll_marked S l (perform_ok S k c).1

theorem performAll_ok (S : Sound C) : ∀ (l : List (Statement C α)) {h : Mem α} {rs : List Nat} {m : Marks},
    Marked h rs m → Careful m l →
    values C (performAll (h, rs) l).1.1 (performAll (h, rs) l).1.2 = (calculateAll (values C h rs) l).1 ∧
    (performAll (h, rs) l).2 = (calculateAll (values C h rs) l).2
  | [], _, _, _, _, _ => ⟨rfl, rfl⟩
  | c :: l, h, rs, m, k, q => by
    have step : (∀ x e, c = .edit x e → InPlace C e → x ∉ m.shared) ∧ Careful (m.after c) l := by
      cases c with
      | edit x e => exact ⟨fun x' e' h => by cases h; exact q.1, q.2⟩
      | _ => exact ⟨fun _ _ h => (by cases h), q⟩
    obtain ⟨k', ok⟩ := perform_ok S k c
    obtain ⟨o1, o2⟩ := ok step.1
    have ih := performAll_ok S l k' step.2
    simp only [performAll, calculateAll]
    rw [← o1, ← o2]
    exact ⟨ih.1, by rw [ih.2]⟩

theorem marked_nothing (h : Mem α) : Marked h [] ⟨0, [], []⟩ :=
  ⟨rfl, .nil, fun _ h => (List.not_mem_nil h).elim, fun _ _ h => by simp at h, fun _ h => h, fun _ _ _ _ h => by simp at h⟩

end Specfile.SharingProof
