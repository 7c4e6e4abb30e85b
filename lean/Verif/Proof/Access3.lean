import Verif.Proof.Access2
/-
Lists of several accessors that are open at the same time.
-/
namespace Specfile.Access
open Py Spec

variable {C : Codec}

/-- the lists in the sections of this kind -/
inductive ReadIn (C : Codec) (g : C.Group) : List C.Sec → List C.L → Prop
  | done : ReadIn C g [] []
  | other {s ss ls} (hs : C.isList g s = false) (h : ReadIn C g ss ls) : ReadIn C g (s :: ss) ls
  | list {s ss l ls} (hs : C.isList g s = true) (hl : C.parseList s = .ok l) (h : ReadIn C g ss ls) :
    ReadIn C g (s :: ss) (l :: ls)

/-- the lists are written to the sections of this kind -/
inductive WrittenTo (C : Codec) (g : C.Group) : List C.Sec → List C.L → List C.Sec → Prop
  | done : WrittenTo C g [] [] []
  | other {s ss ls ss'} (hs : C.isList g s = false) (h : WrittenTo C g ss ls ss') : WrittenTo C g (s :: ss) ls (s :: ss')
  | list {s ss l ls ss'} (hs : C.isList g s = true) (h : WrittenTo C g ss ls ss') :
    WrittenTo C g (s :: ss) (l :: ls) (C.storeList l s :: ss')

/-- `ids` are the numbers of the sections of this kind, if the first one has the number `k` -/
inductive NumbersOf (C : Codec) (g : C.Group) : Nat → List C.Sec → List Nat → Prop
  | done {k} : NumbersOf C g k [] []
  | other {k s ss ids} (hs : C.isList g s = false) (h : NumbersOf C g (k + 1) ss ids) : NumbersOf C g k (s :: ss) ids
  | list {k s ss ids} (hs : C.isList g s = true) (h : NumbersOf C g (k + 1) ss ids) : NumbersOf C g k (s :: ss) (k :: ids)

theorem numbersOf_written {g g' : C.Group} (hst : ∀ l s, C.isList g (C.storeList l s) = C.isList g s) {ss ss' : List C.Sec}
    {ls : List C.L} (h : WrittenTo C g' ss ls ss') : ∀ {k ids}, NumbersOf C g k ss ids → NumbersOf C g k ss' ids := by
  induction h with
  | done => intro k ids h; exact h
  | other _ _ ih =>
    intro k ids h
    cases h with
    | other hs h => exact .other hs (ih h)
    | list hs h => exact .list hs (ih h)
  | list _ _ ih =>
    intro k ids h
    cases h with
    | other hs h => exact .other ((hst _ _).trans hs) (ih h)
    | list hs h => exact .list ((hst _ _).trans hs) (ih h)

theorem numbersOf_le {g : C.Group} {ss : List C.Sec} {k : Nat} {ids : List Nat} (h : NumbersOf C g k ss ids) :
    (∀ i ∈ ids, k ≤ i) ∧ ids.Nodup := by
  induction h with
  | done => simp
  | other _ _ ih => exact ⟨fun i hi => Nat.le_of_succ_le (ih.1 i hi), ih.2⟩
  | @list k s ss ids _ _ ih =>
    refine ⟨?_, ?_⟩
    · intro i hi
      rcases List.mem_cons.1 hi with rfl | hi
      · exact Nat.le_refl _
      · exact Nat.le_of_succ_le (ih.1 i hi)
    · refine List.nodup_cons.2 ⟨?_, ih.2⟩
      intro hk
      exact absurd (ih.1 k hk) (by omega)

theorem numbersOf_disjoint {g g' : C.Group} (hne : ∀ s, C.isList g s = true → C.isList g' s = false) {ss : List C.Sec}
    {k : Nat} {ids ids' : List Nat} (h : NumbersOf C g k ss ids) (h' : NumbersOf C g' k ss ids') : ∀ i ∈ ids, i ∉ ids' := by
  induction h generalizing ids' with
  | done => simp
  | @other k s ss ids hs h ih =>
    intro i hi
    cases h' with
    | other _ h' => exact ih h' i hi
    | list _ h' =>
      intro hm
      rcases List.mem_cons.1 hm with rfl | hm
      · exact absurd ((numbersOf_le h).1 _ hi) (by omega)
      · exact ih h' i hi hm
  | @list k s ss ids hs h ih =>
    intro i hi
    cases h' with
    | list hs' _ => rw [hne _ hs] at hs'; cases hs'
    | other _ h' =>
      rcases List.mem_cons.1 hi with rfl | hi
      · intro hm
        exact absurd ((numbersOf_le h').1 _ hm) (by omega)
      · exact ih h' i hi

theorem lists_of {g : C.Group} {ss : List C.Sec} {ls : List C.L} (h : ReadIn C g ss ls) : ∀ k, ∃ ids,
    NumbersOf C g k ss ids ∧ ids.length = ls.length ∧ lists g (number k ss) = .ok (ids.zip ls) := by
  simp only [← lists_eq]
  induction h with
  | done => intro k; exact ⟨[], .done, rfl, rfl⟩
  | @other s ss ls hs _ ih =>
    intro k
    obtain ⟨ids, h1, h2, h3⟩ := ih (k + 1)
    refine ⟨ids, .other hs h1, h2, ?_⟩
    rw [number, listsOf, if_neg (by simp [hs]), h3]
  | @list s ss l ls hs hl _ ih =>
    intro k
    obtain ⟨ids, h1, h2, h3⟩ := ih (k + 1)
    refine ⟨k :: ids, .list hs h1, by simp [h2], ?_⟩
    rw [number, listsOf, if_pos (by simp [hs])]
    simp only [hl, h3]
    rfl

theorem put_map_lt {α : Type} {f : α → α} {k : Nat} {pre : List (Nat × α)} (h : ∀ p ∈ pre, p.1 < k) {i : Nat} (hi : k ≤ i) :
    pre.map (fun p => (p.1, if p.1 = i then f p.2 else p.2)) = pre := by
  have : ∀ p ∈ pre, (fun p : Nat × α => (p.1, if p.1 = i then f p.2 else p.2)) p = p := by
    intro p hp
    have := h p hp
    simp only
    rw [if_neg (by omega)]
  rw [List.map_congr_left this, List.map_id']

theorem put_map_gt {α : Type} {f : α → α} {k i : Nat} {ss : List α} (hi : i < k) :
    (number k ss).map (fun p => (p.1, if p.1 = i then f p.2 else p.2)) = number k ss := by
  have : ∀ p ∈ number k ss, (fun p : Nat × α => (p.1, if p.1 = i then f p.2 else p.2)) p = p := by
    intro p hp
    have := number_fst k ss p hp
    simp only
    rw [if_neg (by omega)]
  rw [List.map_congr_left this, List.map_id']

theorem written_of {g : C.Group} {k : Nat} {ss : List C.Sec} {ids : List Nat} (h : NumbersOf C g k ss ids) :
    ∀ {ls : List C.L}, ls.length = ids.length → ∃ ss', WrittenTo C g ss ls ss' ∧
      ∀ pre : List (Nat × C.Sec), (∀ p ∈ pre, p.1 < k) →
        putLists (ids.zip ls) (pre ++ number k ss) = pre ++ number k ss' := by
  induction h with
  | done =>
    intro ls hl
    cases ls with
    | nil => exact ⟨[], .done, fun _ _ => rfl⟩
    | cons => cases hl
  | @other k s ss ids hs h ih =>
    intro ls hl
    obtain ⟨ss', h1, h2⟩ := ih hl
    refine ⟨s :: ss', .other hs h1, fun pre hp => ?_⟩
    have := h2 (pre ++ [(k, s)]) (by
      intro p hp'
      rcases List.mem_append.1 hp' with hp' | hp'
      · exact Nat.lt_succ_of_lt (hp p hp')
      · simp at hp'; subst hp'; exact Nat.lt_succ_self _)
    simpa [number] using this
  | @list k s ss ids hs h ih =>
    intro ls hl
    cases ls with
    | nil => cases hl
    | cons l ls =>
      obtain ⟨ss', h1, h2⟩ := ih (by simpa using hl)
      refine ⟨C.storeList l s :: ss', .list hs h1, fun pre hp => ?_⟩
      have := h2 (pre ++ [(k, C.storeList l s)]) (by
        intro p hp'
        rcases List.mem_append.1 hp' with hp' | hp'
        · exact Nat.lt_succ_of_lt (hp p hp')
        · simp at hp'; subst hp'; exact Nat.lt_succ_self _)
      rw [List.zip_cons_cons, putLists, number, List.map_append, List.map_cons,
        put_map_lt hp (Nat.le_refl k), put_map_gt (Nat.lt_succ_self k)]
      simpa [number] using this

theorem replace_zip {ids : List Nat} {ls new : List C.L} (h : ls.length = ids.length) (h' : new.length = ids.length) :
    replace (ids.zip ls) new = ids.zip new := by
  rw [← refill_eq]
  induction ids generalizing ls new with
  | nil => cases new <;> rfl
  | cons i ids ih =>
    cases ls with
    | nil => cases h
    | cons l ls =>
      cases new with
      | nil => cases h'
      | cons n new =>
        rw [List.zip_cons_cons, refill, ih (by simpa using h) (by simpa using h'), List.zip_cons_cons]

theorem zip_fst {α : Type} {ids : List Nat} {ls : List α} (h : ids.length = ls.length) : (ids.zip ls).map (·.1) = ids :=
  List.map_fst_zip (by omega)

theorem zip_snd {α : Type} {ids : List Nat} {ls : List α} (h : ids.length = ls.length) : (ids.zip ls).map (·.2) = ls :=
  List.map_snd_zip (by omega)

variable [DecidableEq C.Child] [DecidableEq C.Group]

/-- sources and patches are edited together -/
theorem effect_both {g g' : C.Group} (hg : g ≠ g') {pre : C.Sec} {rest : List C.Sec} {x : C.X} {ls ls' : List C.L}
    {lines : List Str} {u v : C.X → List C.L → C.X × List C.L}
    (hp : C.parseSections lines = .ok (pre :: rest)) (ht : C.preambleAt (number 0 (pre :: rest)) = .ok (some 0))
    (hx : C.parse C.preamble pre = .ok x) (hl : ReadIn C g rest ls) (hl' : ReadIn C g' rest ls')
    (hd : ∀ s, C.isList g' s = true → C.isList g s = false)
    (hst : ∀ l s, C.isList g (C.storeList l s) = C.isList g s)
    (hn : C.isList g pre = false) (hn' : C.isList g' pre = false)
    (hu : (u x ls).2.length = ls.length) (hv : (v (u x ls).1 ls').2.length = ls'.length) :
    ∃ rest1 rest2, WrittenTo C g' rest (v (u x ls).1 ls').2 rest1 ∧ WrittenTo C g rest1 (u x ls).2 rest2 ∧
      effect (.withGroup g (.withGroup g' (.seq (.editGroup g u) (.editGroup g' v)))) (.lines false lines) =
        some (.lines false (C.rawSections (C.store C.preamble (v (u x ls).1 ls').1 pre :: rest2)), none) := by
  obtain ⟨ids, i1, i2, i3⟩ := lists_of (hl.other hn) 0
  obtain ⟨ids', j1, j2, j3⟩ := lists_of (hl'.other hn') 0
  have hu' : (u x ls).2.length = ids.length := hu.trans i2.symm
  have hv' : (v (u x ls).1 ls').2.length = ids'.length := hv.trans j2.symm
  obtain ⟨ss1, k1, k2⟩ := written_of j1 hv'
  obtain ⟨ss2, m1, m2⟩ := written_of (numbersOf_written hst k1 i1) hu'
  have k2 := k2 [] (by simp)
  have m2 := m2 [] (by simp)
  simp only [List.nil_append] at k2 m2
  generalize hvl : (v (u x ls).1 ls').2 = vl at *
  generalize hul : (u x ls).2 = ul at *
  cases k1 with
  | list hs _ => rw [hn'] at hs; cases hs
  | @other _ _ _ rest1 _ k1 =>
  cases m1 with
  | list hs _ => rw [hn] at hs; cases hs
  | @other _ _ _ rest2 _ m1 =>
  refine ⟨rest1, rest2, k1, m1, ?_⟩
  have h0 : ∀ i ∈ ids, 0 ≠ i := by
    intro i hi h
    cases i1 with
    | list hs _ => rw [hn] at hs; cases hs
    | other _ h1 => exact absurd ((numbersOf_le h1).1 i hi) (by omega)
  have h0' : ∀ i ∈ ids', 0 ≠ i := by
    intro i hi h
    cases j1 with
    | list hs _ => rw [hn'] at hs; cases hs
    | other _ h1 => exact absurd ((numbersOf_le h1).1 i hi) (by omega)
  have hfree : ((ids.zip ls).all (fun q => Unopened [(C.preamble, some (0, x))] [] q.1) &&
      decide ((ids.zip ls).map (·.1)).Nodup) = true := by
    rw [Bool.and_eq_true, zip_fst i2, decide_eq_true_eq, List.all_eq_true]
    refine ⟨fun q hq => ?_, (numbersOf_le i1).2⟩
    have := h0 _ (List.of_mem_zip hq).1
    simp [Unopened, this]
  have hfree' : ((ids'.zip ls').all (fun q => Unopened [(C.preamble, some (0, x))] [(g, ids.zip ls)] q.1) &&
      decide ((ids'.zip ls').map (·.1)).Nodup) = true := by
    rw [Bool.and_eq_true, zip_fst j2, decide_eq_true_eq, List.all_eq_true]
    refine ⟨fun q hq => ?_, (numbersOf_le j1).2⟩
    have hq := (List.of_mem_zip hq).1
    have h1 := h0' _ hq
    have h2 := numbersOf_disjoint hd j1 i1 _ hq
    rw [Unopened, Bool.and_eq_true]
    refine ⟨by simp [h1], ?_⟩
    simp only [List.all_cons, List.all_nil, Bool.and_true, List.all_eq_true]
    intro r hr
    have hr := (List.of_mem_zip hr).1
    simp only [bne_iff_ne, ne_eq]
    intro he
    rw [he] at hr
    exact h2 hr
  have ho : object C.preamble C.preambleAt (number 0 (pre :: rest)) = .ok (some (0, x)) := by
    rw [object, ht]
    simp [number, hx]
  have hr : InRange C.preambleAt (number 0 (pre :: rest)) = true := by
    rw [InRange, ht]
    simp [number]
  have hins : effect (.seq (.editGroup g u) (.editGroup g' v))
      (.sections (number 0 (pre :: rest)) [(C.preamble, some (0, x))] [(g', ids'.zip ls'), (g, ids.zip ls)]) =
      some (.sections (number 0 (pre :: rest)) [(C.preamble, some (0, (v (u x ls).1 ls').1))]
        [(g', ids'.zip vl), (g, ids.zip ul)], none) := by
    have e1 : effect (.editGroup g u)
        (.sections (number 0 (pre :: rest)) [(C.preamble, some (0, x))] [(g', ids'.zip ls'), (g, ids.zip ls)]) =
        some (.sections (number 0 (pre :: rest)) [(C.preamble, some (0, (u x ls).1))]
          [(g', ids'.zip ls'), (g, ids.zip ul)], none) := by
      simp [effect, outer, updateGroup, objectIn, listsIn, update, updateLists, Ne.symm hg, zip_snd i2, hul,
        replace_zip i2.symm hu']
    rw [effect, e1]
    simp [effect, outer, updateGroup, objectIn, listsIn, update, updateLists, zip_snd j2, hvl,
      replace_zip j2.symm hv']
  rw [effect, sectionBlock, hp]
  simp only
  rw [sourcesBlock, if_neg (by simp), childBlock, ho]
  simp only [Free, hr]
  rw [if_pos (by simp [Unopened]), groupBlock, i3]
  simp only
  rw [if_pos hfree, inner, effect, if_neg (by simpa using hg), outer, sourcesBlock, if_pos (by simp), groupBlock, j3]
  simp only
  rw [if_pos hfree', inner, hins]
  simp only [k2, m2]
  simp only [put, number, List.map_cons, if_true, Option.some.injEq, Prod.mk.injEq, Focus.lines.injEq, true_and, and_true]
  rw [put_map_gt (by omega), number_snd]

end Specfile.Access
