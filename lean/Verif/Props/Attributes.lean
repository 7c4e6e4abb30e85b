import Verif.Proof.Attributes
import Verif.Props.Prep
/-
Properties of the elements of containers as attributes (C93).
-/
namespace Specfile.Props
open Py Spec Attributes

/-- no attribute of the object itself has the name -/
private theorem own_none {K : Kind} {o : Obj K} {n : Str} (h : ∀ p ∈ o.own, p.1 ≠ n) : ownAttr o n = none := by
  unfold ownAttr
  rw [List.find?_eq_none.2 (by simpa using h)]
  rfl

/-- C93: reading gives the element that has the name: the first valid one, or the first one if none is valid. It raises
`AttributeError` exactly if no element has the name. The name is not that of a method, and was not given to the object
while no element had it, see the violations below. -/
theorem C93_read_partial [Uni] {K : Kind} {N : Naming K} (h : NamedKind K N) (method : Str → Bool) (o : Obj K)
    (hf : ∀ e ∈ o.data, N.fit e) (n : Str) (hn : N.fitName n) (hm : method n = false) (ho : ∀ p ∈ o.own, p.1 ≠ n) :
    (∀ k, getattr method o n = .ok (.element k) ↔ Best (N.called n) N.valid o.data k) ∧
    (getattr method o n = .error .attributeError ↔ ∀ e ∈ o.data, ¬ N.called n e) ∧
    (getattr method o n = .error .attributeError ∨ ∃ k, getattr method o n = .ok (.element k)) := by
  obtain ⟨l1, l2, l3⟩ := laws h o.data hf n hn
  unfold getattr
  rw [own_none ho]
  simp only [hm, Bool.false_eq_true, if_false]
  cases hc : K.contains o.data n with
  | false =>
    have hno : ∀ e ∈ o.data, ¬ N.called n e := by
      intro e he hce
      have := l1.2 ⟨e, he, hce⟩
      rw [hc] at this
      cases this
    simp only [Bool.not_false, if_true]
    refine ⟨fun k => ?_, by simpa using hno, .inl trivial⟩
    simp only [reduceCtorEq, false_iff]
    rintro ⟨d, hd, hp, _⟩
    exact hno d (List.mem_of_getElem? hd) hp
  | true =>
    simp only [Bool.not_true, Bool.false_eq_true, if_false]
    cases hfd : K.find o.data n with
    | ok k0 =>
      have hb := (l2 k0).1 hfd
      simp only [Except.ok.injEq, Found.element.injEq, reduceCtorEq, false_iff, false_or, exists_eq', and_true]
      refine ⟨fun k => ⟨fun e => e ▸ hb, fun hb' => best_unique hb hb'⟩, fun hall => ?_⟩
      obtain ⟨d, hd, hp, _⟩ := hb
      exact hall d (List.mem_of_getElem? hd) hp
    | error e =>
      exact absurd (l1.1 hc) (by
        rintro ⟨x, hx, hcx⟩
        exact l3.1 ⟨e, hfd⟩ x hx hcx)

/-- C93: assigning to an element that is there changes that element and no other, whatever attributes the object has
itself, and reading gives the changed element. Names denote the elements they denoted. -/
theorem C93_set_partial [Uni] {K : Kind} {N : Naming K} (h : NamedKind K N) (method : Str → Bool) (o : Obj K)
    (hf : ∀ e ∈ o.data, N.fit e) (n : Str) (hn : N.fitName n) (p : K.P) (hc : ∃ e ∈ o.data, N.called n e) :
    ∃ k e o', Best (N.called n) N.valid o.data k ∧ o.data[k]? = some e ∧
      setattr o n (.part p) = .ok o' ∧ o'.own = o.own ∧ o'.data.length = o.data.length ∧
      o'.data[k]? = some (K.part e p) ∧ (∀ j, j ≠ k → o'.data[j]? = o.data[j]?) ∧
      (∀ m, N.fitName m → getattr method o' m = getattr method o m) := by
  obtain ⟨l1, l2, l3⟩ := laws h o.data hf n hn
  have hct := l1.2 hc
  cases hfd : K.find o.data n with
  | error e =>
    obtain ⟨x, hx, hcx⟩ := hc
    exact absurd hcx (l3.1 ⟨e, hfd⟩ x hx)
  | ok k =>
    have hb := (l2 k).1 hfd
    obtain ⟨e, he, _⟩ := id hb
    refine ⟨k, e, { o with data := o.data.modify k (fun e => K.part e p) }, hb, he, ?_, rfl, by simp, ?_, ?_, ?_⟩
    · simp [setattr, hct, hfd]
    · simp [he]
    · intro j hj
      rw [List.getElem?_modify]
      simp [Ne.symm hj]
    · intro m hmn
      obtain ⟨a1, a2, a3⟩ := laws h o.data hf m hmn
      have hf' : ∀ e ∈ o.data.modify k (fun e => K.part e p), N.fit e := by
        intro x hx
        obtain ⟨j, hj⟩ := List.getElem?_of_mem hx
        rw [List.getElem?_modify] at hj
        cases hd : o.data[j]? with
        | none => simp [hd] at hj
        | some y =>
          rw [hd] at hj
          simp only [Option.map_eq_map, Option.map_some, Option.some.injEq] at hj
          have := hf y (List.mem_of_getElem? hd)
          subst hj
          split
          · exact (part_laws h y p m).2.2.2 this
          · exact this
      obtain ⟨b1, b2, b3⟩ := laws h _ hf' m hmn
      have hbest : ∀ i, Best (N.called m) N.valid (o.data.modify k (fun e => K.part e p)) i ↔ Best (N.called m) N.valid o.data i :=
        fun i => best_modify o.data k i _ (fun x _ => ⟨(part_laws h x p m).1, (part_laws h x p m).2.1⟩)
      have hex : ∀ l : List K.E, (∀ e ∈ l, N.fit e) → ((∃ e ∈ l, N.called m e) ↔ ∃ i, Best (N.called m) N.valid l i) := by
        intro l hl
        obtain ⟨c1, c2, c3⟩ := laws h l hl m hmn
        constructor
        · rintro ⟨x, hx, hcx⟩
          cases hq : K.find l m with
          | ok i => exact ⟨i, (c2 i).1 hq⟩
          | error e => exact absurd hcx (c3.1 ⟨e, hq⟩ x hx)
        · rintro ⟨i, d, hd, hp, _⟩
          exact ⟨d, List.mem_of_getElem? hd, hp⟩
      have hcont : K.contains (o.data.modify k (fun e => K.part e p)) m = K.contains o.data m := by
        rw [Bool.eq_iff_iff, a1, b1, hex _ hf', hex _ hf]
        exact ⟨fun ⟨i, hi⟩ => ⟨i, (hbest i).1 hi⟩, fun ⟨i, hi⟩ => ⟨i, (hbest i).2 hi⟩⟩
      unfold getattr
      simp only [ownAttr, hcont]
      cases (o.own.find? (fun p => p.1 == m)).map (·.2) with
      | some v => rfl
      | none =>
        simp only
        cases method m with
        | true => rfl
        | false =>
          simp only [Bool.false_eq_true, if_false]
          cases hcm : K.contains o.data m with
          | false => rfl
          | true =>
            simp only [Bool.not_true, Bool.false_eq_true, if_false]
            obtain ⟨i, hi⟩ := (hex _ hf).1 (a1.1 hcm)
            rw [(a2 i).2 hi, (b2 i).2 ((hbest i).2 hi)]

/-- C93: assigning an element puts it in the place of the one that had the name; if it has that name too and is as valid,
it is what is read afterwards. -/
theorem C93_set_element_partial [Uni] {K : Kind} {N : Naming K} (h : NamedKind K N) (o : Obj K)
    (hf : ∀ e ∈ o.data, N.fit e) (n : Str) (hn : N.fitName n) (new : K.E) (hc : ∃ e ∈ o.data, N.called n e) :
    ∃ k e o', Best (N.called n) N.valid o.data k ∧ o.data[k]? = some e ∧
      setattr o n (.element new) = .ok o' ∧ o'.own = o.own ∧ o'.data = o.data.set k new ∧
      (N.called n new → (N.valid new ↔ N.valid e) → Best (N.called n) N.valid o'.data k) := by
  obtain ⟨l1, l2, l3⟩ := laws h o.data hf n hn
  cases hfd : K.find o.data n with
  | error e =>
    obtain ⟨x, hx, hcx⟩ := hc
    exact absurd hcx (l3.1 ⟨e, hfd⟩ x hx)
  | ok k =>
    have hb := (l2 k).1 hfd
    obtain ⟨e, he, hce, _⟩ := id hb
    refine ⟨k, e, { o with data := o.data.set k new }, hb, he, by simp [setattr, l1.2 hc, hfd], rfl, rfl, fun hcn hv => ?_⟩
    have hset : o.data.set k new = o.data.modify k (fun _ => new) := by
      apply List.ext_getElem?
      intro j
      rw [List.getElem?_modify, List.getElem?_set]
      by_cases hj : k = j
      · subst hj
        obtain ⟨hlt, _⟩ := List.getElem?_eq_some_iff.1 he
        simp [hlt]
      · simp [hj]
    show Best _ _ (o.data.set k new) k
    rw [hset, best_modify]
    · exact hb
    · intro x hx
      rw [he] at hx
      cases hx
      exact ⟨⟨fun _ => hce, fun _ => hcn⟩, hv⟩

/-- C93: deleting removes the element that would be read, keeps all others in their order, and never raises if there is
one. -/
theorem C93_delete [Uni] {K : Kind} {N : Naming K} (h : NamedKind K N) (method : Str → Bool) (o : Obj K)
    (hf : ∀ e ∈ o.data, N.fit e) (n : Str) (hn : N.fitName n) (hc : ∃ e ∈ o.data, N.called n e) :
    ∃ k a e b, Best (N.called n) N.valid o.data k ∧ a.length = k ∧ o.data = a ++ e :: b ∧
      delattr method o n = .ok ⟨a ++ b, o.own⟩ := by
  obtain ⟨l1, l2, l3⟩ := laws h o.data hf n hn
  cases hfd : K.find o.data n with
  | error e =>
    obtain ⟨x, hx, hcx⟩ := hc
    exact absurd hcx (l3.1 ⟨e, hfd⟩ x hx)
  | ok k =>
    have hb := (l2 k).1 hfd
    obtain ⟨e, he, _⟩ := id hb
    obtain ⟨hlt, hek⟩ := List.getElem?_eq_some_iff.1 he
    refine ⟨k, o.data.take k, e, o.data.drop (k + 1), hb, by simp; omega, ?_, ?_⟩
    · rw [← hek, List.getElem_cons_drop, List.take_append_drop]
    · simp [delattr, l1.2 hc, hfd, List.eraseIdx_eq_take_drop_succ]

/-- C93: deleting raises `AttributeError` if neither an element nor an attribute has the name. -/
theorem C93_delete_raises [Uni] {K : Kind} {N : Naming K} (h : NamedKind K N) (method : Str → Bool) (o : Obj K)
    (hf : ∀ e ∈ o.data, N.fit e) (n : Str) (hn : N.fitName n) (hm : method n = false) (ho : ∀ p ∈ o.own, p.1 ≠ n)
    (hc : ∀ e ∈ o.data, ¬ N.called n e) : delattr method o n = .error .attributeError := by
  obtain ⟨l1, _, _⟩ := laws h o.data hf n hn
  have : K.contains o.data n = false := by
    cases hct : K.contains o.data n with
    | false => rfl
    | true =>
      obtain ⟨x, hx, hcx⟩ := l1.1 hct
      exact absurd hcx (hc x hx)
  simp [delattr, this, own_none ho, hm]

/-- C93: whatever a program does to a container by attributes and by the list below, as long as it only assigns to elements
that are there, the object gets no attributes of its own, and every name that is not a method reads the element that has
it. -/
theorem C93_program_partial [Uni] {K : Kind} {N : Naming K} (h : NamedKind K N) (method : Str → Bool) (l : List (Act K))
    (data : List K.E) (hf : ∀ e ∈ data, N.fit e) (hs : SetsElements N method ⟨data, []⟩ l) :
    (runActs method ⟨data, []⟩ l).own = [] ∧ (∀ e ∈ (runActs method ⟨data, []⟩ l).data, N.fit e) ∧
    (∀ n, N.fitName n → method n = false → ∀ k, getattr method (runActs method ⟨data, []⟩ l) n = .ok (.element k) ↔
      Best (N.called n) N.valid (runActs method ⟨data, []⟩ l).data k) := by
  have key : (runActs method ⟨data, []⟩ l).own = [] ∧ (∀ e ∈ (runActs method ⟨data, []⟩ l).data, N.fit e) := by
    induction l generalizing data with
    | nil => exact ⟨rfl, hf⟩
    | cons a l ih =>
      obtain ⟨hfa, hna, hsl⟩ := hs
      have hstep : (act method (⟨data, []⟩ : Obj K) a).own = [] ∧ ∀ e ∈ (act method (⟨data, []⟩ : Obj K) a).data, N.fit e := by
        cases a with
        | insert i e =>
          refine ⟨rfl, fun x hx => ?_⟩
          simp only [act] at hx
          by_cases hi : i ≤ data.length
          · rcases (List.mem_insertIdx hi).1 hx with rfl | hx
            · exact hfa
            · exact hf x hx
          · rw [List.insertIdx_of_length_lt (by omega)] at hx
            exact hf x hx
        | erase i => exact ⟨rfl, fun x hx => hf x (List.mem_of_mem_eraseIdx hx)⟩
        | del n =>
          simp only [act]
          unfold delattr
          by_cases hct : K.contains data n = true
          · simp only [hct, Bool.not_true, Bool.false_eq_true, if_false]
            cases K.find data n with
            | error e => exact ⟨rfl, hf⟩
            | ok k => exact ⟨rfl, fun x hx => hf x (List.mem_of_mem_eraseIdx hx)⟩
          · simp only [Bool.not_eq_true] at hct
            simp only [hct, Bool.not_false, if_true, ownAttr, List.find?_nil, Option.map_none, Option.isSome_none,
              Bool.false_eq_true, if_false, Bool.false_or]
            cases K.deletes <;> cases method n <;> exact ⟨rfl, hf⟩
        | set n v =>
          have hn : N.fitName n := by cases v with
            | element e => exact hfa.1
            | part p => exact hfa
          obtain ⟨l1, l2, l3⟩ := laws h data hf n hn
          have hct : K.contains data n = true := by
            cases hct : K.contains data n with
            | true => rfl
            | false =>
              refine absurd (fun e he hce => ?_) hna
              have := l1.2 ⟨e, he, hce⟩
              rw [hct] at this
              cases this
          simp only [act]
          unfold setattr
          simp only [hct, Bool.not_true, Bool.false_eq_true, if_false]
          cases hfd : K.find data n with
          | error e => exact ⟨rfl, hf⟩
          | ok k =>
            cases v with
            | element e =>
              refine ⟨rfl, fun x hx => ?_⟩
              rcases List.mem_or_eq_of_mem_set hx with hx | rfl
              · exact hf x hx
              · exact hfa.2
            | part p =>
              refine ⟨rfl, fun x hx => ?_⟩
              obtain ⟨j, hj⟩ := List.getElem?_of_mem hx
              simp only [List.getElem?_modify] at hj
              cases hd : data[j]? with
              | none => simp [hd] at hj
              | some y =>
                rw [hd] at hj
                simp only [Option.map_eq_map, Option.map_some, Option.some.injEq] at hj
                have := hf y (List.mem_of_getElem? hd)
                subst hj
                split
                · exact (part_laws h y p n).2.2.2 this
                · exact this
      have heta : act method (⟨data, []⟩ : Obj K) a = ⟨(act method (⟨data, []⟩ : Obj K) a).data, []⟩ := by
        have := hstep.1
        cases hx : act method (⟨data, []⟩ : Obj K) a with
        | mk d w =>
          rw [hx] at this
          cases this
          rfl
      rw [heta] at hsl
      have := ih _ hstep.2 hsl
      rw [← heta] at this
      exact this
  refine ⟨key.1, key.2, fun n hn hm k => ?_⟩
  exact (C93_read_partial h method _ key.2 n hn hm (by rw [key.1]; simp)).1 k

/-! ### what goes wrong -/

/-- C93 fails if no element has the name: assigning raises nothing and changes none of the elements, although the value can
be read back. -/
theorem C93_absent_violation [Uni] {K : Kind} {N : Naming K} (h : NamedKind K N) (method : Str → Bool) (o : Obj K)
    (hf : ∀ e ∈ o.data, N.fit e) (n : Str) (hn : N.fitName n) (v : Value K) (hc : ∀ e ∈ o.data, ¬ N.called n e) :
    ∃ o', setattr o n v = .ok o' ∧ o'.data = o.data ∧ getattr method o' n = .ok (.own v) := by
  obtain ⟨l1, _, _⟩ := laws h o.data hf n hn
  have : K.contains o.data n = false := by
    cases hct : K.contains o.data n with
    | false => rfl
    | true =>
      obtain ⟨x, hx, hcx⟩ := l1.1 hct
      exact absurd hcx (hc x hx)
  refine ⟨{ o with own := (n, v) :: o.own.filter (fun p => p.1 != n) }, by simp [setattr, this], rfl, ?_⟩
  simp [getattr, ownAttr]

/-- C93 fails for a name that was assigned before an element had it: once there is an element, assigning changes the
element, and reading still gives the first value. -/
theorem C93_stale_violation [Uni] {K : Kind} {N : Naming K} (h : NamedKind K N) (method : Str → Bool) (o : Obj K)
    (hf : ∀ e ∈ o.data, N.fit e) (n : Str) (hn : N.fitName n) (v : Value K) (p : K.P) (hc : ∀ e ∈ o.data, ¬ N.called n e)
    (new : K.E) (hnew : N.called n new) (hfn : N.fit new) :
    ∃ o1 o2, setattr o n v = .ok o1 ∧ setattr ⟨o1.data ++ [new], o1.own⟩ n (.part p) = .ok o2 ∧
      o2.data = o.data ++ [K.part new p] ∧ getattr method o2 n = .ok (.own v) := by
  obtain ⟨o1, h1, h2, h3⟩ := C93_absent_violation h method o hf n hn v hc
  refine ⟨o1, ⟨o.data ++ [K.part new p], o1.own⟩, h1, ?_, rfl, ?_⟩
  · have hf' : ∀ e ∈ o.data ++ [new], N.fit e := by
      intro e he
      rcases List.mem_append.1 he with he | he
      · exact hf e he
      · simp only [List.mem_singleton] at he
        exact he ▸ hfn
    obtain ⟨l1, l2, l3⟩ := laws h (o.data ++ [new]) hf' n hn
    have hb : Best (N.called n) N.valid (o.data ++ [new]) o.data.length := by
      have hlast : (o.data ++ [new])[o.data.length]? = some new := by simp
      have hbefore : ∀ j x, j < o.data.length → (o.data ++ [new])[j]? = some x → ¬ N.called n x := by
        intro j x hj hx
        rw [List.getElem?_append_left hj] at hx
        exact hc x (List.mem_of_getElem? hx)
      by_cases hv : N.valid new
      · exact ⟨new, hlast, hnew, .inl ⟨hv, fun j x hj hx hcx => absurd hcx (hbefore j x hj hx)⟩⟩
      · refine ⟨new, hlast, hnew, .inr ⟨fun x hx hcx hvx => ?_, hbefore⟩⟩
        rcases List.mem_append.1 hx with hx | hx
        · exact hc x hx hcx
        · simp only [List.mem_singleton] at hx
          exact hv (hx ▸ hvx)
    have hct := l1.2 ⟨new, by simp, hnew⟩
    have hfd := (l2 _).2 hb
    rw [h2]
    simp only [setattr, hct, hfd, Bool.not_true, Bool.false_eq_true, if_false]
    congr 2
    apply List.ext_getElem?
    intro j
    rw [List.getElem?_modify]
    rcases Nat.lt_trichotomy j o.data.length with hj | hj | hj
    · rw [List.getElem?_append_left hj, List.getElem?_append_left hj]
      simp [Nat.ne_of_gt hj]
    · simp [hj]
    · rw [List.getElem?_eq_none (by simp; omega), List.getElem?_eq_none (by simp; omega)]
      rfl
  · have : ownAttr o1 n = some v := by
      unfold setattr at h1
      split at h1
      · cases h1
        simp [ownAttr]
      · rename_i hct
        obtain ⟨l1, _, _⟩ := laws h o.data hf n hn
        obtain ⟨x, hx, hcx⟩ := l1.1 (by simpa using hct)
        exact absurd hcx (hc x hx)
    simp only [getattr]
    rw [show ownAttr (⟨o.data ++ [K.part new p], o1.own⟩ : Obj K) n = ownAttr o1 n from rfl, this]

/-- C93 fails for the names of methods: they are never read as elements, also if an element has the name, and also after
assigning to it. -/
theorem C93_method_violation {K : Kind} (method : Str → Bool) (o : Obj K) (n : Str) (hm : method n = true)
    (ho : ∀ p ∈ o.own, p.1 ≠ n) (hct : K.contains o.data n = true) :
    getattr method o n = .ok .method ∧
    ∀ v o', setattr o n v = .ok o' → getattr method o' n = .ok .method := by
  refine ⟨by simp [getattr, own_none ho, hm], fun v o' h => ?_⟩
  unfold setattr at h
  simp only [hct, Bool.not_true, Bool.false_eq_true, if_false] at h
  have : o'.own = o.own := by
    split at h
    · cases h
    · split at h <;> cases h <;> rfl
  unfold getattr
  rw [own_none (by rw [this]; exact ho)]
  simp [hm]

/-- C93 fails for deleting attributes of macro definitions: an attribute that no definition has the name of is only looked
up; it stays, and nothing is raised. -/
theorem C93_delete_violation (method : Str → Bool) (o : Obj definitions) (n : Str)
    (hc : ∀ d ∈ o.data, ¬ DefinitionCalled n d) (h : (∃ p ∈ o.own, p.1 = n) ∨ method n = true) :
    delattr method o n = .ok o := by
  have hct : definitions.contains o.data n = false := by
    cases hct : definitions.contains o.data n with
    | false => rfl
    | true =>
      obtain ⟨x, hx, hcx⟩ := (definitions_find o.data n).1.1 hct
      exact absurd hcx (hc x hx)
  have hown : ((ownAttr o n).isSome || method n) = true := by
    rcases h with ⟨p, hp, rfl⟩ | h
    · simp only [ownAttr, Option.isSome_map, List.find?_isSome, Bool.or_eq_true]
      exact .inl ⟨p, hp, by simp⟩
    · simp [h]
  unfold delattr
  simp only [hct, Bool.not_false, if_true, hown]
  rfl

/-! ### prep macros -/

/-- C93: a macro in %prep is read as an attribute, unless an attribute of that name was assigned. -/
theorem C93_prep_read_partial (o : PrepObj) (n : Str) (hv : Prep.validName n = true) (ho : ∀ p ∈ o.own, p.1 ≠ n) (m : PrepMacro) :
    prepGet o n = .ok (.inr m) ↔ ∃ a b, o.prep.data = a ++ m :: b ∧ m.name = '%' :: n ∧ ∀ x ∈ a, x.name ≠ '%' :: n := by
  unfold prepGet
  rw [List.find?_eq_none.2 (by simpa using ho)]
  simp only [hv, Bool.not_true, Bool.false_eq_true, if_false, Prep.getAttr, Prep.find]
  cases hi : o.prep.data.findIdx? (fun m => m.name == '%' :: n) with
  | none =>
    rw [List.findIdx?_eq_none_iff] at hi
    simp only [reduceCtorEq, false_iff]
    rintro ⟨a, b, e, hn, _⟩
    have := hi m (by rw [e]; simp)
    simp [hn] at this
  | some i =>
    obtain ⟨hlt, hp, hmin⟩ := List.findIdx?_eq_some_iff_getElem.1 hi
    simp only [List.getElem?_eq_getElem hlt]
    constructor
    · intro h
      cases h
      refine ⟨o.prep.data.take i, o.prep.data.drop (i + 1), by simp, by simpa using hp, fun x hx => ?_⟩
      obtain ⟨j, hj⟩ := List.getElem?_of_mem hx
      rw [List.getElem?_take] at hj
      split at hj
      · rename_i hji
        have := hmin j hji
        obtain ⟨hl, rfl⟩ := List.getElem?_eq_some_iff.1 hj
        simpa using this
      · cases hj
    · rintro ⟨a, b, e, hn, ha⟩
      have hia : i = a.length := by
        rcases Nat.lt_trichotomy i a.length with h | h | h
        · have : o.prep.data[i] = a[i] := by simp [e, h]
          rw [this] at hp
          exact absurd (by simpa using hp) (ha _ (List.getElem_mem h))
        · exact h
        · have := hmin a.length h
          simp [e, hn] at this
      subst hia
      simp [e]

/-- C93: assigning to a macro in %prep removes none of them and changes no line. -/
theorem C93_prep_set_keeps (o : PrepObj) (n v : Str) : (prepSet o n v).prep = o.prep := rfl

/-- C93 fails for assigning to macros in %prep: it changes no macro and no line, whether there is such a macro or not, and
hides the macro; deleting by that name removes the macro and keeps the value. -/
theorem C93_prep_set_violation (o : PrepObj) (n v : Str) :
    (prepSet o n v).prep = o.prep ∧ prepGet (prepSet o n v) n = .ok (.inl v) ∧
    (Prep.validName n = true → prepGet (prepDel (prepSet o n v) n).1 n = .ok (.inl v)) := by
  refine ⟨rfl, by simp [prepGet, prepSet], fun hv => ?_⟩
  simp [prepGet, prepDel, prepSet, hv]

/-! ### the construction of macro definitions -/

/-- C93: unless a definition is called `_remainder`, macro definitions are constructed with all their lines, and these can be
written and the lines they take are known. -/
theorem C93_construction_partial (data : List MacroDefinition) (r : List Str) (h : ∀ d ∈ data, d.name ≠ s% "_remainder") :
    init data r = ⟨data, some r, none⟩ ∧ rawLines (init data r) = .ok (MacroDefinitions.raw ⟨data, r⟩) ∧
    excludedLines (init data r) = .ok (MacroDefinitions.excluded ⟨data, r⟩) := by
  have hi : init data r = ⟨data, some r, none⟩ := by
    have : definitions.contains data (s% "_remainder") = false := by
      cases hct : definitions.contains data (s% "_remainder") with
      | false => rfl
      | true =>
        obtain ⟨x, hx, hcx⟩ := (definitions_find data _).1.1 hct
        exact absurd hcx (h x hx)
    simp [init, this]
  have hl : ∀ i, rawLoop none i data = .ok ((data.map (·.raw)).flatten) := by
    clear hi h
    induction data with
    | nil => intro i; rfl
    | cons x xs ih => intro i; simp [rawLoop, ih]
  refine ⟨hi, by simp [hi, rawLines, hl, MacroDefinitions.raw], ?_⟩
  rw [hi]
  cases data <;> simp [excludedLines, MacroDefinitions.excluded]

private theorem rawLoop_fails (k : Nat) (i : Nat) (data : List MacroDefinition) (h1 : i ≤ k) (h2 : k < i + data.length) :
    rawLoop (some k) i data = .error .typeError := by
  induction data generalizing i with
  | nil => simp at h2; omega
  | cons x xs ih =>
    unfold rawLoop
    by_cases hk : k = i
    · simp [hk]
    · rw [if_neg (by simpa using hk), ih (i + 1) (by omega) (by simp at h2; omega)]

private theorem find_called {data : List MacroDefinition} {n : Str} (h : ∃ d ∈ data, d.name = n) :
    definitions.contains data n = true ∧ ∃ k, definitions.find data n = .ok k ∧ k < data.length := by
  obtain ⟨l1, l2, l3⟩ := definitions_find data n
  refine ⟨l1.2 h, ?_⟩
  cases hf : definitions.find data n with
  | error e =>
    obtain ⟨d, hd, hn⟩ := h
    exact absurd hn (l3.1 ⟨e, hf⟩ d hd)
  | ok k =>
    obtain ⟨d, hd, _⟩ := (l2 k).1 hf
    exact ⟨k, rfl, (List.getElem?_eq_some_iff.1 hd).1⟩

/-- C93 fails for a definition that is called `_remainder`: its body is overwritten by the constructor, and neither can the
definitions be written nor is it known what lines they take. -/
theorem C93_construction_violation (data : List MacroDefinition) (r : List Str) (h : ∃ d ∈ data, d.name = s% "_remainder") :
    rawLines (init data r) = .error .typeError ∧ excludedLines (init data r) = .error .attributeError := by
  obtain ⟨hc, k, hk, hlt⟩ := find_called h
  have hi : init data r = ⟨data, none, some k⟩ := by simp [init, hc, hk]
  rw [hi]
  refine ⟨by simp [rawLines, rawLoop_fails k 0 data (Nat.zero_le _) (by omega)], ?_⟩
  cases data with
  | nil => simp at hlt
  | cons x xs => rfl

/-- C93: reading sections and definitions is not touched by this unless a definition is called `_remainder`. -/
theorem C93_reading_partial [Uni] (ex : Conditions.Oracle) (lines : List Str)
    (h : ∀ d ∈ (MacroDefinitions.parseLines lines).data, d.name ≠ s% "_remainder") :
    parseSections ex lines = Sections.parse ex lines := by
  obtain ⟨_, _, h3⟩ := C93_construction_partial _ (MacroDefinitions.parseLines lines).remainder h
  unfold parseSections defsOf
  rw [h3]
  rfl

/-- C93 fails for every spec file with a definition that is called `_remainder`: neither its sections nor its definitions can
be read. -/
theorem C93_reading_violation [Uni] (ex : Conditions.Oracle) (lines : List Str)
    (h : ∃ d ∈ (MacroDefinitions.parseLines lines).data, d.name = s% "_remainder") :
    parseSections ex lines = .error .attributeError ∧ parseDefinitions ex lines = .error .attributeError := by
  obtain ⟨_, h2⟩ := C93_construction_violation _ (MacroDefinitions.parseLines lines).remainder h
  unfold parseSections parseDefinitions defsOf
  rw [h2]
  exact ⟨rfl, rfl⟩

/-- C93: definitions are added with `+=` unless one is called `data`. -/
theorem C93_extend_partial (data items : List MacroDefinition) (r : List Str) (h : ∀ d ∈ data ++ items, d.name ≠ s% "data") :
    rawLines (iadd ⟨data, some r, none⟩ items) = .ok (MacroDefinitions.raw ⟨data ++ items, r⟩) := by
  have : definitions.contains (data ++ items) (s% "data") = false := by
    cases hct : definitions.contains (data ++ items) (s% "data") with
    | false => rfl
    | true =>
      obtain ⟨x, hx, hcx⟩ := (definitions_find _ _).1.1 hct
      exact absurd hcx (h x hx)
  have hl : ∀ (l : List MacroDefinition) i, rawLoop none i l = .ok ((l.map (·.raw)).flatten) := by
    intro l
    induction l with
    | nil => intro i; rfl
    | cons x xs ih => intro i; simp [rawLoop, ih]
  simp [iadd, this, rawLines, hl, MacroDefinitions.raw]

/-- C93 fails for `+=` if a definition is called `data`: its body is overwritten, and the definitions can not be written any
more. -/
theorem C93_extend_violation (data items : List MacroDefinition) (r : List Str) (h : ∃ d ∈ data ++ items, d.name = s% "data") :
    rawLines (iadd ⟨data, some r, none⟩ items) = .error .typeError := by
  obtain ⟨hc, k, hk, hlt⟩ := find_called h
  simp only [iadd, hc, hk, Bool.not_true, Bool.false_eq_true, if_false]
  unfold rawLines
  simp only [rawLoop_fails k 0 (data ++ items) (Nat.zero_le _) (by omega)]

section
attribute [local instance] asciiUni

private def exTags : Obj tags := ⟨[⟨s% "Name", s% "x", s% ": ", ⟨[], []⟩, true, [], []⟩, ⟨s% "URL", s% "u", s% ": ", ⟨[], []⟩, false, [], []⟩,
  ⟨s% "Url", s% "v", s% ": ", ⟨[], []⟩, true, [], []⟩], []⟩

/-- the hypotheses of the theorems are met: two tags `URL`, of which the second is valid -/
example : (∀ e ∈ exTags.data, tagNaming.fit e) ∧ tagNaming.fitName (s% "url") ∧
    Best (tagNaming.called (s% "url")) tagNaming.valid exTags.data 2 ∧
    (∀ e ∈ exTags.data, ¬ tagNaming.called (s% "epoch") e) := by
  refine ⟨?_, ⟨by decide, by decide +kernel⟩, ?_, ?_⟩
  · show ∀ e ∈ exTags.data, (_ ≠ [] ∧ _ = true)
    decide +kernel
  · refine (laws (K := tags) .tags exTags.data ?_ (s% "url") ⟨by decide, by decide +kernel⟩).2.1 2 |>.1 (by decide +kernel)
    show ∀ e ∈ exTags.data, (_ ≠ [] ∧ _ = true)
    decide +kernel
  · show ∀ e ∈ exTags.data, ¬ (Uni.capitalize _ = _)
    decide +kernel

example : ∃ o, setattr exTags (s% "url") (.part (s% "w")) = .ok o ∧ o.data.map (fun t : Tag => t.value) = [s% "x", s% "u", s% "w"] :=
  ⟨_, rfl, by decide +kernel⟩

/-- a spec file with such a definition -/
example : parseSections (fun _ s => .ok s) [s% "Name: x", s% "%global _remainder 1", s% "%prep"] = .error .attributeError ∧
    (∃ ss, Sections.parse (fun _ s => .ok s) [s% "Name: x", s% "%global _remainder 1", s% "%prep"] = .ok ss) :=
  ⟨(C93_reading_violation _ _ (by decide +kernel)).1, _, rfl⟩

end

end Specfile.Props
