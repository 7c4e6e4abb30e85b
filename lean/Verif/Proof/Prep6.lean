import Verif.Proof.Prep5
/-
Deleting several macros; the number and the place of a new macro.
-/
namespace Specfile

namespace Prep
open Py Regex Spec
open Options (Opts Val)

/-! ### deleting slices -/

theorem without_append (js : List Nat) (k : Nat) (a b : List PrepMacro) :
    prepLinesWithout js k (a ++ b) = prepLinesWithout js k a ++ prepLinesWithout js (k + a.length) b := by
  induction a generalizing k with
  | nil => simp [prepLinesWithout]
  | cons m a ih =>
    simp only [List.cons_append, prepLinesWithout, ih, List.length_cons, List.append_assoc]
    rw [show k + 1 + a.length = k + (a.length + 1) by omega]

theorem without_congr {js js' : List Nat} {k : Nat} {ms : List PrepMacro}
    (h : ∀ i, k ≤ i → i < k + ms.length → (i ∈ js ↔ i ∈ js')) :
    prepLinesWithout js k ms = prepLinesWithout js' k ms := by
  induction ms generalizing k with
  | nil => rfl
  | cons m ms ih =>
    simp only [prepLinesWithout]
    rw [ih (fun i h1 h2 => h i (by omega) (by simp only [List.length_cons]; omega))]
    have := h k (Nat.le_refl _) (by simp only [List.length_cons]; omega)
    by_cases hj : k ∈ js
    · rw [if_pos hj, if_pos (this.mp hj)]
    · rw [if_neg hj, if_neg (fun h' => hj (this.mpr h'))]

theorem without_none {k : Nat} {ms : List PrepMacro} : prepLinesWithout [] k ms = raw ⟨ms, []⟩ := by
  induction ms generalizing k with
  | nil => rfl
  | cons m ms ih => simp [prepLinesWithout, ih, raw_cons]

theorem zip_without {js : List Nat} {k : Nat} (ms : List PrepMacro) :
    (ms.zipIdx k).filterMap (fun x => if x.2 ∈ js then none else some (withoutLines x.1)) =
      ((ms.zipIdx k).filterMap (fun x => if x.2 ∈ js then none else some x.1)).map withoutLines := by
  rw [List.map_filterMap]
  congr 1
  funext x
  split <;> rfl

theorem macros_append (js : List Nat) (a b : List PrepMacro) :
    macrosWithout js (a ++ b) = macrosWithout js a ++
      (b.zipIdx a.length).filterMap (fun x => if x.2 ∈ js then none else some x.1) := by
  unfold macrosWithout
  rw [List.zipIdx_append, List.filterMap_append]
  simp

theorem zip_keep {js : List Nat} {ms : List PrepMacro} {k : Nat} (h : ∀ j ∈ js, j < k) :
    (ms.zipIdx k).filterMap (fun x => if x.2 ∈ js then none else some x.1) = ms := by
  induction ms generalizing k with
  | nil => rfl
  | cons m ms ih =>
    rw [List.zipIdx_cons, List.filterMap_cons]
    have : k ∉ js := fun hk => by have := h k hk; omega
    simp only [this, if_false]
    rw [ih (fun j hj => by have := h j hj; omega)]

theorem zip_congr {js js' : List Nat} {ms : List PrepMacro} {k : Nat}
    (h : ∀ i, k ≤ i → i < k + ms.length → (i ∈ js ↔ i ∈ js')) :
    (ms.zipIdx k).filterMap (fun x => if x.2 ∈ js then none else some x.1) =
      (ms.zipIdx k).filterMap (fun x => if x.2 ∈ js' then none else some x.1) := by
  induction ms generalizing k with
  | nil => rfl
  | cons m ms ih =>
    rw [List.zipIdx_cons, List.filterMap_cons, List.filterMap_cons]
    rw [ih (fun i h1 h2 => h i (by omega) (by simp only [List.length_cons]; omega))]
    have := h k (Nat.le_refl _) (by simp only [List.length_cons]; omega)
    by_cases hj : k ∈ js
    · simp only [hj, this.mp hj, if_true]
    · have hj' : k ∉ js' := fun h' => hj (this.mpr h')
      simp only [hj, hj', if_false]

theorem bare_without {js : List Nat} {a b : List PrepMacro} (h : a.map withoutLines = b.map withoutLines) :
    (macrosWithout js a).map withoutLines = (macrosWithout js b).map withoutLines := by
  unfold macrosWithout
  rw [← zip_without, ← zip_without]
  have e : ∀ l : List PrepMacro, ∀ k, (l.zipIdx k).filterMap (fun x => if x.2 ∈ js then none else some (withoutLines x.1)) =
      ((l.map withoutLines).zipIdx k).filterMap (fun x => if x.2 ∈ js then none else some x.1) := by
    intro l
    induction l with
    | nil => intro k; rfl
    | cons m l ih =>
      intro k
      rw [List.map_cons, List.zipIdx_cons, List.zipIdx_cons, List.filterMap_cons, List.filterMap_cons, ih (k + 1)]
  rw [e, e, h]

theorem delAll_spec (l : List Nat) : ∀ {p : Prep}, l.Pairwise (· > ·) → (∀ k ∈ l, k < p.data.length) →
    ∃ p', delAll p l = (p', none) ∧ raw p' = prepLinesWithout l 0 p.data ++ p.remainder ∧
      p'.data.map withoutLines = (macrosWithout l p.data).map withoutLines := by
  induction l with
  | nil =>
    intro p _ _
    refine ⟨p, rfl, ?_, ?_⟩
    · rw [without_none, ← raw_above]
    · congr 1; exact (zip_keep (by simp)).symm
  | cons k l ih =>
    intro p hp hb
    rw [List.pairwise_cons] at hp
    have hk := hb k (by simp)
    obtain ⟨m, hm⟩ : ∃ m, p.data[k]? = some m := ⟨_, List.getElem?_eq_getElem hk⟩
    have hd := delItem_nat hm
    have hs := split_at hm
    have hlen : (p.data.take k).length = k := by rw [List.length_take]; omega
    generalize hq : putAll m.preceding ⟨p.data.drop (k + 1), p.remainder⟩ = q at hd
    have hqraw : raw q = m.preceding ++ raw ⟨p.data.drop (k + 1), p.remainder⟩ := by rw [← hq, raw_putAll]
    have hqbare : q.data.map withoutLines = (p.data.drop (k + 1)).map withoutLines := by rw [← hq, putAll_bare]
    obtain ⟨p', h1, h2, h3⟩ := ih (p := ⟨p.data.take k ++ q.data, q.remainder⟩) hp.2 (by
      intro j hj
      have := hp.1 j hj
      simp only [List.length_append, hlen]; omega)
    refine ⟨p', ?_, ?_, ?_⟩
    · simp only [delAll]
      rw [hd]
      exact h1
    · rw [h2]
      conv => rhs; rw [hs]
      rw [without_append, without_append, hlen, Nat.zero_add]
      simp only [prepLinesWithout, List.mem_cons, true_or, if_true, List.append_nil]
      rw [without_congr (js := l) (js' := k :: l) (k := 0) (ms := p.data.take k) (by
        intro i _ hi
        rw [hlen] at hi
        simp only [List.mem_cons]
        constructor
        · exact .inr
        · rintro (rfl | h)
          · omega
          · exact h)]
      rw [without_congr (js := l) (js' := []) (k := k) (ms := q.data) (by
        intro i hi _
        simp only [List.not_mem_nil, iff_false]
        intro h
        have := hp.1 i h; omega)]
      rw [without_congr (js := k :: l) (js' := []) (k := k + 1) (ms := p.data.drop (k + 1)) (by
        intro i hi _
        simp only [List.not_mem_nil, iff_false, List.mem_cons]
        rintro (rfl | h)
        · omega
        · have := hp.1 i h; omega)]
      rw [without_none, without_none, List.append_assoc, ← raw_above, List.append_assoc]
      congr 1
      rw [List.append_assoc, ← raw_above]
      exact hqraw
    · rw [h3]
      rw [macros_append, zip_keep (by rw [hlen]; exact hp.1), List.map_append, hqbare]
      conv => rhs; rw [hs]
      rw [macros_append, hlen, List.zipIdx_cons, List.filterMap_cons]
      simp only [List.mem_cons, true_or, if_true]
      rw [List.map_append]
      congr 1
      · unfold macrosWithout
        have e := zip_congr (js := l) (js' := k :: l) (ms := p.data.take k) (k := 0) (by
          intro i _ hi
          rw [hlen] at hi
          simp only [List.mem_cons]
          constructor
          · exact .inr
          · rintro (rfl | h)
            · omega
            · exact h)
        rw [e]
      · have := zip_keep (js := k :: l) (ms := p.data.drop (k + 1)) (k := k + 1) (by
          intro j hj
          rcases List.mem_cons.mp hj with rfl | hj
          · omega
          · have := hp.1 j hj; omega)
        simp only [List.mem_cons] at this
        rw [this]

theorem macrosWithout_one {k : Nat} (ms : List PrepMacro) : macrosWithout [k] ms = ms.eraseIdx k := by
  have key : ∀ (ms : List PrepMacro) (o k : Nat), (ms.zipIdx o).filterMap
      (fun x => if x.2 ∈ [o + k] then none else some x.1) = ms.eraseIdx k := by
    intro ms
    induction ms with
    | nil => intros; rfl
    | cons m ms ih =>
      intro o k
      rw [List.zipIdx_cons, List.filterMap_cons]
      cases k with
      | zero =>
        simp only [Nat.add_zero, List.mem_singleton, if_true, List.eraseIdx_cons_zero]
        have := zip_keep (js := [o]) (ms := ms) (k := o + 1) (by simp)
        simpa using this
      | succ k =>
        have h2 : o ∉ [o + (k + 1)] := by simp
        have e := ih (o + 1) k
        rw [show o + 1 + k = o + (k + 1) by omega] at e
        simp only [h2, if_false, List.eraseIdx_cons_succ, e]
  have := key ms 0 k
  rw [Nat.zero_add] at this
  exact this

/-! ### the number of a new macro -/

theorem posWords_spaced (qs : List Piece) : posWords (spaced qs) = posWords qs := by
  induction qs with
  | nil => rfl
  | cons a qs ih =>
    cases qs with
    | nil => rfl
    | cons b qs =>
      have e : ∀ (x : Piece) l, posWords (x :: l) = posWords [x] ++ posWords l := by
        intro x l; rw [← Options.posWords_append]; rfl
      simp only [spaced]
      rw [e a, e a (b :: qs), e (.space _), ih]
      simp [posWords]

theorem given_spaced (c : Char) (qs : List Piece) : given c (spaced qs) = given c qs := by
  induction qs with
  | nil => rfl
  | cons a qs ih =>
    cases qs with
    | nil => rfl
    | cons b qs => simp only [spaced, given, Piece.given, Option.or_none] at ih ⊢; rw [ih]

theorem posWords_kw (kw : List (Char × Option Val)) : posWords (kw.flatMap kwPieces) = [] := by
  induction kw with
  | nil => rfl
  | cons x kw ih =>
    rw [List.flatMap_cons, Options.posWords_append, ih, List.append_nil]
    obtain ⟨c, v⟩ := x
    match v with
    | none => rfl
    | some (.bool false) => rfl
    | some (.bool true) => rfl
    | some (.int n) => rfl
    | some (.str s) => rfl

theorem given_kw {c : Char} {kw : List (Char × Option Val)} (h : c ∉ kw.map (·.1)) :
    given c (kw.flatMap kwPieces) = none := by
  induction kw with
  | nil => rfl
  | cons x kw ih =>
    obtain ⟨d, v⟩ := x
    rw [List.map_cons, List.mem_cons, not_or] at h
    rw [List.flatMap_cons, Options.given_append, ih h.2, Option.none_or]
    match v with
    | none => rfl
    | some (.bool false) => rfl
    | some (.bool true) => simp [kwPieces, given, Piece.given, Ne.symm h.1]
    | some (.int n) => simp [kwPieces, given, Piece.given, Ne.symm h.1]
    | some (.str s) => simp [kwPieces, given, Piece.given, Ne.symm h.1]

theorem notMem_patchName [Uni] {num : Option Int} {old : Bool} (hnum : ∀ n ∈ num, 0 ≤ n) :
    '\n' ∉ patchName num old := by
  unfold patchName
  split
  · rename_i n
    intro h
    rw [List.mem_append] at h
    rcases h with h | h
    · revert h; decide
    · rw [intStr_nonneg (hnum n rfl)] at h
      have := natStr_dec _ _ h
      rw [newline_not_decimal] at this
      simp at this
  · decide

theorem newPatch_number [Uni] {num : Option Int} {old : Bool} {kw : List (Char × Option Val)} {m : PrepMacro}
    (hnum : ∀ n ∈ num, 0 ≤ n) (hd : (kw.map (·.1)).Nodup) (hk : ∀ x ∈ kw, KwOK x)
    (h : newPatch num old kw = .ok m) (hP : 'P' ∉ kw.map (·.1) ∨ (old = true ∧ num ≠ none)) :
    number m = .ok (num.getD 0) := by
  obtain ⟨h1, _, _, _, _, h6, h7⟩ := newPatch_spec hnum hd hk h
  have hnl : '\n' ∉ m.name := by rw [h1]; exact notMem_patchName hnum
  by_cases ho : old = true ∧ num ≠ none
  · obtain ⟨ho, hn⟩ := ho
    obtain ⟨n, rfl⟩ := Option.ne_none_iff_exists'.mp hn
    subst ho
    exact number_named (hnum n rfl) notNumbered_patch (by decide) h1
  · have hP := hP.resolve_right ho
    have hN : NotNumbered m.name := by
      have : m.name = s% "%patch" := by
        rw [h1]
        unfold patchName
        split
        · exact absurd ⟨rfl, by simp⟩ ho
        · rfl
      rw [this]; exact notNumbered_patch
    have hg : given 'P' (spaced (numberPieces num old ++ (patchArgs kw).flatMap kwPieces)) = none := by
      rw [given_spaced, Options.given_append, given_kw, Option.none_or]
      · unfold numberPieces; split <;> rfl
      · intro hm
        obtain ⟨x, hx, e⟩ := List.mem_map.mp hm
        unfold patchArgs at hx
        exact hP (List.mem_map.mpr ⟨x, (List.mem_filter.mp hx).1, e⟩)
    rw [number_iff h6 hnl h7]
    have hw : posWords (spaced (numberPieces num old ++ (patchArgs kw).flatMap kwPieces)) =
        posWords (numberPieces num old) := by
      rw [posWords_spaced, Options.posWords_append, posWords_kw, List.append_nil]
    cases num with
    | none => exact .default hN h7 hg (by rw [hw]; rfl)
    | some n =>
      have : old = false := by
        cases old with
        | false => rfl
        | true => exact absurd ⟨rfl, by simp⟩ ho
      subst this
      exact .argument (v := intStr n) (vs := []) hN h7 hg (by rw [hw]; rfl) (parseInt_intStr (hnum n rfl))

/-! ### when a macro can be made -/

theorem requires_patch {c : Char} (hc : c ∈ prepFlags .patch ++ prepArgs .patch) :
    Options.requiresArg (optstring .patch) c = decide (c ∈ prepArgs .patch) := by
  simp only [prepFlags, prepArgs, List.mem_append, List.mem_cons, List.not_mem_nil, or_false] at hc
  rcases hc with (rfl | rfl | rfl) | rfl | rfl | rfl | rfl | rfl | rfl | rfl <;> decide

theorem set_typed {o : Opts} (ho : o.optstring = optstring .patch) {x : Char × Option Val}
    (hc : x.1 ∈ prepFlags .patch ++ prepArgs .patch) :
    (KwTyped x → ∃ o', Options.set o x.1 x.2 = .ok o' ∧ o'.optstring = optstring .patch) ∧
    (¬ KwTyped x → Options.set o x.1 x.2 = .error .optionsException) := by
  obtain ⟨c, v⟩ := x
  have hw : ∀ v, (Options.write o c v).optstring = optstring .patch := by
    intro v
    rw [← ho]
    unfold Options.write
    simp only
    repeat' split
    all_goals first | rfl | (unfold Options.del; repeat' split) <;> rfl
  have hex : c ∈ prepFlags .patch ↔ c ∉ prepArgs .patch := by
    simp only [prepFlags, prepArgs, List.mem_append, List.mem_cons, List.not_mem_nil, or_false] at hc ⊢
    rcases hc with (rfl | rfl | rfl) | rfl | rfl | rfl | rfl | rfl | rfl | rfl <;> decide
  have hr : Options.requiresArg o.optstring c = decide (c ∈ prepArgs .patch) := by
    rw [ho]; exact requires_patch hc
  unfold Options.set
  by_cases ha : c ∈ prepArgs .patch
  · rw [decide_eq_true ha] at hr
    have hf : c ∉ prepFlags .patch := fun h => hex.mp h ha
    match v with
    | none => exact ⟨fun _ => ⟨Options.write o c _, by simp [hr]; rfl, hw _⟩, fun h => absurd trivial h⟩
    | some (.bool b) => exact ⟨fun h => absurd ha h, fun _ => by simp [hr]⟩
    | some (.int n) => exact ⟨fun _ => ⟨Options.write o c _, by simp [hr]; rfl, hw _⟩, fun h => absurd hf h⟩
    | some (.str s) => exact ⟨fun _ => ⟨Options.write o c _, by simp [hr]; rfl, hw _⟩, fun h => absurd hf h⟩
  · rw [decide_eq_false ha] at hr
    have hf : c ∈ prepFlags .patch := hex.mpr ha
    match v with
    | none => exact ⟨fun _ => ⟨Options.write o c _, by simp [hr]; rfl, hw _⟩, fun h => absurd trivial h⟩
    | some (.bool b) => exact ⟨fun _ => ⟨Options.write o c _, by simp [hr]; rfl, hw _⟩, fun h => absurd ha h⟩
    | some (.int n) => exact ⟨fun h => absurd hf h, fun _ => by simp [hr]⟩
    | some (.str s) => exact ⟨fun h => absurd hf h, fun _ => by simp [hr]⟩

theorem setOptions_typed {o : Opts} {kw : List (Char × Option Val)} (ho : o.optstring = optstring .patch) :
    ((∀ x ∈ patchArgs kw, KwTyped x) → ∃ o', setOptions o kw = .ok o') ∧
    (¬ (∀ x ∈ patchArgs kw, KwTyped x) → setOptions o kw = .error .optionsException) := by
  induction kw generalizing o with
  | nil => exact ⟨fun _ => ⟨o, rfl⟩, fun h => absurd (by simp [patchArgs]) h⟩
  | cons x kw ih =>
    obtain ⟨c, v⟩ := x
    simp only [setOptions]
    rw [ho, valid_patch]
    by_cases hc : c ∈ prepFlags .patch ++ prepArgs .patch
    · rw [decide_eq_true hc, if_pos rfl]
      have e : patchArgs ((c, v) :: kw) = (c, v) :: patchArgs kw := by simp only [patchArgs, List.filter_cons, hc]; rfl
      rw [e]
      have ht := set_typed (x := (c, v)) ho hc
      by_cases hx : KwTyped (c, v)
      · obtain ⟨o', h1, h2⟩ := ht.1 hx
        rw [h1]
        simp only [List.mem_cons, forall_eq_or_imp, hx, true_and]
        exact ih h2
      · rw [ht.2 hx]
        simp only [List.mem_cons, forall_eq_or_imp, hx, false_and, not_false_eq_true, forall_const, and_true]
        exact False.elim
    · rw [decide_eq_false hc, if_neg (by simp)]
      have e : patchArgs ((c, v) :: kw) = patchArgs kw := by simp only [patchArgs, List.filter_cons, hc]; rfl
      rw [e]
      exact ih ho

theorem newPatch_typed (num : Option Int) (old : Bool) (kw : List (Char × Option Val)) :
    ((∀ x ∈ patchArgs kw, KwTyped x) → ∃ m, newPatch num old kw = .ok m) ∧
    (¬ (∀ x ∈ patchArgs kw, KwTyped x) → newPatch num old kw = .error .optionsException) := by
  have core : ∀ (o : Opts) (nm : Str), o.optstring = optstring .patch →
      ((∀ x ∈ patchArgs kw, KwTyped x) → ∃ m, (match setOptions o kw with
        | .error e => (.error e : Except Err PrepMacro)
        | .ok o => .ok ⟨.patch, nm, o, [' '], [], [], []⟩) = .ok m) ∧
      (¬ (∀ x ∈ patchArgs kw, KwTyped x) → (match setOptions o kw with
        | .error e => (.error e : Except Err PrepMacro)
        | .ok o => .ok ⟨.patch, nm, o, [' '], [], [], []⟩) = .error .optionsException) := by
    intro o nm ho
    obtain ⟨h1, h2⟩ := setOptions_typed (kw := kw) ho
    constructor
    · intro h
      obtain ⟨o', e⟩ := h1 h
      rw [e]; exact ⟨_, rfl⟩
    · intro h
      rw [h2 h]
  unfold newPatch
  cases num with
  | none => exact core _ _ rfl
  | some n =>
    cases old with
    | true => exact core _ _ rfl
    | false =>
      have hp : Options.posInsert ⟨[], optstring .patch, defaults .patch⟩
          (Options.positionalIdx ⟨[], optstring .patch, defaults .patch⟩).length (.int n) =
          .ok ⟨[⟨Options.valueType (.int n), intStr n⟩], optstring .patch, defaults .patch⟩ := by
        simp [Options.posInsert, Options.positionalIdx, Options.posIdx, Val.text]
      simp only [Bool.false_eq_true, if_false]
      rw [hp]
      exact core _ _ rfl

/-! ### the place of a new macro -/

/-- the place next to the nearest number -/
theorem addPatch_ok [Uni] {p p' : Prep} {num : Option Int} {old : Bool} {kw : List (Char × Option Val)}
    (h : addPatchMacro p num old kw = (p', none)) : ∃ m k, newPatch num old kw = .ok m ∧ k ≤ p.data.length ∧
      p' = insert p k m ∧ (∀ x ∈ p.data, x.kind = .patch → ∃ n, number x = .ok n) ∧
      (((∀ x ∈ p.data, x.kind ≠ .patch) ∧ k = p.data.length) ∨
        ∃ n j x y, number m = .ok n ∧ p.data[j]? = some x ∧ x.kind = .patch ∧ number x = .ok y ∧
          (∀ (i : Nat) z w, p.data[i]? = some z → z.kind = .patch → number z = .ok w →
            (y - n).natAbs ≤ (w - n).natAbs ∧ ((y - n).natAbs = (w - n).natAbs → j ≤ i)) ∧
          k = if y ≤ n then j + 1 else j) := by
  unfold addPatchMacro at h
  cases hm : newPatch num old kw with
  | error e => rw [hm] at h; simp at h
  | ok m =>
    rw [hm] at h
    simp only at h
    cases hn : patchNumbers 0 p.data with
    | error e => rw [hn] at h; simp at h
    | ok nums =>
      rw [hn] at h
      have hall := patchNumbers_all hn
      have hok := patchNumbers_ok hn
      cases nums with
      | nil =>
        simp only [Prod.mk.injEq, and_true] at h
        refine ⟨m, p.data.length, rfl, Nat.le_refl _, h.symm, hall, .inl ⟨?_, rfl⟩⟩
        intro x hx hk
        obtain ⟨i, hi⟩ := List.getElem?_of_mem hx
        obtain ⟨n, hn'⟩ := hall x hx hk
        have := (hok i n).mpr ⟨i, x, by omega, hi, hk, hn'⟩
        simp at this
      | cons a nums =>
        simp only at h
        cases hnum : number m with
        | error e => rw [hnum] at h; simp at h
        | ok n =>
          rw [hnum] at h
          simp only [Prod.mk.injEq, and_true] at h
          unfold newIndex at h
          cases hne : nearest n (a :: nums) with
          | none => simp [nearest_none] at hne
          | some q =>
            obtain ⟨j, y⟩ := q
            rw [hne] at h
            obtain ⟨h1, h2⟩ := nearest_some (patchNumbers_sorted hn) hne
            obtain ⟨j', x, ej, hx, hk, hy⟩ := (hok j y).mp h1
            obtain rfl : j = j' := by omega
            obtain ⟨hjl, _⟩ := List.getElem?_eq_some_iff.mp hx
            refine ⟨m, if y ≤ n then j + 1 else j, rfl, by split <;> omega, h.symm, hall,
              .inr ⟨n, j, x, y, hnum, hx, hk, hy, ?_, rfl⟩⟩
            intro i z w hz hzk hw
            have := h2 (i, w) ((hok i w).mpr ⟨i, z, by omega, hz, hzk, hw⟩)
            exact this

theorem addPatch_exists [Uni] {p : Prep} {num : Option Int} {old : Bool} {kw : List (Char × Option Val)} {m : PrepMacro}
    (hm : newPatch num old kw = .ok m) (hall : ∀ x ∈ p.data, x.kind = .patch → ∃ n, number x = .ok n)
    (hnum : (∀ x ∈ p.data, x.kind ≠ .patch) ∨ ∃ n, number m = .ok n) :
    ∃ p', addPatchMacro p num old kw = (p', none) := by
  unfold addPatchMacro
  rw [hm]
  obtain ⟨nums, hn⟩ := patchNumbers_exists 0 hall
  simp only
  rw [hn]
  cases nums with
  | nil => exact ⟨_, rfl⟩
  | cons a nums =>
    obtain ⟨j, x, _, hx, hk, _⟩ := (patchNumbers_ok hn a.1 a.2).mp (by simp)
    rcases hnum with h | ⟨n, h⟩
    · exact absurd hk (h x (List.mem_of_getElem? hx))
    · simp only
      rw [h]
      exact ⟨_, rfl⟩

theorem addPatch_error [Uni] {p p' : Prep} {num : Option Int} {old : Bool} {kw : List (Char × Option Val)} {e : Err}
    (h : addPatchMacro p num old kw = (p', some e)) : p' = p := by
  unfold addPatchMacro at h
  split at h
  · simp at h; exact h.1.symm
  · split at h
    · simp at h; exact h.1.symm
    · simp at h
    · split at h
      · simp at h; exact h.1.symm
      · simp at h

theorem good_number [Uni] {m : PrepMacro} (hg : GoodMacro m) (hk : m.kind = .patch) {n : Int} :
    number m = .ok n ↔ HasNumber m n := by
  obtain ⟨ps, hr⟩ := hg.reads
  exact number_iff (hg.patch hk) hg.line hr

theorem getElem?_insert {α : Type} {l : List α} {k i : Nat} {m x : α} (hk : k ≤ l.length)
    (h : (l.take k ++ m :: l.drop k)[i]? = some x) :
    (i < k ∧ l[i]? = some x) ∨ (i = k ∧ x = m) ∨ (k < i ∧ l[i - 1]? = some x) := by
  have hlen : (l.take k).length = k := by rw [List.length_take]; omega
  rcases Nat.lt_trichotomy i k with hi | hi | hi
  · left
    rw [List.getElem?_append_left (by omega), List.getElem?_take_of_lt hi] at h
    exact ⟨hi, h⟩
  · right; left
    rw [List.getElem?_append_right (by omega), hlen, hi] at h
    simp at h
    exact ⟨hi, h.symm⟩
  · right; right
    rw [List.getElem?_append_right (by omega), hlen] at h
    obtain ⟨d, hd⟩ : ∃ d, i - k = d + 1 := ⟨i - k - 1, by omega⟩
    rw [hd, List.getElem?_cons_succ, List.getElem?_drop] at h
    rw [show i - 1 = k + d by omega]
    exact ⟨hi, h⟩

theorem insert_data {p : Prep} {k : Nat} (hk : k ≤ p.data.length) (m : PrepMacro) :
    (insert p k m).data = p.data.take k ++ m :: p.data.drop k := by
  unfold insert
  have : insertPos p.data.length (k : Int) = k := by unfold insertPos; rw [if_pos (by omega)]; omega
  simp only [this]
  exact insertIdx_split hk m

/-- numbers in order stay in order -/
theorem place_sorted [Uni] {p : Prep} {m : PrepMacro} {k : Nat} {n : Int} (hk : k ≤ p.data.length)
    (hm : number m = .ok n)
    (hinc : ∀ (i j : Nat) a b v w, i < j → p.data[i]? = some a → p.data[j]? = some b → a.kind = .patch →
      b.kind = .patch → number a = .ok v → number b = .ok w → v < w)
    (hpl : ((∀ x ∈ p.data, x.kind ≠ .patch) ∧ k = p.data.length) ∨
        ∃ j x y, p.data[j]? = some x ∧ x.kind = .patch ∧ number x = .ok y ∧
          (∀ (i : Nat) z w, p.data[i]? = some z → z.kind = .patch → number z = .ok w →
            (y - n).natAbs ≤ (w - n).natAbs ∧ ((y - n).natAbs = (w - n).natAbs → j ≤ i)) ∧
          k = if y ≤ n then j + 1 else j)
    {i j : Nat} {a b : PrepMacro} {v w : Int} (hij : i < j) (ha : (insert p k m).data[i]? = some a)
    (hb : (insert p k m).data[j]? = some b) (hka : a.kind = .patch) (hkb : b.kind = .patch)
    (hv : number a = .ok v) (hw : number b = .ok w) : v ≤ w ∧
      ((∀ x ∈ p.data, x.kind = .patch → number x ≠ .ok n) → v < w) := by
  rw [insert_data hk] at ha hb
  have before : ∀ (i : Nat) a v, i < k → p.data[i]? = some a → a.kind = .patch → number a = .ok v →
      v ≤ n ∧ ((∀ x ∈ p.data, x.kind = .patch → number x ≠ .ok n) → v < n) := by
    intro i a v hi ha' hka' hv'
    have hne : (∀ x ∈ p.data, x.kind = .patch → number x ≠ .ok n) → v ≠ n := by
      rintro h rfl
      exact h a (List.mem_of_getElem? ha') hka' hv'
    rcases hpl with ⟨h, _⟩ | ⟨j, x, y, hx, hkx, hy, hmin, hkj⟩
    · exact absurd hka' (h a (List.mem_of_getElem? ha'))
    · rw [hkj] at hi
      have hmi := hmin i a v ha' hka' hv'
      have hvy : i < j → v < y := fun hij => hinc i j a x v y hij ha' hx hka' hkx hv' hy
      have hle : v ≤ n := by
        split at hi
        · rcases Nat.lt_or_ge i j with h | h
          · have := hvy h; omega
          · obtain rfl : i = j := by omega
            rw [hx] at ha'; simp at ha'; subst ha'
            rw [hy] at hv'; simp at hv'; omega
        · have := hvy hi; omega
      exact ⟨hle, fun h => by have := hne h; omega⟩
  have after : ∀ (i : Nat) a v, k ≤ i → p.data[i]? = some a → a.kind = .patch → number a = .ok v →
      n < v := by
    intro i a v hi ha' hka' hv'
    rcases hpl with ⟨h, _⟩ | ⟨j, x, y, hx, hkx, hy, hmin, hkj⟩
    · exact absurd hka' (h a (List.mem_of_getElem? ha'))
    · rw [hkj] at hi
      have hmi := hmin i a v ha' hka' hv'
      have hvy : j < i → y < v := fun hij => hinc j i x a y v hij hx ha' hkx hka' hy hv'
      split at hi
      · have := hvy (by omega); omega
      · rcases Nat.lt_or_ge j i with h | h
        · have := hvy h; omega
        · obtain rfl : i = j := by omega
          rw [hx] at ha'; simp at ha'; subst ha'
          rw [hy] at hv'; simp at hv'; omega
  rcases getElem?_insert hk ha with ⟨h1, h2⟩ | ⟨h1, rfl⟩ | ⟨h1, h2⟩ <;>
  rcases getElem?_insert hk hb with ⟨h3, h4⟩ | ⟨h3, rfl⟩ | ⟨h3, h4⟩
  · have := hinc i j a b v w hij h2 h4 hka hkb hv hw
    exact ⟨by omega, fun _ => this⟩
  · rw [hm] at hw; simp at hw; subst hw
    exact before i a v h1 h2 hka hv
  · have := before i a v h1 h2 hka hv
    have := after (j - 1) b w (by omega) h4 hkb hw
    exact ⟨by omega, fun _ => by omega⟩
  · omega
  · omega
  · rw [hm] at hv; simp at hv; subst hv
    have := after (j - 1) b w (by omega) h4 hkb hw
    exact ⟨by omega, fun _ => this⟩
  · omega
  · omega
  · have := hinc (i - 1) (j - 1) a b v w (by omega) h2 h4 hka hkb hv hw
    exact ⟨by omega, fun _ => this⟩

end Prep
end Specfile
