import Verif.Props.Options
import Verif.Model.OptionsMapping
import Verif.Spec.OptionsMapping
import Verif.Py.Seq2
/-
Lemmas about `Options` used as a mapping and about its positional arguments used as a list.
-/
namespace Specfile.Options
open Py Spec Props

theorem _root_.Specfile.Spec.SameOptions.refl [Uni] (o : Opts) : SameOptions o o := ⟨rfl, fun _ _ _ => rfl⟩

theorem _root_.Specfile.Spec.SameOptions.trans [Uni] {a b c : Opts} (h : SameOptions a b) (g : SameOptions b c) : SameOptions a c :=
  ⟨g.optstring.trans h.optstring, fun x h1 h2 =>
    (g.get x (by rw [h.optstring]; exact h1) h2).trans (h.get x h1 h2)⟩

theorem valid_iff {os : Str} {c : Char} : valid os c = true ↔ c ∈ os ∧ c ≠ ':' := by simp [valid]

theorem _root_.Specfile.Spec.SameOptions.of [Uni] {o o' : Opts} (h1 : o'.optstring = o.optstring)
    (h2 : ∀ c, valid o.optstring c = true → get o' c = get o c) : SameOptions o o' :=
  ⟨h1, fun c h3 h4 => h2 c (valid_iff.2 ⟨h3, h4⟩)⟩

theorem readable_iff [Uni] {s : Str} : ReadableValue s ↔ ∃ v, readValue s = .ok v := by
  unfold ReadableValue readValue
  by_cases h1 : s = []
  · subst h1; simp
  · by_cases h2 : ∀ c ∈ s, Uni.isNumeric c = true
    · by_cases h3 : ∀ c ∈ s, Uni.isDecimal c = true
      · rw [if_pos (by simp [h1]; exact h2), if_pos (by simpa using h3)]
        exact ⟨fun _ => ⟨_, rfl⟩, fun _ _ _ => h3⟩
      · rw [if_pos (by simp [h1]; exact h2), if_neg (by simpa using h3)]
        constructor
        · intro h; exact absurd (h h1 h2) h3
        · rintro ⟨v, h⟩; cases h
    · rw [if_neg (by simp [h1]; simpa using h2)]
      exact ⟨fun _ => ⟨_, rfl⟩, fun _ _ h => absurd h h2⟩

theorem readValue_error [Uni] {s : Str} {e : Err} (h : readValue s = .error e) : e = .valueError := by
  unfold readValue at h
  split at h
  · split at h
    · cases h
    · cases h; rfl
  · cases h

theorem length_positionals (o : Opts) : (positionalValues o).length = (positionalIdx o).length := by
  simp [positionalValues]

/-! ### one positional argument -/

theorem set_step [Uni] {o : Opts} {ps : List Piece} (h : Reads o ps) {k : Nat} (hk : k < (positionalIdx o).length)
    {v : Str} (hv : v.head? ≠ some '-') {o' : Opts}
    (ho : o' = { o with tokens := o.tokens.modify ((positionalIdx o).getD k 0) (fun t => { t with value := v }) }) :
    (∃ ps', Reads o' ps') ∧ positionalIdx o' = positionalIdx o ∧
      positionalValues o' = (positionalValues o).set k v ∧ SameOptions o o' := by
  have hk' : k < (posWords ps).length := by
    rw [positionalIdx_eq h, wordIdx_length] at hk; exact hk
  obtain ⟨a, t, b, rfl, e2⟩ := words_split hk'
  have hi := positionalIdx_at h
  rw [e2] at hi
  rw [hi] at ho
  subst ho
  have hr := reads_set h hv
  refine ⟨⟨_, hr⟩, ?_, ?_, SameOptions.of rfl ?_⟩
  · rw [positionalIdx_eq hr, positionalIdx_eq h, wordIdx_append, wordIdx_append]; rfl
  · rw [positionalValues_eq hr, positionalValues_eq h]
    simp [posWords, ← e2]
  · intro c hc
    refine get_congr ?_ rfl rfl
    rw [optText_given hr hc, optText_given h hc, given_word, given_word]

theorem Trim.wordIdx {a b a' b' : List Piece} (h : Trim a b a' b') (k : Nat) :
    Options.wordIdx k a' = Options.wordIdx k a := by
  cases h <;> simp [wordIdx_append, Options.wordIdx]

theorem del_step [Uni] {o : Opts} {ps : List Piece} (h : Reads o ps) {k : Nat} (hk : k < (positionalIdx o).length)
    {o' : Opts} (ho : o' = { o with tokens := delToken o.tokens ((positionalIdx o).getD k 0) }) :
    (positionalIdx o).getD k 0 < o.tokens.length ∧
    (∃ ps', Reads o' ps') ∧ (positionalIdx o').take k = (positionalIdx o).take k ∧
      positionalValues o' = (positionalValues o).eraseIdx k ∧ SameOptions o o' := by
  have hk' : k < (posWords ps).length := by
    rw [positionalIdx_eq h, wordIdx_length] at hk; exact hk
  obtain ⟨a, t, b, rfl, e2⟩ := words_split hk'
  have hi := positionalIdx_at h
  rw [e2] at hi
  rw [hi] at ho ⊢
  obtain ⟨a', b', ht, e⟩ := delToken_pieces h
  have hr : Reads o' (a' ++ b') := by
    subst ho
    refine ⟨e, ?_⟩
    intro q hq
    rcases List.mem_append.1 hq with hq | hq
    · exact h.ok q (by simp [ht.mem.1 q hq])
    · exact h.ok q (by simp [ht.mem.2 q hq])
  refine ⟨?_, ⟨_, hr⟩, ?_, ?_, SameOptions.of (by rw [ho]) ?_⟩
  · rw [h.tokens]; simp [Piece.toks]
  · rw [positionalIdx_eq hr, positionalIdx_eq h, wordIdx_append, wordIdx_append, ht.wordIdx]
    have : (wordIdx 0 a).length = k := by rw [wordIdx_length, e2]
    rw [List.take_left' this, List.take_left' this]
  · rw [positionalValues_eq hr, positionalValues_eq h]
    simp only [posWords_append, posWords, ht.words.1, ht.words.2, ← e2]
    rw [eraseIdx_here]
  · intro c hc
    have hos : o'.optstring = o.optstring := by rw [ho]
    refine get_congr ?_ hos (by rw [ho])
    rw [optText_given hr (by rw [hos]; exact hc), optText_given h hc, given_word, given_append, given_append,
      (ht.given c).1, (ht.given c).2]

/-! ### slices -/

theorem valueAt_idx (o : Opts) (k : Nat) (hk : k < (positionalIdx o).length) :
    some (valueAt o.tokens ((positionalIdx o).getD k 0)) = (positionalValues o)[k]? := by
  unfold positionalValues
  rw [List.getElem?_map, List.getD_eq_getElem?_getD, List.getElem?_eq_getElem hk]
  simp

theorem readTokens_ok [Uni] {ts : List Token} {ks : List Nat} {vs : List Val} : readTokens ts ks = .ok vs ↔
    vs.length = ks.length ∧ ∀ (j k : Nat) v, ks[j]? = some k → vs[j]? = some v → readValue (valueAt ts k) = .ok v := by
  induction ks generalizing vs with
  | nil => cases vs <;> simp [readTokens]
  | cons k ks ih =>
    simp only [readTokens]
    cases hr : readValue (valueAt ts k) with
    | error e =>
      simp only [reduceCtorEq, false_iff]
      rintro ⟨h1, h2⟩
      cases vs with
      | nil => simp at h1
      | cons v vs =>
        have := h2 0 k v (by simp) (by simp)
        rw [hr] at this; cases this
    | ok v =>
      simp only
      cases vs with
      | nil =>
        cases hh : readTokens ts ks <;> simp
      | cons w vs =>
        have this : readTokens ts (k :: ks) = .ok (w :: vs) ↔ v = w ∧ readTokens ts ks = .ok vs := by
          simp only [readTokens, hr]
          cases readTokens ts ks <;> simp
        simp only [readTokens, hr] at this
        rw [this, ih]
        constructor
        · rintro ⟨rfl, h1, h2⟩
          refine ⟨by simp [h1], ?_⟩
          intro j k' v' hk hv
          cases j with
          | zero => simp at hk hv; subst hk hv; exact hr
          | succ j => exact h2 j k' v' (by simpa using hk) (by simpa using hv)
        · rintro ⟨h1, h2⟩
          have := h2 0 k w (by simp) (by simp)
          rw [hr] at this
          cases this
          exact ⟨rfl, by simpa using h1, fun j k' v' hk hv => h2 (j + 1) k' v' (by simpa using hk) (by simpa using hv)⟩

theorem readTokens_error [Uni] {ts : List Token} {ks : List Nat} {e : Err} (h : readTokens ts ks = .error e) :
    e = .valueError ∧ ∃ k ∈ ks, ¬ ReadableValue (valueAt ts k) := by
  induction ks with
  | nil => cases h
  | cons k ks ih =>
    simp only [readTokens] at h
    cases hr : readValue (valueAt ts k) with
    | error e' =>
      rw [hr] at h
      cases h
      refine ⟨readValue_error hr, k, .head _, ?_⟩
      rw [readable_iff]
      rintro ⟨v, hv⟩
      rw [hr] at hv; cases hv
    | ok v =>
      rw [hr] at h
      simp only at h
      cases hh : readTokens ts ks with
      | error e' =>
        rw [hh] at h; cases h
        obtain ⟨h1, k', h2, h3⟩ := ih hh
        exact ⟨h1, k', .tail _ h2, h3⟩
      | ok r => rw [hh] at h; cases h

theorem setTokens_spec [Uni] {o : Opts} {ps : List Piece} (h : Reads o ps) {ks : List Nat} {vs : List Val}
    (hnd : ks.Nodup) (hk : ∀ k ∈ ks, k < (positionalIdx o).length) (hv : ∀ v ∈ vs, v.text.head? ≠ some '-')
    {o' : Opts} {e : Option Err}
    (ho : setTokens o.tokens (ks.map (fun k => (positionalIdx o).getD k 0)) vs = (o'.tokens, e))
    (hs : o'.optstring = o.optstring) (hd : o'.defaults = o.defaults) :
    e = (if ks.length ≤ vs.length then none else some .indexError) ∧ (∃ ps', Reads o' ps') ∧
      (positionalValues o').length = (positionalValues o).length ∧
      (∀ (j k : Nat) v, ks[j]? = some k → vs[j]? = some v → (positionalValues o')[k]? = some v.text) ∧
      (∀ k : Nat, (∀ j, ks[j]? = some k → vs.length ≤ j) → (positionalValues o')[k]? = (positionalValues o)[k]?) ∧
      SameOptions o o' := by
  induction ks generalizing o ps vs with
  | nil =>
    simp only [List.map_nil, setTokens, Prod.mk.injEq] at ho
    have : o' = o := by cases o; cases o'; simp_all
    subst this
    refine ⟨by simp [← ho.2], ⟨ps, h⟩, rfl, by simp, fun _ _ => rfl, SameOptions.refl _⟩
  | cons k ks ih =>
    cases vs with
    | nil =>
      simp only [List.map_cons, setTokens, Prod.mk.injEq] at ho
      have : o' = o := by cases o; cases o'; simp_all
      subst this
      refine ⟨by simp [← ho.2], ⟨ps, h⟩, rfl, by simp, fun _ _ => rfl, SameOptions.refl _⟩
    | cons v vs =>
      simp only [List.map_cons, setTokens] at ho
      obtain ⟨o1, ho1⟩ : ∃ o1 : Opts, o1 =
          { o with tokens := o.tokens.modify ((positionalIdx o).getD k 0) (fun t => { t with value := v.text }) } :=
        ⟨_, rfl⟩
      obtain ⟨⟨ps1, h1⟩, h2, h3, h4⟩ := set_step h (hk k (.head _)) (hv v (.head _)) ho1
      have hnk := List.nodup_cons.1 hnd
      have ho : setTokens o1.tokens (ks.map (fun k => (positionalIdx o1).getD k 0)) vs = (o'.tokens, e) := by
        rw [h2, ho1]; exact ho
      rw [← h2] at hk
      obtain ⟨g1, g2, g3, g4, g5, g6⟩ := ih h1 hnk.2 (fun x hx => hk x (.tail _ hx)) (fun x hx => hv x (.tail _ hx))
        ho (by rw [hs, ho1]) (by rw [hd, ho1])
      rw [h3] at g3 g5
      simp only [List.length_set] at g3
      refine ⟨?_, g2, g3, ?_, ?_, h4.trans g6⟩
      · rw [g1]; simp
      · intro j k' w hj hw
        cases j with
        | zero =>
          simp at hj hw
          subst hj hw
          rw [g5 k (fun j hj => absurd (List.mem_of_getElem? hj) hnk.1)]
          rw [List.getElem?_set_self]
          rw [length_positionals, ← h2]
          exact hk k (.head _)
        | succ j => exact g4 j k' w (by simpa using hj) (by simpa using hw)
      · intro k' hk'
        have hne : k' ≠ k := by
          rintro rfl
          have := hk' 0 (by simp)
          simp at this
        rw [g5 k' (fun j hj => by
          have := hk' (j + 1) (by simpa using hj)
          simpa using this)]
        rw [List.getElem?_set_ne (Ne.symm hne)]

theorem withoutAt_congr {α : Type} {ks js : List Nat} (xs : List α) (h : ∀ k, k ∈ ks ↔ k ∈ js) :
    withoutAt ks xs = withoutAt js xs := by
  unfold withoutAt
  simp only [h]

theorem withoutAt_nil {α : Type} (xs : List α) : withoutAt [] xs = xs := by
  unfold withoutAt
  simp only [List.not_mem_nil, if_false]
  induction xs with
  | nil => rfl
  | cons x xs ih => simpa [List.mapIdx_cons] using ih

theorem withoutAt_cons {α : Type} {k : Nat} {ks : List Nat} {xs : List α} (hk : k < xs.length) (h : ∀ j ∈ ks, j < k) :
    withoutAt (k :: ks) xs = withoutAt ks (xs.eraseIdx k) := by
  obtain ⟨a, x, b, rfl, rfl⟩ : ∃ a x b, xs = a ++ x :: b ∧ a.length = k :=
    ⟨xs.take k, xs[k], xs.drop (k + 1), by simp, by simp; omega⟩
  rw [eraseIdx_here]
  unfold withoutAt
  have after : ∀ (js : List Nat) (l : List α) (f : Nat → Nat), (∀ i, f i ∉ js) →
      (l.mapIdx (fun i x => if f i ∈ js then none else some x)).filterMap id = l := by
    intro js l f hf
    simp only [hf, if_false]
    have := withoutAt_nil l
    unfold withoutAt at this
    simpa using this
  have front : a.mapIdx (fun i x => if i ∈ a.length :: ks then none else some x) =
      a.mapIdx (fun i x => if i ∈ ks then none else some x) := by
    apply List.mapIdx_eq_mapIdx_iff.2
    intro i hi
    have : i ≠ a.length := by omega
    simp [this]
  rw [List.mapIdx_append, List.mapIdx_append, List.filterMap_append, List.filterMap_append, front]
  congr 1
  rw [List.mapIdx_cons]
  simp only [Nat.zero_add, List.mem_cons, true_or, if_true, List.filterMap_cons, id]
  have h1 := after ks b (fun i => i + a.length) (fun i hi => by have := h _ hi; omega)
  have h2 := after (a.length :: ks) b (fun i => i + 1 + a.length) (by
    intro i hi
    rcases List.mem_cons.1 hi with hi | hi
    · omega
    · have := h _ hi; omega)
  simp only [List.mem_cons] at h2
  rw [h1, h2]

theorem delTokens_spec [Uni] {ks : List Nat} : ∀ {o : Opts} {ps : List Piece}, Reads o ps →
    ks.Pairwise (· > ·) → (∀ k ∈ ks, k < (positionalIdx o).length) →
    ∃ ts, delTokens o.tokens (ks.map (fun k => (positionalIdx o).getD k 0)) = (ts, none) ∧
      (∃ ps', Reads { o with tokens := ts } ps') ∧
      positionalValues { o with tokens := ts } = withoutAt ks (positionalValues o) ∧
      SameOptions o { o with tokens := ts } := by
  induction ks with
  | nil =>
    intro o ps h _ _
    exact ⟨_, rfl, ⟨ps, h⟩, by rw [withoutAt_nil], SameOptions.refl _⟩
  | cons k ks ih =>
    intro o ps h hp hk
    have hp' := List.pairwise_cons.1 hp
    obtain ⟨h0, ⟨ps1, h1⟩, h2, h3, h4⟩ := del_step h (hk k (.head _)) rfl
    have hlen := congrArg List.length h3
    rw [List.length_eraseIdx, if_pos (by rw [length_positionals]; exact hk k (.head _)), length_positionals,
      length_positionals] at hlen
    have hkk := hk k (.head _)
    obtain ⟨ts, g1, g2, g3, g4⟩ := ih h1 hp'.2 (by
      intro j hj
      have := hp'.1 j hj
      omega)
    have hmap : ks.map (fun j => (positionalIdx { o with tokens := delToken o.tokens ((positionalIdx o).getD k 0) }).getD j 0)
        = ks.map (fun j => (positionalIdx o).getD j 0) := by
      apply List.map_congr_left
      intro j hj
      have hjk := hp'.1 j hj
      have e := congrArg (fun l => l[j]?) h2
      simp only [List.getElem?_take, if_pos hjk] at e
      simp only [List.getD_eq_getElem?_getD] at e ⊢
      rw [e]
    rw [hmap] at g1
    refine ⟨ts, ?_, g2, ?_, h4.trans g4⟩
    · simp only [List.map_cons, delTokens, delTokenE, if_pos h0]
      exact g1
    · rw [g3, h3, withoutAt_cons (by rw [length_positionals]; exact hkk) hp'.1]

/-! ### pop, clear, extend -/

theorem pyIndex_last {n : Nat} : pyIndex (n + 1) (-1) = some n := by
  unfold pyIndex
  rw [if_neg (by omega), if_pos (by omega)]
  congr 1
  omega

theorem posPop_nat [Uni] {o : Opts} {ps : List Piece} (h : Reads o ps) {i : Int} {k : Nat}
    (hi : pyIndex (positionalValues o).length i = some k) {s : Str} (hs : (positionalValues o)[k]? = some s) :
    (∀ v, readValue s = .ok v → ∃ o' ps', posPop o i = (o', .ok v) ∧ Reads o' ps' ∧
      positionalValues o' = (positionalValues o).eraseIdx k ∧ SameOptions o o') ∧
    (∀ e, readValue s = .error e → posPop o i = (o, .error e)) := by
  rw [length_positionals] at hi
  have hk := pyIndex_lt hi
  have hv := valueAt_idx o k hk
  rw [hs] at hv
  have hv : valueAt o.tokens ((positionalIdx o).getD k 0) = s := by simpa using hv
  constructor
  · intro v hr
    obtain ⟨h0, ⟨ps1, h1⟩, h2, h3, h4⟩ := del_step h hk rfl
    refine ⟨_, ps1, ?_, h1, h3, h4⟩
    unfold posPop posGet posDel
    rw [hi]
    simp only [hv, hr]
  · intro e hr
    unfold posPop posGet
    rw [hi]
    simp only [hv, hr]

theorem posClearLoop_spec [Uni] {n : Nat} : ∀ {o : Opts} {ps : List Piece}, Reads o ps →
    (positionalValues o).length < n →
    ∃ o' ps' k e, posClearLoop n o = (o', e) ∧ Reads o' ps' ∧ SameOptions o o' ∧
      positionalValues o' = (positionalValues o).take k ∧ (∀ s ∈ (positionalValues o).drop k, ReadableValue s) ∧
      ((e = none ∧ k = 0) ∨ (e = some .valueError ∧ ∃ s, (positionalValues o')[k - 1]? = some s ∧ 0 < k ∧ ¬ ReadableValue s)) := by
  induction n with
  | zero => intro o ps h hl; omega
  | succ n ih =>
    intro o ps h hl
    by_cases hnil : positionalValues o = []
    · have hp : posPop o (-1) = (o, .error .indexError) := by
        unfold posPop posGet
        have : (positionalIdx o).length = 0 := by rw [← length_positionals, hnil]; rfl
        rw [this]
        rfl
      refine ⟨o, ps, 0, none, ?_, h, SameOptions.refl _, by simp [hnil], by simp [hnil], Or.inl ⟨rfl, rfl⟩⟩
      simp [posClearLoop, hp]
    · obtain ⟨m, hm⟩ : ∃ m, (positionalValues o).length = m + 1 :=
        ⟨(positionalValues o).length - 1, by have := List.length_pos_iff.2 hnil; omega⟩
      have hi : pyIndex (positionalValues o).length (-1) = some m := by rw [hm]; exact pyIndex_last
      have hs : (positionalValues o)[m]? = some (positionalValues o)[m] := List.getElem?_eq_getElem (by omega)
      obtain ⟨p1, p2⟩ := posPop_nat h hi hs
      cases hr : readValue (positionalValues o)[m] with
      | error e =>
        have he := readValue_error hr
        subst he
        refine ⟨o, ps, m + 1, some .valueError, ?_, h, SameOptions.refl _, ?_, ?_, Or.inr ⟨rfl, _, hs, by omega, ?_⟩⟩
        · simp [posClearLoop, p2 _ hr]
        · rw [List.take_of_length_le (by omega)]
        · rw [List.drop_eq_nil_of_le (by omega)]; simp
        · rw [readable_iff]; rintro ⟨v, hv⟩; rw [hr] at hv; cases hv
      | ok v =>
        obtain ⟨o1, ps1, q1, q2, q3, q4⟩ := p1 v hr
        have hl1 : (positionalValues o1).length = m := by
          rw [q3, List.length_eraseIdx, if_pos (by omega)]; omega
        have hq : positionalValues o1 = (positionalValues o).take m := by
          rw [q3, List.eraseIdx_eq_take_drop_succ, List.drop_eq_nil_of_le (by omega), List.append_nil]
        obtain ⟨o', ps', k, e, g1, g2, g3, g4, g5, g6⟩ := ih q2 (by omega)
        refine ⟨o', ps', min k m, e, ?_, g2, q4.trans g3, ?_, ?_, ?_⟩
        · simp only [posClearLoop, q1]; exact g1
        · rw [g4, hq, List.take_take]
        · intro s hs'
          rw [hq] at g5
          have hsplit : (positionalValues o) = (positionalValues o).take m ++ [(positionalValues o)[m]] := by
            rw [List.take_append_getElem (by omega), List.take_of_length_le (by omega)]
          rw [hsplit, List.drop_append_of_le_length (by simp; omega)] at hs'
          rcases List.mem_append.1 hs' with hs' | hs'
          · by_cases hkm : k ≤ m
            · rw [Nat.min_eq_left hkm] at hs'; exact g5 s hs'
            · rw [Nat.min_eq_right (by omega), List.drop_eq_nil_of_le (by simp; omega)] at hs'
              simp at hs'
          · simp at hs'
            subst hs'
            exact readable_iff.2 ⟨v, hr⟩
        · rcases g6 with ⟨g6, g7⟩ | ⟨g6, s, g7, g8, g9⟩
          · exact Or.inl ⟨g6, by omega⟩
          · refine Or.inr ⟨g6, s, ?_, ?_, g9⟩
            · have := (List.getElem?_eq_some_iff.1 g7).1
              rw [g4, List.length_take, hl1] at this
              rw [← g7]
              congr 1
              omega
            · have := (List.getElem?_eq_some_iff.1 g7).1
              rw [g4, List.length_take, hl1] at this
              omega

theorem posAppend_spec [Uni] {o : Opts} {ps : List Piece} (h : Reads o ps) {v : Val} (hv : v.text.head? ≠ some '-') :
    ∃ o' ps', posAppend o v = (o', none) ∧ Reads o' ps' ∧ positionalValues o' = positionalValues o ++ [v.text] ∧
      SameOptions o o' := by
  unfold posAppend
  cases hi : posInsert o (positionalIdx o).length v with
  | error e =>
    obtain ⟨_, _, h3⟩ := (C32_insert_raises o _ v e).1 hi
    omega
  | ok p =>
    obtain ⟨g1, g2, ⟨ps', g3⟩, g4⟩ := C32_insert_partial h hv hi
    refine ⟨p, ps', rfl, g3, ?_, SameOptions.of g4 g2⟩
    rw [g1]
    have : insertPos (positionalValues o).length ((positionalIdx o).length : Int) = (positionalValues o).length := by
      rw [length_positionals]; unfold insertPos; rw [if_pos (by omega)]; omega
    rw [this, List.insertIdx_length_self]

theorem posExtend_spec [Uni] {vs : List Val} : ∀ {o : Opts} {ps : List Piece}, Reads o ps →
    (∀ v ∈ vs, v.text.head? ≠ some '-') →
    ∃ o' ps', posExtend o vs = (o', none) ∧ Reads o' ps' ∧
      positionalValues o' = positionalValues o ++ vs.map Val.text ∧ SameOptions o o' := by
  induction vs with
  | nil => intro o ps h _; exact ⟨o, ps, rfl, h, by simp, SameOptions.refl _⟩
  | cons v vs ih =>
    intro o ps h hv
    obtain ⟨o1, ps1, a1, a2, a3, a4⟩ := posAppend_spec h (hv v (.head _))
    obtain ⟨o', ps', b1, b2, b3, b4⟩ := ih a2 (fun x hx => hv x (.tail _ hx))
    refine ⟨o', ps', ?_, b2, ?_, a4.trans b4⟩
    · simp only [posExtend, a1]; exact b1
    · rw [b3, a3]; simp

/-! ### options as a mapping -/

theorem find_bounds {o : Opts} {c : Char} {i : Nat} {j : Option Nat} (h : find o c = (some i, j)) :
    i < o.tokens.length ∧ ∀ k, j = some k → i ≤ k := by
  unfold find at h
  split at h
  · cases h
  · rename_i n hl
    obtain ⟨a, t, b, e1, e2, e3, e4⟩ := lastIdx_some hl
    have hn : n < o.tokens.length := by rw [e1]; simp; omega
    split at h
    · cases h
      exact ⟨hn, fun k hk => by cases hk; omega⟩
    · split at h
      · cases h
        exact ⟨hn, fun k hk => by cases hk⟩
      · cases h
        refine ⟨hn, ?_⟩
        intro k hk
        unfold argIndex at hk
        simp only at hk
        split at hk
        · cases hk
        · split at hk
          · cases hk
          · split at hk
            · cases hk
            · cases hk
              split <;> omega

/-- deleting an option removes neighbouring tokens -/
theorem del_cut {o : Opts} {c : Char} {i : Nat} {j : Option Nat} (hf : find o c = (some i, j)) :
    ∃ a b, a ≤ b ∧ a < o.tokens.length ∧ del o c = { o with tokens := o.tokens.take a ++ o.tokens.drop (b + 1) } := by
  obtain ⟨h1, h2⟩ := find_bounds hf
  have one : ∀ k, k < o.tokens.length → ∃ a b, a ≤ b ∧ a < o.tokens.length ∧
      ({ o with tokens := o.tokens.eraseIdx k } : Opts) = { o with tokens := o.tokens.take a ++ o.tokens.drop (b + 1) } :=
    fun k hk => ⟨k, k, Nat.le_refl _, hk, by rw [List.eraseIdx_eq_take_drop_succ]⟩
  have two : ∀ k l, k < o.tokens.length → ∃ a b, a ≤ b ∧ a < o.tokens.length ∧
      (if l > k then ({ o with tokens := o.tokens.take k ++ o.tokens.drop (l + 1) } : Opts)
        else { o with tokens := o.tokens.eraseIdx k }) = { o with tokens := o.tokens.take a ++ o.tokens.drop (b + 1) } := by
    intro k l hk
    by_cases hl : l > k
    · rw [if_pos hl]; exact ⟨k, l, by omega, hk, rfl⟩
    · rw [if_neg hl]; exact one k hk
  unfold del
  rw [hf]
  by_cases hi : i = 0
  · simp only [hi, if_true]
    cases j with
    | none => exact one 0 (by omega)
    | some j =>
      simp only
      cases isWsAt o.tokens (j + 1) with
      | true => exact two 0 (j + 1) (by omega)
      | false => exact two 0 j (by omega)
  · simp only [hi, if_false]
    cases isWsAt o.tokens (i - 1) with
    | true =>
      cases j with
      | none => exact one (i - 1) (by omega)
      | some j => exact two (i - 1) j (by omega)
    | false =>
      cases j with
      | none => exact one i h1
      | some j => exact two i j h1

theorem del_frame (o : Opts) (c : Char) : (del o c).optstring = o.optstring ∧ (del o c).defaults = o.defaults := by
  cases hf : find o c with
  | mk i j =>
    cases i with
    | none => unfold del; rw [hf]; exact ⟨rfl, rfl⟩
    | some i =>
      obtain ⟨a, b, _, _, h⟩ := del_cut hf
      rw [h]; exact ⟨rfl, rfl⟩

theorem del_sublist (o : Opts) (c : Char) : (del o c).tokens.Sublist o.tokens := by
  cases hf : find o c with
  | mk i j =>
    cases i with
    | none => unfold del; rw [hf]; exact List.Sublist.refl _
    | some i =>
      obtain ⟨a, b, h1, h2, h⟩ := del_cut hf
      rw [h]
      have e : o.tokens = o.tokens.take a ++ o.tokens.drop a := (List.take_append_drop a _).symm
      have : o.tokens.drop (b + 1) = (o.tokens.drop a).drop (b + 1 - a) := by
        rw [List.drop_drop]; congr 1; omega
      simp only
      rw [this]
      conv => rhs; rw [e]
      exact (List.Sublist.refl _).append (List.drop_sublist _ _)

theorem del_shorter {o : Opts} {c : Char} (h : (find o c).1.isSome = true) :
    (del o c).tokens.length < o.tokens.length := by
  cases hf : find o c with
  | mk i j =>
    rw [hf] at h
    cases i with
    | none => simp at h
    | some i =>
      obtain ⟨a, b, h1, h2, h⟩ := del_cut hf
      rw [h]
      simp only [List.length_append, List.length_take, List.length_drop]
      omega

theorem set_optstring {o p : Opts} {c : Char} {v : Option Val} (h : Options.set o c v = .ok p) :
    p.optstring = o.optstring := by
  have := set_ok h
  subst this
  unfold write
  split
  · rcases v with _ | (_ | _) | _ | _ <;> rfl
  · have put : ∀ (i : Nat) (j : Option Nat) (w : Val), (match j with
        | some j => ({ o with tokens := o.tokens.modify j (fun (t : Token) => ⟨if needsQuoting w then
              if t.type = TokenType.quoted ∨ t.type = TokenType.doubleQuoted then t.type else .doubleQuoted
            else .default, w.text⟩) } : Opts)
        | none => if needsQuoting w then
            let ts := o.tokens.modify i (fun (t : Token) => { t with value := t.value.take 2 })
            { o with tokens := ts.take (i + 1) ++ [Token.mk .whitespace [' '], Token.mk .doubleQuoted w.text] ++ ts.drop (i + 1) }
          else { o with tokens := o.tokens.modify i (fun t => { t with value := t.value.take 2 ++ w.text }) }).optstring =
        o.optstring := by
      intro i j w
      cases j with
      | some j => rfl
      | none => simp only; split <;> rfl
    rcases v with _ | (_ | _) | _ | _
    · exact (del_frame o c).1
    · exact (del_frame o c).1
    all_goals exact put _ _ _

theorem given_split {c : Char} {ps : List Piece} (h : given c ps ≠ none) :
    ∃ a p b v, ps = a ++ p :: b ∧ p.given c = some v ∧ given c b = none := by
  induction ps with
  | nil => exact absurd rfl h
  | cons p ps ih =>
    cases hg : given c ps with
    | some v =>
      obtain ⟨a, q, b, v, rfl, h1, h2⟩ := ih (by simp [hg])
      exact ⟨p :: a, q, b, v, rfl, h1, h2⟩
    | none =>
      cases hp : p.given c with
      | none => simp [given, hg, hp] at h
      | some v => exact ⟨[], p, ps, v, rfl, hp, hg⟩

@[simp] theorem kept_append (os : Str) (a b : List Piece) : kept os (a ++ b) = kept os a ++ kept os b := by
  simp [kept]

@[simp] theorem kept_cons (os : Str) (p : Piece) (b : List Piece) : kept os (p :: b) = p.kept os ++ kept os b := by
  simp [kept]

@[simp] theorem kept_nil (os : Str) : kept os [] = [] := rfl

theorem Trim.kept {a b a' b' : List Piece} (h : Trim a b a' b') (os : Str) :
    Spec.kept os a' = Spec.kept os a ∧ Spec.kept os b' = Spec.kept os b := by
  cases h <;> simp [Piece.kept]

theorem kept_given {os : Str} {c : Char} {p : Piece} {v : Str} (h : p.given c = some v) (hc : valid os c = true) :
    p.kept os = [] := by
  rw [valid_iff] at hc
  cases p with
  | space t => cases h
  | word t => cases h
  | withArg t s x => rfl
  | flag t =>
    simp only [Piece.given] at h
    split at h
    · rename_i d w hw
      split at h
      · rename_i hd
        subst hd
        simp [Piece.kept, hw, hc]
      · cases h
    · cases h

/-- what deleting an option leaves -/
theorem del_kept {o : Opts} {ps : List Piece} (h : Reads o ps) {c : Char} (hc : valid o.optstring c = true)
    (hg : given c ps ≠ none) : ∃ ps', Reads (del o c) ps' ∧ kept o.optstring ps' = kept o.optstring ps ∧
      ∀ d, d ≠ c → given d ps' = given d ps := by
  obtain ⟨a, p, b, v, rfl, hp, hb⟩ := given_split hg
  have other : ∀ d, d ≠ c → p.given d = none := by
    intro d hd
    cases p with
    | space t => rfl
    | word t => rfl
    | flag t =>
      simp only [Piece.given] at hp ⊢
      split at hp
      · next x y hxy =>
        split at hp
        · next hx => rw [if_neg (by rw [hx]; exact Ne.symm hd)]
        · simp at hp
      · simp at hp
    | withArg t s x =>
      simp only [Piece.given] at hp ⊢
      split at hp
      · next hx => rw [if_neg (by rw [hx]; simpa using Ne.symm hd)]
      · simp at hp
  by_cases hflag : p.toks.map (·.value) = [['-', c]] → ∀ w, a.getLast? ≠ some (.space w)
  · obtain ⟨a', b', ht, e1, e2, e3⟩ := del_pieces h hc hp hb hflag
    refine ⟨a' ++ b', ⟨e1, ?_⟩, ?_, ?_⟩
    · rw [e2]
      intro q hq
      rcases List.mem_append.1 hq with hq | hq
      · exact h.ok q (by simp [ht.mem.1 q hq])
      · exact h.ok q (by simp [ht.mem.2 q hq])
    · simp [(ht.kept _).1, (ht.kept _).2, kept_given hp hc]
    · intro d hd
      simp [given_append, (ht.given d).1, (ht.given d).2, given, other d hd]
  · obtain ⟨hbare, w, hw⟩ : p.toks.map (·.value) = [['-', c]] ∧ ∃ w, a.getLast? = some (.space w) := by
      by_cases hb : p.toks.map (·.value) = [['-', c]]
      · refine ⟨hb, Classical.byContradiction fun hn => hflag (fun _ w hw => hn ⟨w, hw⟩)⟩
      · exact absurd (fun hb' => absurd hb' hb) hflag
    obtain ⟨a', rfl⟩ : ∃ a', a = a' ++ [.space w] := by
      obtain ⟨a', e⟩ := List.getLast?_eq_some_iff.1 hw
      exact ⟨a', e⟩
    have hspace := h.ok (.space w) (by simp)
    have hf := find_piece h hc hp hb
    rw [if_pos hbare] at hf
    have hlen : (toks (a' ++ [Piece.space w])).length = (toks a').length + 1 := by simp [Piece.toks]
    have hd : del o c = { o with tokens := toks (a' ++ p :: b) } := by
      unfold del
      rw [hf, hlen]
      have hws : isWsAt o.tokens (toks a').length = true := by
        rw [h.tokens]
        simp [isWsAt, Piece.toks, hspace.1]
      have he : o.tokens.eraseIdx (toks a').length = toks (a' ++ p :: b) := by
        rw [h.tokens, show a' ++ [Piece.space w] ++ p :: b = a' ++ ([.space w] ++ p :: b) by simp, toks_append]
        rw [show toks ([Piece.space w] ++ p :: b) = w :: toks (p :: b) from rfl, eraseIdx_here, toks_append]
      simp only [Nat.add_one_ne_zero, if_false, Nat.add_sub_cancel, hws, if_true, he]
    refine ⟨a' ++ p :: b, ?_, ?_, ?_⟩
    · rw [hd]
      refine ⟨rfl, ?_⟩
      intro q hq
      refine h.ok q ?_
      simp only [List.mem_append, List.mem_cons] at hq ⊢
      rcases hq with hq | hq
      · exact Or.inl (Or.inl hq)
      · exact Or.inr hq
    · simp [Piece.kept]
    · intro d _
      simp [given_append, given, Piece.given]

theorem mem_keys_given {o : Opts} {ps : List Piece} (h : Reads o ps) {c : Char} (hc : valid o.optstring c = true) :
    c ∈ keys o ↔ given c ps ≠ none := by
  rw [C31_keys]
  rw [valid_iff] at hc
  constructor
  · rintro ⟨_, _, t, ht, v, hv⟩ hn
    rw [h.tokens] at ht
    have := given_none_isOpt h.ok hn t ht
    rw [isOpt_iff.2 ⟨v, hv⟩] at this
    cases this
  · intro hg
    obtain ⟨a, p, b, v, rfl, hp, hb⟩ := given_split hg
    obtain ⟨t, m, e1, e2, _⟩ := piece_given (h.ok p (by simp)) (valid_iff.2 hc) hp
    refine ⟨hc.1, hc.2, t, ?_, isOpt_iff.1 e2⟩
    rw [h.tokens]; simp [e1]

theorem posWords_kept {os : Str} {ps qs : List Piece} (hp : ∀ p ∈ ps, p.OK os) (hq : ∀ p ∈ qs, p.OK os)
    (h : kept os ps = kept os qs) : posWords ps = posWords qs := by
  have key : ∀ {rs : List Piece}, (∀ p ∈ rs, p.OK os) →
      posWords rs = ((kept os rs).filter (fun t => !dash t)).map (·.value) := by
    intro rs
    induction rs with
    | nil => intro _; rfl
    | cons p rs ih =>
      intro hr
      have ih := ih (fun q hq => hr q (.tail _ hq))
      have hp := hr p (.head _)
      rw [kept_cons, List.filter_append, List.map_append, ← ih]
      cases p with
      | space t => rfl
      | withArg t s x => rfl
      | word t => simp [posWords, Piece.kept, not_dash hp.2]
      | flag t =>
        have hd := dash_iff.2 hp.2.1
        simp only [posWords, Piece.kept]
        have : ∀ l : List Token, (l = [] ∨ l = [t]) → (l.filter (fun t => !dash t)).map (·.value) = [] := by
          rintro l (rfl | rfl)
          · rfl
          · simp [hd]
        rw [this]
        · rfl
        · split
          · split
            · exact Or.inl rfl
            · exact Or.inr rfl
          · exact Or.inr rfl
  rw [key hp, key hq, h]

theorem get_error [Uni] {o : Opts} {c : Char} {e : Err} (h : get o c = .error e) : e = .valueError := by
  have key : ∀ value : Str, (if value.isEmpty then Except.ok (some (Val.bool true)) else (readValue value).map some) =
      .error e → e = .valueError := by
    intro value h
    split at h
    · cases h
    · cases hr : readValue value with
      | error e' => rw [hr] at h; cases h; exact readValue_error hr
      | ok v => rw [hr] at h; cases h
  unfold get at h
  split at h
  · split at h <;> cases h
  · exact key _ h

theorem getItem_valid [Uni] {o : Obj} {c : Char} (hc : valid o.opts.optstring c = true) {e : Err}
    (h : o.getItem c = .error e) : e = .valueError := by
  unfold Obj.getItem at h
  split at h
  · cases h
  · rw [if_pos hc] at h
    exact get_error h

theorem keys_valid {o : Opts} {c : Char} (h : c ∈ keys o) : valid o.optstring c = true := by
  obtain ⟨h1, h2, _⟩ := (C31_keys o c).1 h
  exact valid_iff.2 ⟨h1, h2⟩

theorem keys_find {o : Opts} {c : Char} (h : c ∈ keys o) : (find o c).1.isSome = true := by
  unfold keys at h
  exact (List.mem_filter.1 h).2

theorem popItem_cases [Uni] (o : Obj) :
    (keys o.opts = [] ∧ o.popItem = (o, .error .keyError)) ∨
    ∃ c r, keys o.opts = c :: r ∧
      ((∃ v, o.getItem c = .ok v ∧ o.popItem = ({ o with opts := del o.opts c }, .ok (c, v))) ∨
       (o.getItem c = .error .valueError ∧ o.popItem = (o, .error .valueError))) := by
  unfold Obj.popItem
  cases hk : keys o.opts with
  | nil => exact Or.inl ⟨rfl, rfl⟩
  | cons c r =>
    refine Or.inr ⟨c, r, rfl, ?_⟩
    have hv := keys_valid (o := o.opts) (c := c) (by rw [hk]; exact .head _)
    cases hg : o.getItem c with
    | error e =>
      have := getItem_valid hv hg
      subst this
      exact Or.inr ⟨rfl, by simp [hg]⟩
    | ok v =>
      refine Or.inl ⟨v, rfl, ?_⟩
      simp [hg, Obj.delItem, hv]

theorem clearLoop_spec [Uni] {n : Nat} : ∀ (o : Obj), o.opts.tokens.length < n →
    ∃ p e, o.clearLoop n = (p, e) ∧ p.attrs = o.attrs ∧ p.opts.optstring = o.opts.optstring ∧
      p.opts.defaults = o.opts.defaults ∧ p.opts.tokens.Sublist o.opts.tokens ∧
      ((e = none ∧ keys p.opts = []) ∨
        (e = some .valueError ∧ ∃ c r, keys p.opts = c :: r ∧ p.getItem c = .error .valueError)) ∧
      ∀ ps, Reads o.opts ps → ∃ ps', Reads p.opts ps' ∧ kept o.opts.optstring ps' = kept o.opts.optstring ps := by
  induction n with
  | zero => intro o h; omega
  | succ n ih =>
    intro o hl
    rcases popItem_cases o with ⟨h1, h2⟩ | ⟨c, r, h1, ⟨v, h2, h3⟩ | ⟨h2, h3⟩⟩
    · exact ⟨o, none, by simp [Obj.clearLoop, h2], rfl, rfl, rfl, List.Sublist.refl _, Or.inl ⟨rfl, h1⟩,
        fun ps h => ⟨ps, h, rfl⟩⟩
    · have hm : c ∈ keys o.opts := by rw [h1]; exact .head _
      have hs := del_shorter (keys_find hm)
      obtain ⟨p, e, g1, g2, g3, g4, g5, g6, g7⟩ := ih { o with opts := del o.opts c } (by simp only; omega)
      refine ⟨p, e, by simp only [Obj.clearLoop, h3]; exact g1, g2, g3.trans (del_frame _ _).1,
        g4.trans (del_frame _ _).2, g5.trans (del_sublist _ _), g6, ?_⟩
      intro ps h
      have hv := keys_valid hm
      obtain ⟨ps1, q1, q2, _⟩ := del_kept h hv ((mem_keys_given h hv).1 hm)
      obtain ⟨ps', r1, r2⟩ := g7 ps1 q1
      simp only [(del_frame _ _).1] at r2
      exact ⟨ps', r1, r2.trans q2⟩
    · exact ⟨o, some .valueError, by simp [Obj.clearLoop, h3], rfl, rfl, rfl, List.Sublist.refl _,
        Or.inr ⟨rfl, c, r, h1, h2⟩, fun ps h => ⟨ps, h, rfl⟩⟩

end Specfile.Options
