import Verif.Proof.OptionsMapping
/-
C32 (continued) and C89: options as a mapping, their positional arguments as a list.
-/
namespace Specfile.Props
open Py Spec Options

/-! ## C32: the list methods of positional arguments -/

/-- C32: `positional.pop(i)` gives the value at the index and removes it, and nothing else changes; if there is no such
argument or it cannot be read, nothing changes at all. -/
theorem C32_pop [Uni] {o : Opts} {ps : List Piece} (h : Reads o ps) (i : Int) :
    (pyIndex (posWords ps).length i = none → posPop o i = (o, .error .indexError)) ∧
    ∀ (k : Nat) s, pyIndex (posWords ps).length i = some k → (posWords ps)[k]? = some s →
      (¬ ReadableValue s → posPop o i = (o, .error .valueError)) ∧
      ∀ v, readValue s = .ok v → ∃ o' ps', posPop o i = (o', .ok v) ∧ Reads o' ps' ∧
        posWords ps' = (posWords ps).eraseIdx k ∧ SameOptions o o' := by
  rw [← positionalValues_eq h]
  constructor
  · intro hi
    rw [length_positionals] at hi
    unfold posPop posGet
    rw [hi]
  · intro k s hi hs
    obtain ⟨h1, h2⟩ := posPop_nat h hi hs
    constructor
    · intro hn
      cases hr : readValue s with
      | ok v => exact absurd (readable_iff.2 ⟨v, hr⟩) hn
      | error e =>
        have := readValue_error hr
        subst this
        exact h2 _ hr
    · intro v hv
      obtain ⟨o', ps', g1, g2, g3, g4⟩ := h1 v hv
      exact ⟨o', ps', g1, g2, by rw [← positionalValues_eq g2, g3], g4⟩

/-- C32: `positional.clear()` always ends. It removes the arguments from the last one on, leaves the options alone, and
stops with `ValueError` at one that cannot be read; if every argument can be read, none is left. -/
theorem C32_clear [Uni] {o : Opts} {ps : List Piece} (h : Reads o ps) :
    ∃ o' ps' k e, posClear o = (o', e) ∧ Reads o' ps' ∧ SameOptions o o' ∧ posWords ps' = (posWords ps).take k ∧
      (∀ s ∈ (posWords ps).drop k, ReadableValue s) ∧
      ((e = none ∧ k = 0) ∨
        (e = some .valueError ∧ ∃ s, (posWords ps').getLast? = some s ∧ ¬ ReadableValue s)) := by
  have hl : (positionalValues o).length < o.tokens.length + 1 := by
    rw [positionalValues_eq h, h.tokens]
    have : ∀ ps : List Piece, (posWords ps).length ≤ (toks ps).length := by
      intro ps
      induction ps with
      | nil => simp [posWords]
      | cons p ps ih =>
        rw [toks_cons, List.length_append]
        cases p <;> simp [posWords, Piece.toks] <;> omega
    have := this ps
    omega
  obtain ⟨o', ps', k, e, h1, h2, h3, h4, h5, h6⟩ := posClearLoop_spec h hl
  rw [positionalValues_eq h] at h4 h5
  rw [positionalValues_eq h2] at h4 h6
  refine ⟨o', ps', k, e, h1, h2, h3, h4, h5, ?_⟩
  rcases h6 with h6 | ⟨h6, s, h7, h8, h9⟩
  · exact Or.inl h6
  · refine Or.inr ⟨h6, s, ?_, h9⟩
    rw [List.getLast?_eq_getElem?, ← h7]
    congr 1
    have := (List.getElem?_eq_some_iff.1 h7).1
    have h10 := congrArg List.length h4
    rw [List.length_take] at h10
    omega

/-- C32: `positional.extend(values)` adds the values at the end and leaves the options alone; `append` is the case of one
value. Missing: values starting with a dash. -/
theorem C32_extend_partial [Uni] {o : Opts} {ps : List Piece} (h : Reads o ps) {vs : List Val}
    (hv : ∀ v ∈ vs, v.text.head? ≠ some '-') :
    ∃ o' ps', posExtend o vs = (o', none) ∧ Reads o' ps' ∧ posWords ps' = posWords ps ++ vs.map Val.text ∧
      SameOptions o o' := by
  obtain ⟨o', ps', h1, h2, h3, h4⟩ := posExtend_spec h hv
  rw [positionalValues_eq h, positionalValues_eq h2] at h3
  exact ⟨o', ps', h1, h2, h3, h4⟩

/-- C32: `options.positional = values` makes the values the positional arguments and leaves the options alone.
Missing: values starting with a dash; the positional arguments of the same options as values, see
`C32_assign_violation`; arguments that cannot be read, see `C32_clear`. -/
theorem C32_assign_partial [Uni] {o : Opts} {ps : List Piece} (h : Reads o ps) (hr : ∀ s ∈ posWords ps, ReadableValue s)
    {vs : List Val} (hv : ∀ v ∈ vs, v.text.head? ≠ some '-') :
    ∃ o' ps', posAssign o (.values vs) = (o', none) ∧ Reads o' ps' ∧ posWords ps' = vs.map Val.text ∧
      SameOptions o o' := by
  obtain ⟨p, ps1, k, e, h1, h2, h3, h4, h5, h6⟩ := C32_clear h
  rcases h6 with ⟨rfl, rfl⟩ | ⟨_, s, h7, h8⟩
  · obtain ⟨o', ps', g1, g2, g3, g4⟩ := C32_extend_partial h2 hv
    refine ⟨o', ps', ?_, g2, ?_, h3.trans g4⟩
    · unfold posAssign; rw [h1]; exact g1
    · rw [g3, h4]; simp
  · refine absurd (hr s ?_) h8
    have := List.mem_of_getLast? h7
    rw [h4] at this
    exact List.mem_of_mem_take this

/-- What is wrong with assigning: `options.positional = options.positional` and, whatever the values are,
`options.positional += values` remove all positional arguments. -/
theorem C32_assign_violation [Uni] {o : Opts} {ps : List Piece} (h : Reads o ps) (hr : ∀ s ∈ posWords ps, ReadableValue s) :
    (∃ o', posAssign o .own = (o', none) ∧ positionalValues o' = []) ∧
    ∀ vs : List Val, (∀ v ∈ vs, v.text.head? ≠ some '-' ∧ ReadableValue v.text) →
      ∃ o', posIadd o vs = (o', none) ∧ positionalValues o' = [] := by
  have own : ∀ {o : Opts} {ps : List Piece}, Reads o ps → (∀ s ∈ posWords ps, ReadableValue s) →
      ∃ o', posAssign o .own = (o', none) ∧ positionalValues o' = [] := by
    intro o ps h hr
    obtain ⟨p, ps1, k, e, h1, h2, h3, h4, h5, h6⟩ := C32_clear h
    rcases h6 with ⟨rfl, rfl⟩ | ⟨_, s, h7, h8⟩
    · have hnil : positionalValues p = [] := by rw [positionalValues_eq h2, h4]; simp
      have hidx : positionalIdx p = [] := by
        apply List.length_eq_zero_iff.1
        rw [← length_positionals, hnil]; rfl
      refine ⟨p, ?_, hnil⟩
      unfold posAssign
      rw [h1]
      simp [hidx, readTokens, posExtend]
    · refine absurd (hr s ?_) h8
      have := List.mem_of_getLast? h7
      rw [h4] at this
      exact List.mem_of_mem_take this
  refine ⟨own h hr, ?_⟩
  intro vs hv
  obtain ⟨p, ps1, h1, h2, h3, h4⟩ := C32_extend_partial h (fun v hm => (hv v hm).1)
  obtain ⟨o', g1, g2⟩ := own h2 (by
    intro s hs
    rw [h3] at hs
    rcases List.mem_append.1 hs with hs | hs
    · exact hr s hs
    · obtain ⟨v, hm, rfl⟩ := List.mem_map.1 hs
      exact (hv v hm).2)
  exact ⟨o', by unfold posIadd; rw [h1]; exact g1, g2⟩

/-- C32: reading a slice gives the values at its positions. It raises `ValueError` exactly for a step of zero or if one
of them cannot be read. -/
theorem C32_get_slice [Uni] {o : Opts} {ps : List Piece} (h : Reads o ps) (start stop step : Option Int) :
    (sliceIndices (posWords ps).length start stop step = .error .valueError →
      posGetSlice o start stop step = .error .valueError) ∧
    ∀ ks, sliceIndices (posWords ps).length start stop step = .ok ks →
      (∀ vs, posGetSlice o start stop step = .ok vs ↔ vs.length = ks.length ∧
        ∀ (j k : Nat) v s, ks[j]? = some k → vs[j]? = some v → (posWords ps)[k]? = some s → readValue s = .ok v) ∧
      (∀ e, posGetSlice o start stop step = .error e → e = .valueError ∧
        ∃ k ∈ ks, ∃ s, (posWords ps)[k]? = some s ∧ ¬ ReadableValue s) := by
  rw [← positionalValues_eq h, length_positionals]
  constructor
  · intro hs
    unfold posGetSlice sliceTokens
    rw [hs]
  · intro ks hs
    have hb := (sliceIndices_range hs).2
    have e : posGetSlice o start stop step =
        readTokens o.tokens (ks.map (fun k => (positionalIdx o).getD k 0)) := by
      unfold posGetSlice sliceTokens
      rw [hs]
    rw [e]
    constructor
    · intro vs
      rw [readTokens_ok]
      simp only [List.length_map]
      constructor
      · rintro ⟨h1, h2⟩
        refine ⟨h1, ?_⟩
        intro j k v s hj hv hk
        have := h2 j _ v (by simp [hj]; rfl) hv
        have hval := valueAt_idx o k (hb k (List.mem_of_getElem? hj))
        rw [hk] at hval
        simp only [Option.some.injEq] at hval
        rw [← hval]
        simpa using this
      · rintro ⟨h1, h2⟩
        refine ⟨h1, ?_⟩
        intro j k v hj hv
        rw [List.getElem?_map] at hj
        obtain ⟨k', hk', rfl⟩ := Option.map_eq_some_iff.1 hj
        exact h2 j k' v _ hk' hv (valueAt_idx o k' (hb k' (List.mem_of_getElem? hk'))).symm
    · intro er her
      obtain ⟨h1, k, h2, h3⟩ := readTokens_error her
      obtain ⟨k', hk', rfl⟩ := List.mem_map.1 h2
      exact ⟨h1, k', hk', _, (valueAt_idx o k' (hb k' hk')).symm, h3⟩

/-- C32: assigning to a slice replaces the arguments at its positions one by one and leaves everything else alone. If
there are fewer values than positions, the first ones are replaced and `IndexError` is raised. Missing: values starting
with a dash; values in excess are ignored, see `C32_set_slice_violation`. -/
theorem C32_set_slice_partial [Uni] {o : Opts} {ps : List Piece} (h : Reads o ps) (start stop step : Option Int)
    {ks : List Nat} (hs : sliceIndices (posWords ps).length start stop step = .ok ks) {vs : List Val}
    (hv : ∀ v ∈ vs, v.text.head? ≠ some '-') :
    ∃ o' ps', posSetSlice o start stop step vs = (o', if ks.length ≤ vs.length then none else some .indexError) ∧
      Reads o' ps' ∧ (posWords ps').length = (posWords ps).length ∧
      (∀ (j k : Nat) v, ks[j]? = some k → vs[j]? = some v → (posWords ps')[k]? = some v.text) ∧
      (∀ k : Nat, (∀ j, ks[j]? = some k → vs.length ≤ j) → (posWords ps')[k]? = (posWords ps)[k]?) ∧
      SameOptions o o' := by
  rw [← positionalValues_eq h] at hs ⊢
  rw [length_positionals] at hs
  obtain ⟨h1, h2⟩ := sliceIndices_range hs
  let r := setTokens o.tokens (ks.map (fun k => (positionalIdx o).getD k 0)) vs
  obtain ⟨g1, ⟨ps', g2⟩, g3, g4, g5, g6⟩ := setTokens_spec h h1 h2 hv (o' := { o with tokens := r.1 }) (e := r.2) rfl rfl rfl
  refine ⟨{ o with tokens := r.1 }, ps', ?_, g2, ?_⟩
  · unfold posSetSlice sliceTokens
    rw [hs]
    exact Prod.ext rfl g1
  · rw [← positionalValues_eq g2]
    exact ⟨g3, g4, g5, g6⟩

/-- What is wrong with assigning to a slice: values in excess are silently dropped, where a list would grow; and nothing
is removed if there are fewer. -/
theorem C32_set_slice_violation :
    let o : Opts := ⟨[⟨.default, s% "a"⟩], [], []⟩
    positionalValues (posSetSlice o none none none [.str (s% "b"), .str (s% "c")]).1 = [s% "b"] ∧
    (posSetSlice o none none none [.str (s% "b"), .str (s% "c")]).2 = none ∧
    positionalValues (posSetSlice o none none none []).1 = [s% "a"] ∧
    (posSetSlice o none none none []).2 = some .indexError := by
  decide +kernel

/-- C32: deleting a slice with a positive step removes the arguments at its positions and leaves everything else alone.
Missing: negative steps, see `C32_delete_slice_violation`. -/
theorem C32_delete_slice_partial [Uni] {o : Opts} {ps : List Piece} (h : Reads o ps) (start stop step : Option Int)
    (hp : 0 < step.getD 1) {ks : List Nat} (hs : sliceIndices (posWords ps).length start stop step = .ok ks) :
    ∃ o' ps', posDelSlice o start stop step = (o', none) ∧ Reads o' ps' ∧ posWords ps' = withoutAt ks (posWords ps) ∧
      SameOptions o o' := by
  rw [← positionalValues_eq h] at hs ⊢
  rw [length_positionals] at hs
  obtain ⟨h1, h2⟩ := increasing_pairwise' (sliceIndices_increasing hp hs)
  obtain ⟨ts, g1, ⟨ps', g2⟩, g3, g4⟩ := delTokens_spec (ks := ks.reverse) h
    (by rw [List.pairwise_reverse]; exact h1) (by simpa using h2)
  rw [withoutAt_congr _ (js := ks) (by simp)] at g3
  refine ⟨_, ps', ?_, g2, by rw [← positionalValues_eq g2, g3], g4⟩
  unfold posDelSlice sliceTokens
  rw [hs]
  simp only [← List.map_reverse, g1]

/-- What is wrong with deleting a slice: with a negative step other arguments are removed than the slice denotes, or
`IndexError` is raised when part of them are gone. -/
theorem C32_delete_slice_violation :
    let w : Token := ⟨.whitespace, s% " "⟩
    let o : Opts := ⟨[⟨.default, s% "a"⟩, w, ⟨.default, s% "b"⟩, w, ⟨.default, s% "c"⟩, w, ⟨.default, s% "d"⟩], [], []⟩
    sliceIndices 4 (some 2) none (some (-2)) = .ok [2, 0] ∧
    positionalValues (posDelSlice o (some 2) none (some (-2))).1 = [s% "b", s% "c"] ∧
    (posDelSlice o (some 2) none (some (-2))).2 = none ∧
    positionalValues (posDelSlice o none none (some (-1))).1 = [s% "b", s% "d"] ∧
    tokensStr (posDelSlice o none none (some (-1))).1.tokens = s% "b d" ∧
    (posDelSlice o none none (some (-1))).2 = some .indexError := by
  decide +kernel

section
attribute [local instance] asciiUni

/-- `1 -q -n foo x 2` -/
def samplePieces : List Piece :=
  [.word ⟨.default, s% "1"⟩, .space ⟨.whitespace, s% " "⟩, .flag ⟨.default, s% "-q"⟩, .space ⟨.whitespace, s% " "⟩,
    .withArg ⟨.default, s% "-n"⟩ (some ⟨.whitespace, s% " "⟩) ⟨.default, s% "foo"⟩, .space ⟨.whitespace, s% " "⟩,
    .word ⟨.default, s% "x"⟩, .space ⟨.whitespace, s% " "⟩, .word ⟨.default, s% "2"⟩]

def sampleOptions : Opts := ⟨toks samplePieces, s% "n:q", []⟩

theorem sampleOptions_reads : Reads sampleOptions samplePieces := by
  refine ⟨rfl, ?_⟩
  have hn : TakesArg (s% "n:q") 'n' := ⟨by decide, [], ['q'], rfl, by simp⟩
  have hq : ¬ TakesArg (s% "n:q") 'q' := by
    rw [← requiresArg_iff (by decide)]; decide
  intro p hp
  simp [samplePieces] at hp
  rcases hp with rfl | rfl | rfl | rfl | rfl | rfl | rfl | rfl | rfl
  · exact ⟨by simp, by simp [Dash]⟩
  · exact ⟨rfl, by simp [Dash]⟩
  · refine ⟨by simp, ⟨_, rfl⟩, ?_⟩
    rintro c hc h
    simp at h
    subst h
    exact hq hc
  · exact ⟨rfl, by simp [Dash]⟩
  · exact ⟨by simp, ⟨'n', hn, rfl⟩, by simp [Dash], by simp, by simp [Dash]⟩
  · exact ⟨rfl, by simp [Dash]⟩
  · exact ⟨by simp, by simp [Dash]⟩
  · exact ⟨rfl, by simp [Dash]⟩
  · exact ⟨by simp, by simp [Dash]⟩

example : posWords samplePieces = [s% "1", s% "x", s% "2"] := rfl
example : ∀ s ∈ posWords samplePieces, ReadableValue s := by
  intro s hs
  simp [samplePieces, posWords] at hs
  rcases hs with rfl | rfl | rfl <;> exact readable_iff.2 ⟨_, rfl⟩

example : tokensStr (posPop sampleOptions (-2)).1.tokens = s% "1 -q -n foo 2" := by decide +kernel
example : tokensStr (posClear sampleOptions).1.tokens = s% "-q -n foo" := by decide +kernel
example : tokensStr (posAssign sampleOptions (.values [.int 7, .str (s% "a b")])).1.tokens = s% "-q -n foo 7 \"a b\"" := by
  decide +kernel
example : tokensStr (posIadd sampleOptions [.int 7]).1.tokens = s% "-q -n foo" := by decide +kernel
example : posGetSlice sampleOptions none none (some (-2)) = .ok [.int 2, .int 1] := by decide +kernel
example : tokensStr (posSetSlice sampleOptions (some 1) none none [.int 7, .int 8]).1.tokens = s% "1 -q -n foo 7 8" := by
  decide +kernel
example : tokensStr (posDelSlice sampleOptions none none (some 2)).1.tokens = s% "-q -n foo x" := by decide +kernel

end

/-! ## C89: options as a dictionary -/

/-- C89: `options[key]` raises `KeyError` exactly for a key that is no recognized option and has not been set; the only
other error is `ValueError`, for a value that cannot be read. -/
theorem C89_getitem_errors [Uni] (o : Obj) (c : Char) :
    (o.getItem c = .error .keyError ↔ (c ∉ o.opts.optstring ∨ c = ':') ∧ o.attrs c = none) ∧
    ∀ e, o.getItem c = .error e → e = .keyError ∨ e = .valueError := by
  have hv : valid o.opts.optstring c = true ↔ ¬ (c ∉ o.opts.optstring ∨ c = ':') := by
    rw [valid_iff]
    constructor
    · rintro ⟨h1, h2⟩ (h | h)
      · exact h h1
      · exact h2 h
    · intro h
      refine ⟨Decidable.not_not.1 (fun hn => h (Or.inl hn)), fun hn => h (Or.inr hn)⟩
  unfold Obj.getItem
  cases ha : o.attrs c with
  | some v => simp
  | none =>
    by_cases hc : valid o.opts.optstring c = true
    · simp only [hc, if_true]
      refine ⟨?_, fun e he => Or.inr (get_error he)⟩
      constructor
      · intro h; cases get_error h
      · intro h; exact absurd h.1 (hv.1 hc)
    · simp only [hc, Bool.false_eq_true, if_false, true_iff, and_true, Except.error.injEq]
      exact ⟨Decidable.not_not.1 (fun h => hc (hv.2 h)), fun e he => Or.inl he.symm⟩

/-- C89: after `options[key] = value` for an option that takes an argument, the key is iterated and `options[key]` is the
value (a numeric text as a number); no other key is affected. A flag raises `OptionsException` and nothing changes.
Missing: as in `C29_set_get_partial` and `C29_set_others_partial`. -/
theorem C89_setitem_partial [Uni] (o : Obj) {c : Char} (h1 : c ∈ o.opts.optstring) (h2 : c ≠ ':') (ha : o.attrs c = none)
    {v : Val} (hb : ∀ b, v ≠ .bool b) (hv0 : v.text ≠ []) (hv1 : v.text.head? ≠ some '-') :
    (¬ TakesArg o.opts.optstring c → o.setItem c (some v) = (o, some .optionsException)) ∧
    (TakesArg o.opts.optstring c → ∃ p, o.setItem c (some v) = (p, none) ∧
      c ∈ keys p.opts ∧
      (∀ n, v = .int n → p.getItem c = .ok (some (.int n))) ∧
      (∀ s, v = .str s → p.getItem c = (readValue s).map some) ∧
      ((∀ t ∈ o.opts.tokens, t.type = .whitespace → ¬ Dash t) →
        (∀ t, o.opts.tokens.getLast? = some t → t.type ≠ .whitespace) →
        ∀ d, d ≠ c → p.getItem d = o.getItem d)) := by
  have hc := valid_iff.2 ⟨h1, h2⟩
  rw [← requiresArg_iff h2]
  unfold Obj.setItem
  rw [if_pos hc]
  constructor
  · intro hr
    unfold Options.set
    cases v with
    | bool b => exact absurd rfl (hb b)
    | int n => simp [hr]
    | str s => simp [hr]
  · intro hr
    cases hs : Options.set o.opts c (some v) with
    | error e =>
      unfold Options.set at hs
      cases v with
      | bool b => exact absurd rfl (hb b)
      | int n => simp [hr] at hs
      | str s => simp [hr] at hs
    | ok p =>
      have hos : p.optstring = o.opts.optstring := set_optstring hs
      have hg : Obj.getItem ⟨p, o.attrs⟩ c = get p c := by
        unfold Obj.getItem
        simp only [ha, hos, hc, if_true]
      have hr' := C29_set_get_partial hv0 hv1 hs hb
      refine ⟨_, rfl, ?_, ?_, ?_, ?_⟩
      · have hat : ArgText v.text := by
          refine ⟨hv0, ?_⟩
          cases ht : v.text with
          | nil => exact absurd ht hv0
          | cons d r => rw [ht] at hv1; simp at hv1; simp [startsWith, List.isPrefixOf, Ne.symm hv1]
        obtain ⟨t, ht, ho⟩ : ∃ t ∈ p.tokens, isOpt c t = true := by
          cases hin : optText o.opts c with
          | none =>
            obtain ⟨⟨t, m, e1, e2, _⟩, _⟩ := set_appended hr hb hat hin (set_ok hs)
            exact ⟨t, by rw [e1]; simp, e2⟩
          | some x =>
            obtain ⟨⟨r⟩, _⟩ := set_replaced hr hb hat (by simp [hin]) (set_ok hs)
            exact ⟨r.t', by rw [r.after]; simp, r.opt'⟩
        rw [C31_keys]
        simp only [hos]
        exact ⟨h1, h2, t, ht, isOpt_iff.1 ho⟩
      · rintro n rfl
        exact hg.trans hr'
      · rintro s rfl
        exact hg.trans hr'
      · intro h3 h4 d hd
        unfold Obj.getItem
        simp only [hos]
        rw [C29_set_others_partial hd h3 h4 hv0 hv1 hs hb]

/-- C89: a key that is iterated is contained, unless reading its value fails; only what raises `KeyError` is not
contained. Missing: that nothing else is contained, see `C89_contains_violation`. -/
theorem C89_contains_partial [Uni] (o : Obj) (c : Char) :
    (c ∈ keys o.opts → o.contains c = .ok true ∨ (o.contains c = .error .valueError ∧ o.getItem c = .error .valueError)) ∧
    (o.contains c = .ok false ↔ (c ∉ o.opts.optstring ∨ c = ':') ∧ o.attrs c = none) := by
  constructor
  · intro hk
    unfold Obj.contains
    cases hg : o.getItem c with
    | ok v => exact Or.inl rfl
    | error e =>
      have := getItem_valid (keys_valid hk) hg
      subst this
      exact Or.inr ⟨rfl, rfl⟩
  · rw [← (C89_getitem_errors o c).1]
    unfold Obj.contains
    cases hg : o.getItem c with
    | ok v => simp
    | error e => cases e <;> simp

/-- What is wrong with `in` and `get`: every recognized option that is not there is contained all the same, its default is
never used and never set; a key that is no option can be set without an error, is contained from then on, but is neither
iterated nor written. -/
theorem C89_contains_violation [Uni] (o : Obj) (c : Char) (d : Option Val) :
    (c ∈ o.opts.optstring → c ≠ ':' → o.attrs c = none → (∀ t ∈ o.opts.tokens, ∀ v, t.value ≠ '-' :: c :: v) →
      c ∉ keys o.opts ∧ o.contains c = .ok true ∧ o.getDefault c d = o.getItem c ∧ (o.setDefault c d).1 = o) ∧
    (c ∉ o.opts.optstring → ∃ p, o.setItem c d = (p, none) ∧ p.contains c = .ok true ∧ p.getItem c = .ok d ∧
      c ∉ keys p.opts ∧ p.opts.tokens = o.opts.tokens) := by
  constructor
  · intro h1 h2 h3 h4
    have hk : c ∉ keys o.opts := by
      rw [C31_keys]
      rintro ⟨_, _, t, ht, v, hv⟩
      exact h4 t ht v hv
    have hf : find o.opts c = (none, none) := by
      apply find_none
      intro t ht
      cases hi : isOpt c t with
      | false => rfl
      | true => obtain ⟨v, hv⟩ := isOpt_iff.1 hi; exact absurd hv (h4 t ht v)
    obtain ⟨v, hv⟩ : ∃ v, o.getItem c = .ok v := by
      unfold Obj.getItem
      rw [h3]
      simp only
      rw [if_pos (valid_iff.2 ⟨h1, h2⟩)]
      unfold Options.get
      rw [hf]
      simp only
      split <;> exact ⟨_, rfl⟩
    refine ⟨hk, ?_, ?_, ?_⟩
    · unfold Obj.contains; rw [hv]
    · unfold Obj.getDefault; rw [hv]
    · unfold Obj.setDefault; rw [hv]
  · intro h
    have hc : ¬ valid o.opts.optstring c = true := fun hc => h (valid_iff.1 hc).1
    refine ⟨{ o with attrs := fun x => if x = c then some d else o.attrs x }, ?_, ?_, ?_, ?_, rfl⟩
    · unfold Obj.setItem; rw [if_neg hc]
    · simp [Obj.contains, Obj.getItem]
    · simp [Obj.getItem]
    · rw [C31_keys]; exact fun hk => h hk.1

/-- C89: `options.get(key, default)` and `options.setdefault(key, default)` give what `options[key]` gives and change nothing,
unless that raises `KeyError`; then they give the default, and after `setdefault` it is what `options[key]` gives, while
all other keys and the written options stay the same. -/
theorem C89_defaults [Uni] (o : Obj) (c : Char) (d : Option Val) :
    (∀ v, o.getItem c = .ok v → o.getDefault c d = .ok v ∧ o.setDefault c d = (o, .ok v)) ∧
    (∀ e, o.getItem c = .error e → e ≠ .keyError → o.getDefault c d = .error e ∧ o.setDefault c d = (o, .error e)) ∧
    (o.getItem c = .error .keyError → o.getDefault c d = .ok d ∧ ∃ p, o.setDefault c d = (p, .ok d) ∧
      p.getItem c = .ok d ∧ p.opts = o.opts ∧ ∀ k, k ≠ c → p.getItem k = o.getItem k) := by
  refine ⟨?_, ?_, ?_⟩
  · intro v hv
    simp [Obj.getDefault, Obj.setDefault, hv]
  · intro e he hn
    cases e <;> first | exact absurd rfl hn | simp [Obj.getDefault, Obj.setDefault, he]
  · intro hk
    obtain ⟨h1, h2⟩ := (C89_getitem_errors o c).1.1 hk
    have hv : valid o.opts.optstring c = false := by
      cases hc : valid o.opts.optstring c with
      | false => rfl
      | true =>
        obtain ⟨a, b⟩ := valid_iff.1 hc
        rcases h1 with h1 | h1
        · exact absurd a h1
        · exact absurd h1 b
    refine ⟨by simp [Obj.getDefault, hk], ⟨o.opts, fun k => if k = c then some d else o.attrs k⟩, ?_, ?_, rfl, ?_⟩
    · simp [Obj.setDefault, hk, Obj.setItem, hv]
    · simp [Obj.getItem]
    · intro k hne
      simp [Obj.getItem, hne]

/-- C89: `options.pop(key)` of a recognized option gives what `options[key]` gives and removes the option as `del` does;
if reading fails, nothing changes. -/
theorem C89_pop [Uni] (o : Obj) {c : Char} (h1 : c ∈ o.opts.optstring) (h2 : c ≠ ':') :
    (∀ v, o.getItem c = .ok v → o.pop c = (⟨del o.opts c, o.attrs⟩, .ok v)) ∧
    (∀ e, o.getItem c = .error e → e = .valueError ∧ o.pop c = (o, .error .valueError)) := by
  have hc := valid_iff.2 ⟨h1, h2⟩
  constructor
  · intro v hv
    simp [Obj.pop, hv, Obj.delItem, hc]
  · intro e he
    have := getItem_valid hc he
    subst this
    exact ⟨rfl, by simp [Obj.pop, he]⟩

/-- C89: a key that is no recognized option: after `options[key] = value`, `options[key]` is the value; `del` and `pop` raise
`KeyError` and change nothing if it has not been set, otherwise the key is gone and `pop` gives its value. No other key is
affected, nor are the written options. -/
theorem C89_unrecognized [Uni] (o : Obj) {c : Char} (h : c ∉ o.opts.optstring ∨ c = ':') :
    (∀ v, ∃ p, o.setItem c v = (p, none) ∧ p.getItem c = .ok v ∧ p.opts = o.opts ∧ ∀ k, k ≠ c → p.getItem k = o.getItem k) ∧
    (o.getItem c = .error .keyError → o.delItem c = (o, some .keyError) ∧ o.pop c = (o, .error .keyError)) ∧
    (∀ v, o.getItem c = .ok v → ∃ p, o.delItem c = (p, none) ∧ o.pop c = (p, .ok v) ∧
      p.getItem c = .error .keyError ∧ p.opts = o.opts ∧ ∀ k, k ≠ c → p.getItem k = o.getItem k) := by
  have hc : valid o.opts.optstring c = false := by
    rw [Bool.eq_false_iff, ne_eq, valid_iff]
    rintro ⟨h1, h2⟩
    rcases h with h | h
    · exact h h1
    · exact h2 h
  refine ⟨fun v => ⟨⟨o.opts, fun d => if d = c then some v else o.attrs d⟩, by simp [Obj.setItem, hc], ?_, rfl, ?_⟩, ?_, ?_⟩
  · simp [Obj.getItem]
  · intro k hk; simp [Obj.getItem, hk]
  · intro hg
    have ha : o.attrs c = none := ((C89_getitem_errors o c).1.1 hg).2
    simp [Obj.delItem, Obj.pop, hc, ha, hg]
  · intro v hg
    cases ha : o.attrs c with
    | none => rw [(C89_getitem_errors o c).1.2 ⟨h, ha⟩] at hg; cases hg
    | some w =>
      refine ⟨⟨o.opts, fun d => if d = c then none else o.attrs d⟩, ?_, ?_, ?_, rfl, ?_⟩
      · simp [Obj.delItem, hc, ha]
      · simp [Obj.delItem, Obj.pop, hc, ha, hg]
      · simp [Obj.getItem, hc]
      · intro k hk; simp [Obj.getItem, hk]

/-- C89: `options.popitem()` raises `KeyError` exactly if nothing is iterated. Otherwise it gives the first key and its
value, and what is left are the other options as they were and all positional arguments and unrecognized options; if the
value cannot be read, nothing changes. Missing: that the key is gone, see `C30_delete_violation`. -/
theorem C89_popitem_partial [Uni] (o : Obj) :
    (o.popItem.2 = .error .keyError ↔ keys o.opts = []) ∧
    (∀ e, o.popItem.2 = .error e → o.popItem.1 = o ∧ (e = .keyError ∨ e = .valueError)) ∧
    ∀ c v, o.popItem.2 = .ok (c, v) → (keys o.opts).head? = some c ∧ o.getItem c = .ok v ∧
      o.popItem.1.attrs = o.attrs ∧ o.popItem.1.opts.tokens.length < o.opts.tokens.length ∧
      ∀ ps, Reads o.opts ps → ∃ ps', Reads o.popItem.1.opts ps' ∧
        kept o.opts.optstring ps' = kept o.opts.optstring ps ∧ posWords ps' = posWords ps ∧
        ∀ d, d ≠ c → given d ps' = given d ps := by
  rcases popItem_cases o with ⟨h1, h2⟩ | ⟨c, r, h1, ⟨v, h2, h3⟩ | ⟨h2, h3⟩⟩
  · rw [h2]
    refine ⟨by simp [h1], ?_, ?_⟩
    · intro e he; cases he; exact ⟨rfl, Or.inl rfl⟩
    · intro c v h; cases h
  · rw [h3]
    refine ⟨by simp [h1], ?_, ?_⟩
    · intro e he; cases he
    · intro c' v' he
      cases he
      have hm : c ∈ keys o.opts := by rw [h1]; exact .head _
      refine ⟨by simp [h1], h2, rfl, del_shorter (keys_find hm), ?_⟩
      intro ps h
      obtain ⟨ps', g1, g2, g3⟩ := del_kept h (keys_valid hm) ((mem_keys_given h (keys_valid hm)).1 hm)
      exact ⟨ps', g1, g2, posWords_kept (by have := g1.ok; rwa [(del_frame _ _).1] at this) h.ok g2, g3⟩
  · rw [h3]
    refine ⟨by simp [h1], ?_, ?_⟩
    · intro e he; cases he; exact ⟨rfl, Or.inr rfl⟩
    · intro c v h; cases h

/-- C89: `options.clear()` always ends. Unless a value cannot be read, nothing is iterated afterwards and the length is
zero; tokens are only removed, and all positional arguments and unrecognized options stay. -/
theorem C89_clear [Uni] (o : Obj) : ∃ p e, o.clear = (p, e) ∧ p.attrs = o.attrs ∧
    p.opts.optstring = o.opts.optstring ∧ p.opts.defaults = o.opts.defaults ∧ p.opts.tokens.Sublist o.opts.tokens ∧
    ((e = none ∧ keys p.opts = []) ∨ (e = some .valueError ∧ ∃ c ∈ keys p.opts, p.getItem c = .error .valueError)) ∧
    ∀ ps, Reads o.opts ps → ∃ ps', Reads p.opts ps' ∧ kept o.opts.optstring ps' = kept o.opts.optstring ps ∧
      posWords ps' = posWords ps := by
  obtain ⟨p, e, h1, h2, h3, h4, h5, h6, h7⟩ := clearLoop_spec o (Nat.lt_succ_self _)
  refine ⟨p, e, h1, h2, h3, h4, h5, ?_, ?_⟩
  · rcases h6 with h6 | ⟨h6, c, r, h8, h9⟩
    · exact Or.inl h6
    · exact Or.inr ⟨h6, c, by rw [h8]; exact .head _, h9⟩
  · intro ps h
    obtain ⟨ps', g1, g2⟩ := h7 ps h
    exact ⟨ps', g1, g2, posWords_kept (by have := g1.ok; rwa [h3] at this) h.ok g2⟩

section
attribute [local instance] asciiUni

def sampleObj : Obj := ⟨sampleOptions, fun _ => none⟩

example : keys sampleObj.opts = ['n', 'q'] := by decide +kernel
example : (sampleObj.getItem 'n', sampleObj.getItem 'q', sampleObj.getItem 'z') =
    (.ok (some (.str (s% "foo"))), .ok (some (.bool true)), .error .keyError) := by decide +kernel
example : (sampleObj.setItem 'n' (some (.str (s% "5")))).1.getItem 'n' = .ok (some (.int 5)) ∧
    tokensStr (sampleObj.setItem 'n' (some (.str (s% "5")))).1.opts.tokens = s% "1 -q -n 5 x 2" := by decide +kernel
example : (sampleObj.popItem).2 = .ok ('n', some (.str (s% "foo"))) ∧
    tokensStr (sampleObj.popItem).1.opts.tokens = s% "1 -q x 2" := by decide +kernel
example : (sampleObj.pop 'q').2 = .ok (some (.bool true)) ∧
    tokensStr (sampleObj.pop 'q').1.opts.tokens = s% "1-q -n foo x 2" := by decide +kernel
example : sampleObj.getDefault 'z' (some (.int 1)) = .ok (some (.int 1)) ∧
    (sampleObj.setDefault 'z' (some (.int 1))).1.getItem 'z' = .ok (some (.int 1)) ∧
    sampleObj.setDefault 'n' none = (sampleObj, .ok (some (.str (s% "foo")))) :=
  ⟨by decide +kernel, by decide +kernel, ((C89_defaults sampleObj 'n' none).1 _ (by decide +kernel)).2⟩
/-- two keys that are no options -/
def sampleAttrs : Obj := ((sampleObj.setItem 'y' (some (.int 1))).1.setItem 'z' none).1
example : ((sampleAttrs.pop 'y').2, (sampleAttrs.pop 'y').1.getItem 'y', (sampleAttrs.pop 'y').1.getItem 'z') =
    (.ok (some (.int 1)), .error .keyError, .ok none) := by decide +kernel
example : (sampleObj.clear).2 = none ∧ tokensStr (sampleObj.clear).1.opts.tokens = s% "1 x 2" := by decide +kernel
example : kept (s% "n:q") samplePieces = [⟨.default, s% "1"⟩, ⟨.default, s% "x"⟩, ⟨.default, s% "2"⟩] := by decide +kernel

end

end Specfile.Props
