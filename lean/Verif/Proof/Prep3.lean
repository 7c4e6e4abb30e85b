import Verif.Proof.Prep2
/-
Numbers of `%patch` macros.
-/
namespace Specfile

namespace Prep
open Py Regex Spec MacroDefinitions
open Options (Opts Val)

theorem decimal_not_space [Uni] {c : Char} (h : Uni.isDecimal c = true) : isSpace c = false :=
  Uni.alnum_not_space c (Uni.numeric_alnum c (Uni.decimal_numeric c h))

theorem newline_not_decimal [Uni] : Uni.isDecimal '\n' = false := by
  rw [Uni.decimal_ascii _ (by decide)]; decide

theorem splitNumber_some [Uni] {a ds : Str} (ha : NotNumbered a) (hn : '\n' ∉ a) (hd0 : ds ≠ [])
    (hd : ∀ c ∈ ds, Uni.isDecimal c = true) : splitNumber (a ++ ds) = some (a, ds) := by
  unfold splitNumber search
  rw [searchFrom_first (t := ⟨ds.reverse ++ (a.reverse ++ []), [], [(1, ds)]⟩)]
  · simp [St.get]
  · intro x y e hy
    rw [List.eq_nil_iff_forall_not_mem]
    intro t ht
    simp only [plus, mem_cat, mem_grp_rep, mem_eos] at ht
    obtain ⟨_, ⟨v, r, h1, h2, h3, rfl⟩, _, h4⟩ := ht
    simp only at h1 h4
    obtain ⟨z, hz⟩ := List.getLast?_eq_some_iff.1 (List.getLast?_eq_some_getLast hy)
    generalize y.getLast hy = q at hz
    have hq := ha q (by rw [e, hz]; simp)
    have hmem : q ∈ v ++ r := by rw [← h1, hz]; simp
    rw [List.mem_append] at hmem
    rcases hmem with hm | hm
    · rw [List.all_eq_true.1 h2 q hm] at hq; simp at hq
    · rcases h4 with rfl | rfl
      · simp at hm
      · simp at hm; subst hm; exact hn (by rw [e, hz]; simp)
  · rw [plus]
    exact head_grp_greedy (w := ds) (r' := []) (by simp) (List.all_eq_true.mpr hd)
      (List.length_pos_iff.mpr hd0) (by simp [NoMore]) (by simp [run])

theorem splitNumber_none [Uni] {a : Str} (ha : NotNumbered a) (hn : '\n' ∉ a) : splitNumber a = none := by
  unfold splitNumber search
  rw [searchFrom_none]
  intro x y e
  rw [List.eq_nil_iff_forall_not_mem]
  intro t ht
  simp only [plus, mem_cat, mem_grp_rep, mem_eos] at ht
  obtain ⟨_, ⟨v, r, h1, h2, h3, rfl⟩, _, h4⟩ := ht
  simp only at h1 h4
  rcases h4 with rfl | rfl
  · have hv : v ≠ [] := by intro hv; rw [hv] at h3; simp at h3
    obtain ⟨z, hz⟩ := List.getLast?_eq_some_iff.1 (List.getLast?_eq_some_getLast hv)
    generalize v.getLast hv = q at hz
    have := ha q (by rw [e, h1, hz]; simp)
    rw [List.all_eq_true.1 h2 q (by rw [hz]; simp)] at this
    simp at this
  · exact hn (by rw [e, h1]; simp)

/-- every name is of one of the two kinds -/
theorem numbered_or_not [Uni] (s : Str) : NotNumbered s ∨ ∃ a ds, s = a ++ ds ∧ NotNumbered a ∧ ds ≠ [] ∧
    ∀ c ∈ ds, Uni.isDecimal c = true := by
  by_cases h : NotNumbered s
  · exact .inl h
  · right
    refine ⟨(s.reverse.dropWhile Uni.isDecimal).reverse, (s.reverse.takeWhile Uni.isDecimal).reverse, ?_, ?_, ?_, ?_⟩
    · rw [← List.reverse_append, List.takeWhile_append_dropWhile, List.reverse_reverse]
    · intro c hc
      rw [List.getLast?_reverse] at hc
      cases hx : s.reverse.dropWhile Uni.isDecimal with
      | nil => rw [hx] at hc; simp at hc
      | cons d l =>
        rw [hx] at hc; simp at hc; subst hc
        exact dropWhile_head hx
    · intro e
      rw [List.reverse_eq_nil_iff] at e
      apply h
      intro c hc
      rw [← List.head?_reverse] at hc
      cases hx : s.reverse with
      | nil => rw [hx] at hc; simp at hc
      | cons d l =>
        rw [hx] at hc e; simp at hc; subst hc
        rw [List.takeWhile_cons] at e
        split at e
        · simp at e
        · simp_all
    · intro c hc
      exact List.all_eq_true.mp List.all_takeWhile c (List.mem_reverse.mp hc)

/-! ### `int` of an option value -/

theorem strip_of_noSpace {s : Str} (h : ∀ c ∈ s, isSpace c = false) : strip s = s := by
  unfold strip lstrip rstrip
  rw [dropWhile_eq_self (fun c hc => h c (List.mem_of_mem_head? hc)),
    dropWhile_eq_self (fun c hc => h c (List.mem_reverse.mp (List.mem_of_mem_head? hc))), List.reverse_reverse]

theorem digitsVal_decimal [Uni] {s : Str} (h : ∀ c ∈ s, Uni.isDecimal c = true) (acc : Nat) :
    digitsVal acc false s = some (s.foldl (fun a c => 10 * a + Uni.decimalVal c) acc) := by
  induction s generalizing acc with
  | nil => rfl
  | cons c s ih =>
    rw [digitsVal, if_pos (h c (by simp)), ih (fun x hx => h x (by simp [hx]))]
    rfl

theorem not_numeric [Uni] {c : Char} (h1 : isAscii c = true) (h2 : isAsciiDigit c = false) :
    Uni.isNumeric c = false := by rw [Uni.numeric_ascii c h1, h2]

theorem parseInt_decimal [Uni] {s : Str} (h0 : s ≠ []) (h : ∀ c ∈ s, Uni.isDecimal c = true) :
    parseInt s = some (decVal s : Int) := by
  unfold parseInt
  rw [strip_of_noSpace (fun c hc => decimal_not_space (h c hc))]
  cases s with
  | nil => exact absurd rfl h0
  | cons c cs =>
    have hc := h c (by simp)
    have h1 : c ≠ '-' := by rintro rfl; rw [Uni.decimal_ascii _ (by decide)] at hc; revert hc; decide
    have h2 : c ≠ '+' := by
      rintro rfl; rw [Uni.decimal_ascii _ (by decide)] at hc; revert hc; decide
    simp only [beq_iff_eq, h1, h2, if_false, parseNat, hc, if_true]
    rw [digitsVal_decimal h]
    rfl

theorem digitsVal_bad [Uni] {s : Str} (h : ∀ c ∈ s, Uni.isNumeric c = true)
    (hb : ∃ c ∈ s, Uni.isDecimal c = false) (acc : Nat) : digitsVal acc false s = none := by
  induction s generalizing acc with
  | nil => simp at hb
  | cons c s ih =>
    rw [digitsVal]
    by_cases hc : Uni.isDecimal c = true
    · rw [if_pos hc]
      apply ih (fun x hx => h x (by simp [hx]))
      obtain ⟨x, hx, hx'⟩ := hb
      simp only [List.mem_cons] at hx
      rcases hx with rfl | hx
      · rw [hc] at hx'; simp at hx'
      · exact ⟨x, hx, hx'⟩
    · rw [if_neg hc, if_neg]
      simp only [Bool.not_false, Bool.and_true, beq_iff_eq]
      rintro rfl
      have := h '_' (by simp)
      rw [not_numeric (by decide) (by decide)] at this
      simp at this

theorem parseInt_bad [Uni] {s : Str} (h : ∀ c ∈ s, Uni.isNumeric c = true)
    (hb : ∃ c ∈ s, Uni.isDecimal c = false) : parseInt s = none := by
  unfold parseInt
  rw [strip_of_noSpace (fun c hc => Uni.alnum_not_space c (Uni.numeric_alnum c (h c hc)))]
  cases s with
  | nil => rfl
  | cons c cs =>
    have hc := h c (by simp)
    have h1 : c ≠ '-' := by rintro rfl; rw [not_numeric (by decide) (by decide)] at hc; simp at hc
    have h2 : c ≠ '+' := by rintro rfl; rw [not_numeric (by decide) (by decide)] at hc; simp at hc
    simp only [beq_iff_eq, h1, h2, if_false, parseNat]
    split
    · rw [digitsVal_bad h hb]; rfl
    · rfl

/-- reading a text as an option value and converting it is converting the text -/
theorem intOf_readValue [Uni] (v : Str) (hv : v ≠ []) :
    ((Options.readValue v).bind intOf) = match parseInt v with
      | some n => .ok n
      | none => .error .valueError := by
  unfold Options.readValue
  by_cases h : v.all Uni.isNumeric = true
  · have h' := List.all_eq_true.mp h
    rw [if_pos (by rw [h]; simp [hv])]
    by_cases hd : v.all Uni.isDecimal = true
    · rw [if_pos hd, parseInt_decimal hv (List.all_eq_true.mp hd)]
      rfl
    · rw [if_neg hd, parseInt_bad h' (by simpa using hd)]
      rfl
  · rw [if_neg (by simp only [Bool.and_eq_true]; exact fun x => h x.2)]
    simp only [Except.bind, intOf]
    cases parseInt v <;> rfl

theorem posGet_values [Uni] (o : Opts) (i : Int) : Options.posGet o i =
    match pyIndex (Options.positionalValues o).length i with
    | none => .error .indexError
    | some k => Options.readValue ((Options.positionalValues o).getD k []) := by
  unfold Options.posGet Options.positionalValues
  rw [List.length_map]
  cases h : pyIndex (Options.positionalIdx o).length i with
  | none => rfl
  | some k =>
    have := pyIndex_lt h
    simp [List.getD, this]

theorem positionalIdx_isEmpty (o : Opts) :
    (Options.positionalIdx o).isEmpty = (Options.positionalValues o).isEmpty := by
  unfold Options.positionalValues
  cases Options.positionalIdx o <;> rfl

theorem valid_P {o : Opts} (h : o.optstring = s% "P:p:REb:z:F:d:o:Z") : Options.valid o.optstring 'P' = true := by
  rw [h]; decide

theorem requires_P {o : Opts} (h : o.optstring = s% "P:p:REb:z:F:d:o:Z") :
    Options.requiresArg o.optstring 'P' = true := by
  rw [h]; decide

/-- the number of a macro whose name has none -/
theorem number_unnamed [Uni] {m : PrepMacro} (hm : IsPatch m) (hn : '\n' ∉ m.name) (hN : NotNumbered m.name)
    {ps : List Piece} (hr : Reads m.options ps) : number m =
    match given 'P' ps with
    | some [] => .ok 1
    | some v => (match parseInt v with
      | some n => .ok n
      | none => .error .valueError)
    | none => match posWords ps with
      | [] => .ok 0
      | v :: _ => if v = [] then .error .valueError else (match parseInt v with
        | some n => .ok n
        | none => .error .valueError) := by
  unfold number
  rw [splitNumber_none hN hn]
  simp only
  rw [Props.C29_get hr (valid_P hm.optstring)]
  cases hg : given 'P' ps with
  | some v =>
    cases v with
    | nil => rfl
    | cons c cs =>
      have := intOf_readValue (c :: cs) (by simp)
      simp only [← this]
      cases Options.readValue (c :: cs) <;> rfl
  | none =>
    simp only [requires_P hm.optstring, if_true, hm.defaults, List.find?_nil, Option.map_none]
    rw [positionalIdx_isEmpty, posGet_values, Props.C32_values hr]
    cases hp : posWords ps with
    | nil => rfl
    | cons v vs =>
      have e : pyIndex (v :: vs).length 0 = some 0 := pyIndex_ofNat (k := 0) (by simp)
      rw [e]
      simp only [List.isEmpty_cons, Bool.false_eq_true, if_false, List.getD_cons_zero]
      by_cases hv : v = []
      · subst hv
        rw [if_pos rfl]
        simp [Options.readValue, intOf, parseInt, strip, rstrip, lstrip]
      · rw [if_neg hv, ← intOf_readValue v hv]
        cases Options.readValue v <;> rfl

theorem parseInt_nil [Uni] : parseInt [] = none := rfl

theorem number_iff [Uni] {m : PrepMacro} (hm : IsPatch m) (hn : '\n' ∉ m.name)
    {ps : List Piece} (hr : Reads m.options ps) {n : Int} : number m = .ok n ↔ HasNumber m n := by
  rcases numbered_or_not m.name with hN | ⟨a, ds, e, ha, hd0, hd⟩
  · constructor
    · intro h
      rw [number_unnamed hm hn hN hr] at h
      cases hg : given 'P' ps with
      | some v =>
        rw [hg] at h
        cases v with
        | nil => simp only [Except.ok.injEq] at h; subst h; exact .bareOption hN hr hg
        | cons c cs =>
          simp only at h
          cases hi : parseInt (c :: cs) with
          | none => rw [hi] at h; simp at h
          | some k =>
            rw [hi] at h; simp only [Except.ok.injEq] at h; subst h
            exact .option hN hr hg (by simp) hi
      | none =>
        rw [hg] at h
        cases hp : posWords ps with
        | nil => rw [hp] at h; simp only [Except.ok.injEq] at h; subst h; exact .default hN hr hg hp
        | cons v vs =>
          rw [hp] at h
          simp only at h
          split at h
          · simp at h
          · cases hi : parseInt v with
            | none => rw [hi] at h; simp at h
            | some k =>
              rw [hi] at h; simp only [Except.ok.injEq] at h; subst h
              exact .argument hN hr hg hp hi
    · intro h
      cases h with
      | @name a ds e ha hd0 hd =>
        exfalso
        have hl := List.getLast?_eq_some_getLast hd0
        have := hN (ds.getLast hd0) (by rw [e, List.getLast?_append, hl]; simp)
        rw [hd _ (List.getLast_mem hd0)] at this
        simp at this
      | @option _ v _ _ hr' hg hv hi =>
        rw [number_unnamed hm hn hN hr', hg]
        cases v with
        | nil => exact absurd rfl hv
        | cons c cs => simp only [hi]
      | bareOption _ hr' hg => rw [number_unnamed hm hn hN hr', hg]
      | @argument _ v vs _ _ hr' hg hp hi =>
        rw [number_unnamed hm hn hN hr', hg, hp]
        have : v ≠ [] := by rintro rfl; rw [parseInt_nil] at hi; simp at hi
        simp only [this, if_false, hi]
      | default _ hr' hg hp => rw [number_unnamed hm hn hN hr', hg, hp]
  · have hna : '\n' ∉ a := by intro h; apply hn; rw [e]; simp [h]
    have hnum : number m = .ok (decVal ds : Int) := by
      unfold number
      rw [e, splitNumber_some ha hna hd0 hd]
    rw [hnum]
    have nope : ∀ {P : Prop}, NotNumbered m.name → P := by
      intro P h
      exfalso
      have hl := List.getLast?_eq_some_getLast hd0
      have := h (ds.getLast hd0) (by rw [e, List.getLast?_append, hl]; simp)
      rw [hd _ (List.getLast_mem hd0)] at this
      simp at this
    constructor
    · intro h
      simp only [Except.ok.injEq] at h; subst h
      exact .name e ha hd0 hd
    · intro h
      cases h with
      | @name a' ds' e' ha' hd0' hd' =>
        have h1 := splitNumber_some ha hna hd0 hd
        have hna' : '\n' ∉ a' := by intro h; apply hn; rw [e']; simp [h]
        have h2 := splitNumber_some ha' hna' hd0' hd'
        rw [← e] at h1; rw [← e', h1] at h2
        simp only [Option.some.injEq, Prod.mk.injEq] at h2
        rw [h2.2]
      | option h => exact nope h
      | bareOption h => exact nope h
      | argument h => exact nope h
      | default h => exact nope h

/-! ### assigning a number -/

theorem intStr_nonneg {n : Int} (h : 0 ≤ n) : intStr n = natStr n.toNat := by
  cases n with
  | ofNat n => rfl
  | negSucc n => omega

theorem natStr_dec [Uni] (n : Nat) : ∀ c ∈ natStr n, Uni.isDecimal c = true :=
  fun c hc => isDecimal_of_asciiDigit (natStr_digits n c hc)

theorem notNumbered_patch [Uni] : NotNumbered (s% "%patch") := by
  intro c hc
  simp at hc; subst hc
  rw [Uni.decimal_ascii _ (by decide)]; decide

theorem number_named [Uni] {m : PrepMacro} {a : Str} {n : Int} (h : 0 ≤ n) (ha : NotNumbered a) (hn : '\n' ∉ a)
    (e : m.name = a ++ intStr n) : number m = .ok n := by
  unfold number
  rw [e, intStr_nonneg h, splitNumber_some ha hn (natStr_ne_nil _) (natStr_dec _)]
  simp only [decVal_natStr]
  congr 1
  omega

theorem intStr_head {n : Int} (h : 0 ≤ n) : (intStr n).head? ≠ some '-' := by
  rw [intStr_nonneg h]
  intro e
  have := natStr_digits _ '-' (List.mem_of_mem_head? e)
  revert this; decide

theorem intStr_ne_nil {n : Int} : intStr n ≠ [] := by
  cases n with
  | ofNat n => exact natStr_ne_nil n
  | negSucc n => simp [intStr]

theorem parseInt_intStr [Uni] {n : Int} (h : 0 ≤ n) : parseInt (intStr n) = some n := by
  rw [intStr_nonneg h, parseInt_decimal (natStr_ne_nil _) (natStr_dec _), decVal_natStr]
  congr 1
  omega

theorem set_number [Uni] {m m' : PrepMacro} {v : Int} (hm : IsPatch m) (hn : '\n' ∉ m.name) (hv : 0 ≤ v)
    {ps : List Piece} (hr : Reads m.options ps) (h : setNumber m v = .ok m') : number m' = .ok v := by
  unfold setNumber at h
  rcases numbered_or_not m.name with hN | ⟨a, ds, e, ha, hd0, hd⟩
  · rw [splitNumber_none hN hn] at h
    simp only at h
    cases hg : Options.get m.options 'P' with
    | error e => rw [hg] at h; simp at h
    | ok g =>
      rw [hg] at h
      cases g with
      | some g =>
        simp only at h
        cases hs : Options.set m.options 'P' (some (.int v)) with
        | error e => rw [hs] at h; simp [Except.map] at h
        | ok o =>
          rw [hs] at h
          simp only [Except.map, Except.ok.injEq] at h
          subst h
          have := Props.C29_set_get_partial (by exact intStr_ne_nil) (by exact intStr_head hv) hs (by simp)
          unfold number
          simp only at this
          rw [splitNumber_none hN hn]
          simp only
          rw [this]
          rfl
      | none =>
        simp only at h
        rw [positionalIdx_isEmpty] at h
        split at h
        · simp only [Except.ok.injEq] at h
          subst h
          exact number_named hv notNumbered_patch (by decide) rfl
        · rename_i hne
          cases hs : Options.posSet m.options 0 (.int v) with
          | error e => rw [hs] at h; simp [Except.map] at h
          | ok o =>
            rw [hs] at h
            simp only [Except.map, Except.ok.injEq] at h
            subst h
            obtain ⟨k, h1, h2, h3⟩ := Props.C32_setitem_partial hr (by exact intStr_head hv) hs
            have hk : k = 0 := by
              have := pyIndex_lt h1
              have e0 : pyIndex (Options.positionalValues m.options).length 0 = some 0 :=
                pyIndex_ofNat (k := 0) (by omega)
              rw [e0] at h1
              simpa using h1.symm
            subst hk
            unfold number
            simp only
            rw [splitNumber_none hN hn]
            simp only
            rw [h3 'P' (valid_P hm.optstring), hg]
            simp only
            rw [positionalIdx_isEmpty, posGet_values, h2]
            cases hp : Options.positionalValues m.options with
            | nil => rw [hp] at hne; simp at hne
            | cons x xs =>
              have e1 : pyIndex (((x :: xs).set 0 (Val.int v).text)).length 0 = some 0 :=
                pyIndex_ofNat (k := 0) (by simp)
              rw [e1]
              simp only [List.set_cons_zero, List.isEmpty_cons, Bool.false_eq_true, if_false, List.getD_cons_zero]
              have := intOf_readValue (intStr v) intStr_ne_nil
              rw [parseInt_intStr hv] at this
              simp only [Val.text]
              cases hq : Options.readValue (intStr v) with
              | error e => rw [hq] at this; simp [Except.bind] at this
              | ok q => rw [hq] at this; simpa [Except.bind] using this
  · have hna : '\n' ∉ a := by intro h; apply hn; rw [e]; simp [h]
    rw [e, splitNumber_some ha hna hd0 hd] at h
    simp only [Except.ok.injEq] at h
    subst h
    exact number_named hv ha hna rfl

theorem set_number_rest [Uni] {m m' : PrepMacro} {v : Int} (h : setNumber m v = .ok m') :
    m'.kind = m.kind ∧ m'.delimiter = m.delimiter ∧ m'.pfx = m.pfx ∧ m'.sfx = m.sfx ∧
      m'.preceding = m.preceding ∧ (m'.name = m.name ∨ m'.options = m.options) := by
  unfold setNumber at h
  cases h1 : splitNumber m.name with
  | some x =>
    rw [h1] at h
    simp only [Except.ok.injEq] at h; subst h
    simp
  | none =>
    rw [h1] at h
    simp only at h
    cases hg : Options.get m.options 'P' with
    | error e => rw [hg] at h; simp at h
    | ok g =>
      rw [hg] at h
      cases g with
      | some g =>
        simp only at h
        cases hs : Options.set m.options 'P' (some (.int v)) with
        | error e => rw [hs] at h; simp [Except.map] at h
        | ok o => rw [hs] at h; simp only [Except.map, Except.ok.injEq] at h; subst h; simp
      | none =>
        simp only at h
        split at h
        · simp only [Except.ok.injEq] at h; subst h; simp
        · cases hs : Options.posSet m.options 0 (.int v) with
          | error e => rw [hs] at h; simp [Except.map] at h
          | ok o => rw [hs] at h; simp only [Except.map, Except.ok.injEq] at h; subst h; simp

end Prep
end Specfile
