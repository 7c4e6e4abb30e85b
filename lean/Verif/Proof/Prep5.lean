import Verif.Proof.Prep4
/-
The macro made by `add_patch_macro`.
-/
namespace Specfile

namespace Prep
open Py Regex Spec
open Options (Opts Val)

theorem spaced_snoc (qs : List Piece) (q : Piece) :
    spaced (qs ++ [q]) = spaced qs ++ (if qs.isEmpty then [] else [.space ⟨.whitespace, [' ']⟩]) ++ [q] := by
  induction qs with
  | nil => rfl
  | cons a qs ih =>
    cases qs with
    | nil => rfl
    | cons b qs =>
      simp only [List.cons_append, spaced] at ih ⊢
      rw [ih]
      simp

theorem spaced_eq_nil {qs : List Piece} : spaced qs = [] ↔ qs = [] := by
  cases qs with
  | nil => simp [spaced]
  | cons a qs => cases qs <;> simp [spaced]

theorem toks_append (a b : List Piece) : toks (a ++ b) = toks a ++ toks b := by simp [toks]

theorem mem_spaced {qs : List Piece} {p : Piece} (h : p ∈ spaced qs) :
    p ∈ qs ∨ p = .space ⟨.whitespace, [' ']⟩ := by
  induction qs with
  | nil => simp [spaced] at h
  | cons a qs ih =>
    cases qs with
    | nil => simp [spaced] at h; simp [h]
    | cons b qs =>
      simp only [spaced, List.mem_cons] at h
      rcases h with rfl | rfl | h
      · simp
      · simp
      · rcases ih h with h | h
        · left; simp [List.mem_cons.mp h]
        · exact .inr h

theorem space_ok (os : Str) : (Piece.space ⟨.whitespace, [' ']⟩).OK os := by
  refine ⟨rfl, ?_⟩
  rintro ⟨v, hv⟩
  simp at hv

theorem set_appends {o o' : Opts} {qs : List Piece} {c : Char} {v : Option Val}
    (h1 : o.tokens = toks (spaced qs)) (h2 : ∀ t ∈ o.tokens, Options.isOpt c t = false)
    (h : Options.set o c v = .ok o') :
    o'.tokens = toks (spaced (qs ++ kwPieces (c, v))) ∧ o'.optstring = o.optstring ∧ o'.defaults = o.defaults := by
  have hw := Options.set_ok h
  unfold Options.write at hw
  rw [Options.find_none h2] at hw
  simp only at hw
  have he : o.tokens.isEmpty = qs.isEmpty := by
    rw [h1]
    cases hq : qs with
    | nil => rfl
    | cons a l =>
      have : toks (spaced qs) ≠ [] := by
        intro e
        rw [Options.toks_eq_nil, spaced_eq_nil, hq] at e
        simp at e
      rw [hq] at this
      simp [this]
  have key : ∀ q, kwPieces (c, v) = [q] → o'.tokens = o.tokens ++
      (if o.tokens.isEmpty then [] else [⟨.whitespace, [' ']⟩]) ++ q.toks →
      o'.tokens = toks (spaced (qs ++ kwPieces (c, v))) := by
    intro q e1 e2
    rw [e1, spaced_snoc, toks_append, toks_append, e2, he, h1]
    cases qs.isEmpty <;> simp [toks, Piece.toks]
  split at hw
  · subst hw
    exact ⟨by simp [kwPieces, h1], rfl, rfl⟩
  · subst hw
    exact ⟨by simp [kwPieces, h1], rfl, rfl⟩
  · subst hw
    exact ⟨key _ rfl rfl, rfl, rfl⟩
  · subst hw
    exact ⟨key _ rfl rfl, rfl, rfl⟩
  · subst hw
    exact ⟨key _ rfl rfl, rfl, rfl⟩

theorem kw_ok {os : Str} {x : Char × Option Val} (hk : KwOK x) (hv : Options.valid os x.1 = true)
    {o o' : Opts} (ho : o.optstring = os) (h : Options.set o x.1 x.2 = .ok o') :
    ∀ p ∈ kwPieces x, p.OK os := by
  obtain ⟨c, v⟩ := x
  subst ho
  have hreq : ∀ s, v = some s → (∃ b, s = .bool b) → Options.requiresArg o.optstring c = false := by
    rintro s rfl ⟨b, rfl⟩
    cases hr : Options.requiresArg o.optstring c with
    | false => rfl
    | true => simp [Options.set, hr] at h
  have hreq2 : ∀ s, v = some (.str s) → Options.requiresArg o.optstring c = true := by
    rintro s rfl
    cases hr : Options.requiresArg o.optstring c with
    | true => rfl
    | false => simp [Options.set, hr] at h
  have hc := Options.valid_not_colon hv
  intro p hp
  match v with
  | none => simp [kwPieces] at hp
  | some (.bool false) => simp [kwPieces] at hp
  | some (.bool true) =>
    simp only [kwPieces, List.mem_singleton] at hp
    subst hp
    refine ⟨by simp, ⟨[c], rfl⟩, ?_⟩
    intro d hd e
    simp at e
    subst e
    have := (Options.requiresArg_iff hc).mpr hd
    rw [hreq _ rfl ⟨_, rfl⟩] at this
    simp at this
  | some (.int n) =>
    simp only [kwPieces, List.mem_singleton] at hp
    subst hp
    refine ⟨by simp, ⟨c :: intStr n, rfl⟩, ?_⟩
    intro d hd e
    simp only [List.cons.injEq] at e
    exact intStr_ne_nil e.2.2
  | some (.str s) =>
    simp only [kwPieces, List.mem_singleton] at hp
    subst hp
    refine ⟨by simp, ⟨c, (Options.requiresArg_iff hc).mp (hreq2 s rfl), rfl⟩, ?_, ?_, ?_⟩
    · intro w hw
      simp only [Option.mem_def, Option.some.injEq] at hw
      subst hw
      refine ⟨rfl, ?_⟩
      rintro ⟨v, hv⟩
      simp at hv
    · simp only; split <;> simp
    · rintro ⟨v, hv⟩
      simp only at hv
      exact hk (by simp [hv])

theorem kwPieces_isOpt {x : Char × Option Val} (hk : KwOK x) {d : Char} (hd : d ≠ x.1) :
    ∀ t ∈ toks (kwPieces x), Options.isOpt d t = false := by
  obtain ⟨c, v⟩ := x
  simp only at hd
  intro t ht
  rw [← Bool.not_eq_true]
  intro hi
  obtain ⟨w, hw⟩ := Options.isOpt_iff.mp hi
  match v with
  | none => simp [kwPieces, toks] at ht
  | some (.bool false) => simp [kwPieces, toks] at ht
  | some (.bool true) =>
    simp [kwPieces, toks, Piece.toks] at ht; subst ht
    simp at hw; exact hd hw.1.symm
  | some (.int n) =>
    simp [kwPieces, toks, Piece.toks] at ht; subst ht
    simp at hw; exact hd hw.1.symm
  | some (.str s) =>
    simp only [kwPieces, toks, Piece.toks, List.map_cons, List.map_nil, List.flatten_cons, List.flatten_nil,
      List.append_nil, List.mem_cons, List.mem_append, Option.toList_some, List.not_mem_nil, or_false] at ht
    rcases ht with rfl | rfl | rfl
    · simp at hw; exact hd hw.1.symm
    · simp at hw
    · simp only at hw
      exact hk (by simp [hw])

theorem toks_spaced_isOpt {qs : List Piece} {c : Char} (h : ∀ t ∈ toks qs, Options.isOpt c t = false) :
    ∀ t ∈ toks (spaced qs), Options.isOpt c t = false := by
  intro t ht
  simp only [toks, List.mem_flatten, List.mem_map] at ht
  obtain ⟨_, ⟨p, hp, rfl⟩, ht⟩ := ht
  rcases mem_spaced hp with hp | rfl
  · exact h t (by simp only [toks, List.mem_flatten, List.mem_map]; exact ⟨_, ⟨p, hp, rfl⟩, ht⟩)
  · simp [Piece.toks] at ht; subst ht
    simp [Options.isOpt, startsWith, List.isPrefixOf]

theorem setOptions_spec {o o' : Opts} {kw : List (Char × Option Val)} {qs : List Piece}
    (hd : (kw.map (·.1)).Nodup) (hk : ∀ x ∈ kw, KwOK x)
    (h1 : o.tokens = toks (spaced qs)) (hq : ∀ p ∈ qs, p.OK o.optstring)
    (h2 : ∀ x ∈ kw, ∀ t ∈ toks qs, Options.isOpt x.1 t = false)
    (h : setOptions o kw = .ok o') :
    o'.tokens = toks (spaced (qs ++ (kw.filter (fun x => Options.valid o.optstring x.1)).flatMap kwPieces)) ∧
      (∀ p ∈ qs ++ (kw.filter (fun x => Options.valid o.optstring x.1)).flatMap kwPieces, p.OK o.optstring) ∧
      o'.optstring = o.optstring ∧ o'.defaults = o.defaults := by
  induction kw generalizing o qs with
  | nil =>
    simp only [setOptions, Except.ok.injEq] at h
    subst h
    simp [h1]
    exact hq
  | cons x kw ih =>
    obtain ⟨c, v⟩ := x
    rw [List.map_cons, List.nodup_cons] at hd
    simp only [setOptions] at h
    split at h
    · rename_i hv
      cases hs : Options.set o c v with
      | error e => rw [hs] at h; simp at h
      | ok o1 =>
        rw [hs] at h
        simp only at h
        obtain ⟨e1, e2, e3⟩ := set_appends h1 (by rw [h1]; exact toks_spaced_isOpt (h2 (c, v) (by simp))) hs
        have hkw := kw_ok (x := (c, v)) (hk _ (by simp)) hv rfl hs
        have := ih (o := o1) (qs := qs ++ kwPieces (c, v)) hd.2 (fun x hx => hk x (by simp [hx])) e1 (by
          rw [e2]
          intro p hp
          rw [List.mem_append] at hp
          rcases hp with hp | hp
          · exact hq p hp
          · exact hkw p hp) (by
          intro x hx t ht
          rw [toks_append, List.mem_append] at ht
          rcases ht with ht | ht
          · exact h2 x (by simp [hx]) t ht
          · refine kwPieces_isOpt (hk (c, v) (by simp)) ?_ t ht
            rintro e
            exact hd.1 (by rw [← e]; exact List.mem_map_of_mem hx)) h
        rw [e2, e3] at this
        rw [List.filter_cons, if_pos hv, List.flatMap_cons, ← List.append_assoc]
        exact this
    · rename_i hv
      have := ih (o := o) (qs := qs) hd.2 (fun x hx => hk x (by simp [hx])) h1 hq
        (fun x hx => h2 x (by simp [hx])) h
      rw [List.filter_cons, if_neg hv]
      exact this

theorem valid_patch (c : Char) : Options.valid (optstring .patch) c =
    decide (c ∈ prepFlags .patch ++ prepArgs .patch) := by
  have : (optstring .patch).filter (· != ':') = ['P', 'p', 'R', 'E', 'b', 'z', 'F', 'd', 'o', 'Z'] := by decide
  unfold Options.valid
  rw [this]
  simp only [prepFlags, prepArgs, List.contains_eq_mem, List.mem_cons, List.mem_append, List.not_mem_nil,
    or_false, decide_eq_decide]
  grind

theorem newPatch_spec {num : Option Int} {old : Bool} {kw : List (Char × Option Val)} {m : PrepMacro}
    (hnum : ∀ n ∈ num, 0 ≤ n) (hd : (kw.map (·.1)).Nodup) (hk : ∀ x ∈ kw, KwOK x)
    (h : newPatch num old kw = .ok m) :
    m.name = patchName num old ∧ m.delimiter = [' '] ∧ m.pfx = [] ∧ m.sfx = [] ∧ m.preceding = [] ∧
      IsPatch m ∧ Reads m.options (spaced (numberPieces num old ++ (patchArgs kw).flatMap kwPieces)) := by
  unfold newPatch at h
  simp only at h
  have core : ∀ (o : Opts) (nm : Str), o.tokens = toks (spaced (numberPieces num old)) → o.optstring = optstring .patch →
      o.defaults = [] →
      (match setOptions o kw with
        | .error e => (.error e : Except Err PrepMacro)
        | .ok o => .ok ⟨.patch, nm, o, [' '], [], [], []⟩) = .ok m →
      m.name = nm ∧ m.delimiter = [' '] ∧ m.pfx = [] ∧ m.sfx = [] ∧ m.preceding = [] ∧
      IsPatch m ∧ Reads m.options (spaced (numberPieces num old ++ (patchArgs kw).flatMap kwPieces)) := by
    intro o nm e1 e2 e3 h
    have hqok : ∀ p ∈ numberPieces num old, p.OK o.optstring := by
      intro p hp
      cases num with
      | none => simp [numberPieces] at hp
      | some n =>
        cases old with
        | true => simp [numberPieces] at hp
        | false =>
          simp only [numberPieces, List.mem_singleton] at hp
          subst hp
          refine ⟨by simp, ?_⟩
          rintro ⟨v, hv⟩
          exact intStr_head (hnum n rfl) (by simp only at hv; rw [hv]; rfl)
    have hqno : ∀ x ∈ kw, ∀ t ∈ toks (numberPieces num old), Options.isOpt x.1 t = false := by
      intro x _ t ht
      rw [← Bool.not_eq_true]
      intro hi
      obtain ⟨w, hw⟩ := Options.isOpt_iff.mp hi
      cases num with
      | none => simp [numberPieces, toks] at ht
      | some n =>
        cases old with
        | true => simp [numberPieces, toks] at ht
        | false =>
          simp [numberPieces, toks, Piece.toks] at ht
          subst ht
          exact intStr_head (hnum n rfl) (by simp only at hw; rw [hw]; rfl)
    cases hs : setOptions o kw with
    | error e => rw [hs] at h; simp at h
    | ok o' =>
      rw [hs] at h
      simp only [Except.ok.injEq] at h
      subst h
      obtain ⟨h1, h2, h3, h4⟩ := setOptions_spec hd hk e1 hqok hqno hs
      have hf : kw.filter (fun x => Options.valid o.optstring x.1) = patchArgs kw := by
        unfold patchArgs
        apply List.filter_congr
        intro x _
        rw [e2, valid_patch]
      rw [hf] at h1 h2
      refine ⟨rfl, rfl, rfl, rfl, rfl, ⟨rfl, by simp only; rw [h3, e2]; rfl, by simp only; rw [h4, e3]⟩, h1, ?_⟩
      simp only
      rw [h3]
      intro p hp
      rcases mem_spaced hp with hp | rfl
      · exact h2 p hp
      · exact space_ok _
  cases num with
  | none => exact core _ _ rfl rfl rfl h
  | some n =>
    cases old with
    | true => exact core _ _ rfl rfl rfl h
    | false =>
      simp only [Bool.false_eq_true, if_false] at h
      have hp : Options.posInsert ⟨[], optstring .patch, defaults .patch⟩
          (Options.positionalIdx ⟨[], optstring .patch, defaults .patch⟩).length (.int n) =
          .ok ⟨[⟨Options.valueType (.int n), intStr n⟩], optstring .patch, defaults .patch⟩ := by
        simp [Options.posInsert, Options.positionalIdx, Options.posIdx, Val.text]
      rw [hp] at h
      have hvt : Options.valueType (.int n) = .default := by
        unfold Options.valueType Options.needsQuoting
        rw [if_neg]
        simp only [Val.text, List.any_eq_true, not_exists, not_and]
        intro c hc
        rw [intStr_nonneg (hnum n rfl)] at hc
        have := natStr_digits _ c hc
        intro hw
        simp only [Options.isAsciiWs, Bool.or_eq_true, beq_iff_eq] at hw
        rcases hw with ((((rfl | rfl) | rfl) | rfl) | rfl) | rfl <;> revert this <;> decide
      rw [hvt] at h
      exact core _ _ rfl rfl rfl h

/-! ### the text of the macro -/

theorem escape_plain {p : Char → Bool} {s : Str} (h : ∀ c ∈ s, p c = false) : Options.escape p s = s := by
  induction s with
  | nil => rfl
  | cons c s ih => simp [Options.escape, h c (by simp), ih (fun x hx => h x (by simp [hx]))]

theorem tokensStr_append (a b : List Token) : Options.tokensStr (a ++ b) = Options.tokensStr a ++ Options.tokensStr b := by
  simp [Options.tokensStr]

theorem tokensStr_spaced (qs : List Piece) :
    Options.tokensStr (toks (spaced qs)) = joinC ' ' (qs.map (fun q => Options.tokensStr q.toks)) := by
  induction qs with
  | nil => rfl
  | cons a qs ih =>
    cases qs with
    | nil => simp [spaced, toks]
    | cons b qs =>
      rw [List.map_cons, joinC_cons _ _ (by simp), ← ih]
      simp only [spaced]
      rw [show a :: Piece.space ⟨.whitespace, [' ']⟩ :: spaced (b :: qs) =
        [a] ++ ([Piece.space ⟨.whitespace, [' ']⟩] ++ spaced (b :: qs)) from rfl, toks_append, toks_append,
        tokensStr_append, tokensStr_append]
      simp [toks, Piece.toks, Options.tokensStr, Options.tokenStr]

theorem digits_plain {n : Int} (h : 0 ≤ n) : ∀ c ∈ intStr n, Options.isSpecial c = false := by
  intro c hc
  rw [intStr_nonneg h] at hc
  have this := natStr_digits _ c hc
  have hdig := this
  unfold Options.isSpecial
  have h1 : c ≠ '\'' := by rintro rfl; revert this; decide
  have h2 : c ≠ '"' := by rintro rfl; revert this; decide
  have h3 : isSpace c = false := by
    letI := asciiUni
    exact decimal_not_space (isDecimal_of_asciiDigit hdig)
  simp [h1, h2, h3]

theorem letter_plain {c : Char} (hc : c ∈ prepFlags .patch ++ prepArgs .patch) :
    Options.isSpecial '-' = false ∧ Options.isSpecial c = false := by
  simp only [prepFlags, prepArgs, List.mem_append, List.mem_cons, List.not_mem_nil, or_false] at hc
  refine ⟨by decide, ?_⟩
  rcases hc with (rfl | rfl | rfl) | rfl | rfl | rfl | rfl | rfl | rfl | rfl <;> decide

theorem kw_text {x : Char × Option Val} (hk : KwPlain x) (hc : x.1 ∈ prepFlags .patch ++ prepArgs .patch) :
    (kwPieces x).map (fun q => Options.tokensStr q.toks) = if (kwWords x) = [] then [] else [joinC ' ' (kwWords x)] := by
  obtain ⟨c, v⟩ := x
  obtain ⟨l1, l2⟩ := letter_plain hc
  match v with
  | none => rfl
  | some (.bool false) => rfl
  | some (.bool true) =>
    simp [kwPieces, kwWords, Piece.toks, Options.tokensStr, Options.tokenStr, Options.escape, l1, l2]
  | some (.int n) =>
    simp [kwPieces, kwWords, Piece.toks, Options.tokensStr, Options.tokenStr, Options.escape, l1, l2,
      escape_plain (digits_plain (n := n) hk)]
  | some (.str s) =>
    have h1 : s.any Options.isAsciiWs = false := by
      rw [List.any_eq_false]
      intro c hc hw
      have := (hk.2 c hc).1
      simp only [Options.isAsciiWs, Bool.or_eq_true, beq_iff_eq] at hw
      rcases hw with ((((rfl | rfl) | rfl) | rfl) | rfl) | rfl <;> revert this <;> decide
    have h2 : Options.escape Options.isSpecial s = s := by
      apply escape_plain
      intro c hc
      obtain ⟨q1, q2, q3⟩ := hk.2 c hc
      simp [Options.isSpecial, q1, q2, q3]
    simp [kwPieces, kwWords, Piece.toks, Options.tokensStr, Options.tokenStr, Options.escape, l1, l2, h1, h2, joinC]

theorem joinC_flat (c : Char) (l : List (List Str)) :
    joinC c ((l.map (fun w => if w = [] then [] else [joinC c w])).flatten) = joinC c l.flatten := by
  induction l with
  | nil => rfl
  | cons w l ih =>
    by_cases hw : w = []
    · subst hw; simpa using ih
    · simp only [List.map_cons, List.flatten_cons, hw, if_false, List.singleton_append]
      have e : (l.map (fun w => if w = [] then [] else [joinC c w])).flatten = [] ↔ l.flatten = [] := by
        simp only [List.flatten_eq_nil_iff, List.mem_map, forall_exists_index, and_imp, forall_apply_eq_imp_iff₂]
        constructor
        · intro h x hx
          have := h x hx
          split at this
          · assumption
          · simp at this
        · intro h x hx
          rw [if_pos (h x hx)]
      by_cases hl : l.flatten = []
      · rw [e.mpr hl, hl]; simp
      · rw [joinC_cons c _ (by rw [ne_eq, e]; exact hl), ih, joinC_append c hw hl]

theorem newPatch_line {num : Option Int} {old : Bool} {kw : List (Char × Option Val)} {m : PrepMacro}
    (hnum : ∀ n ∈ num, 0 ≤ n) (hd : (kw.map (·.1)).Nodup) (hk : ∀ x ∈ kw, KwPlain x)
    (h : newPatch num old kw = .ok m) :
    line (settle m) = patchName num old ++ ' ' :: joinC ' ' ((posWords (numberPieces num old)) ++ (patchArgs kw).flatMap kwWords) := by
  have hk' : ∀ x ∈ kw, KwOK x := by
    rintro ⟨c, v⟩ hx
    have := hk _ hx
    match v with
    | none => trivial
    | some (.bool _) => trivial
    | some (.int _) => trivial
    | some (.str s) => exact this.1
  obtain ⟨h1, h2, h3, h4, h5, h6, h7⟩ := newPatch_spec hnum hd hk' h
  rw [settle_delim (by rw [h2]; simp)]
  unfold line
  rw [h1, h2, h3, h4, h7.tokens, tokensStr_spaced]
  simp only [List.nil_append, List.append_nil, List.append_assoc, List.singleton_append, List.append_cancel_left_eq,
    List.cons.injEq, true_and]
  rw [List.map_append]
  have e1 : (numberPieces num old).map (fun q => Options.tokensStr q.toks) = posWords (numberPieces num old) := by
    cases num with
    | none => rfl
    | some n =>
      cases old with
      | true => rfl
      | false =>
        simp [numberPieces, posWords, Piece.toks, Options.tokensStr, Options.tokenStr,
          escape_plain (digits_plain (hnum n rfl))]
  have e2 : ((patchArgs kw).flatMap kwPieces).map (fun q => Options.tokensStr q.toks) =
      (((patchArgs kw).map kwWords).map (fun w => if w = [] then [] else [joinC ' ' w])).flatten := by
    rw [List.map_flatMap, List.map_map, List.flatMap_def]
    congr 1
    apply List.map_congr_left
    intro x hx
    unfold patchArgs at hx
    rw [List.mem_filter] at hx
    exact kw_text (hk x hx.1) (by simpa using hx.2)
  rw [e1, e2, List.flatMap_def]
  by_cases hn : posWords (numberPieces num old) = []
  · rw [hn, List.nil_append, List.nil_append, joinC_flat]
  · have := joinC_flat ' ' ([posWords (numberPieces num old)] ++ (patchArgs kw).map kwWords)
    simp only [List.map_append, List.map_cons, List.map_nil, hn, if_false, List.flatten_append, List.flatten_cons,
      List.flatten_nil, List.append_nil] at this
    rw [← this]
    congr 1
    cases num with
    | none => exact absurd rfl hn
    | some n =>
      cases old with
      | true => exact absurd rfl hn
      | false => rfl

end Prep
end Specfile
