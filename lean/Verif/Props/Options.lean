import Verif.Proof.OptionPieces
import Verif.Proof.ValueParserInv
/-
Properties of option strings (C10, C29, C30, C31, C32).
-/
namespace Specfile.Props
open Py Spec Options ValueParser

/-! ## C10: tokenizing and printing -/

/-- C10 (full claim: for every option string that can be tokenized, printing the tokens gives the
string back). Missing: references whose arguments are not separated by single spaces, empty
quotations, backslashes outside of quotes that escape neither a quote nor whitespace, and macros
containing quotes or whitespace; see `C10_tokenize_print_violation`. -/
theorem C10_tokenize_print_partial [Uni] {s : Str} {ns : List Node} (hv : SingleSpacedRefs s)
    (hp : parse s = .ok ns) (hc : Canonical (items ns)) :
    ∃ ts, tokenize s = .ok ts ∧ tokensStr ts = s := by
  obtain ⟨ts, e1, e2⟩ := tok_canonical hc (fun _ h => mac_items h) []
  refine ⟨ts, by simp [tokenize, hp, bind, Except.bind, e1], ?_⟩
  rw [e2, itemsStr_items, parseF_exact _ hv hp]
  rfl

/-- C10 for strings without macros. -/
theorem C10_tokenize_print_plain_partial [Uni] {s : Str} (hp : '%' ∉ s)
    (hc : Canonical (s.map .chr)) : ∃ ts, tokenize s = .ok ts ∧ tokensStr ts = s := by
  obtain ⟨ts, e1, e2⟩ := tok_canonical hc (by simp) []
  exact ⟨ts, by rw [tokenize_plain hp]; exact e1, by rw [e2, itemsStr_map_chr]; rfl⟩

/-- C10, what holds of every string: tokenizing and printing can only add or drop quotes and
backslashes (and, inside of a reference, whitespace). -/
theorem C10_nothing_else_lost [Uni] {s : Str} {ts : List Token} (h : tokenize s = .ok ts) :
    (tokensStr ts).filter (fun c => !(c == '"' || c == '\'' || c == '\\') && !isSpace c) =
      s.filter (fun c => !(c == '"' || c == '\'' || c == '\\') && !isSpace c) := by
  unfold tokenize at h
  cases hp : parse s with
  | error e => rw [hp] at h; simp [bind, Except.bind] at h
  | ok ns =>
    rw [hp] at h
    have hb := tok_bare (by simp) (h : tok none [] (items ns) = .ok ts)
    rw [itemsStr_items] at hb
    have hn : (Node.strs ns).filter (fun c => !isSpace c) = s.filter (fun c => !isSpace c) :=
      parseF_noSpace _ hp
    have split : ∀ x : Str, x.filter (fun c => !(c == '"' || c == '\'' || c == '\\') && !isSpace c) =
        (bare x).filter (fun c => !isSpace c) := by
      intro x; simp only [bare, List.filter_filter]
      congr 1; funext c; exact Bool.and_comm _ _
    have split' : ∀ x : Str, x.filter (fun c => !(c == '"' || c == '\'' || c == '\\') && !isSpace c) =
        bare (x.filter (fun c => !isSpace c)) := by
      intro x; simp only [bare, List.filter_filter]
    rw [split, hb, split', ← hn, ← split', split]
    rfl

/-- C10, what holds of every string with single-spaced references: whitespace is kept as well. -/
theorem C10_only_quoting_changes [Uni] {s : Str} {ts : List Token} (hv : SingleSpacedRefs s)
    (h : tokenize s = .ok ts) :
    (tokensStr ts).filter (fun c => !(c == '"' || c == '\'' || c == '\\')) =
      s.filter (fun c => !(c == '"' || c == '\'' || c == '\\')) := by
  unfold tokenize at h
  cases hp : parse s with
  | error e => rw [hp] at h; simp [bind, Except.bind] at h
  | ok ns =>
    rw [hp] at h
    have hb := tok_bare (by simp) (h : tok none [] (items ns) = .ok ts)
    rw [itemsStr_items, parseF_exact _ hv hp] at hb
    simpa [bare] using hb

/-- The full claim of C10 fails: an empty quotation is lost, and so is a needless backslash. -/
theorem C10_tokenize_print_violation : ∃ u : Uni,
    (∃ ts, @tokenize u (s% "-n \"\"") = .ok ts ∧ tokensStr ts = s% "-n ") ∧
    (∃ ts, @tokenize u (s% "-n a\\b") = .ok ts ∧ tokensStr ts = s% "-n ab") :=
  ⟨asciiUni, ⟨_, rfl, rfl⟩, ⟨_, rfl, rfl⟩⟩

/-- C10, converse: tokens that do not run into each other are recovered from their printed form. -/
theorem C10_print_tokenize [Uni] {ts : List Token} (h : GoodTokens ts) :
    tokenize (tokensStr ts) = .ok ts := by
  rw [tokenize_plain (percent_printed (fun t ht => (GoodTokens.mem h t ht).2.1))]
  exact tok_printed h

/-- Errors of the tokenizer: those of the value parser, or unfinished quotation or escape. -/
theorem C10_tokenize_errors [Uni] {s : Str} {e : Err} (h : tokenize s = .error e) :
    parse s = .error e ∨ e = .optionsException := by
  have key : ∀ q token l, tok q token l = .error e → e = .optionsException := by
    intro q token l
    fun_induction tok q token l with
    | case1 => simp
    | case2 => intro h; simpa using h.symm
    | case3 _ _ _ _ ih => exact ih
    | case4 _ _ _ l _ ih =>
      intro h
      cases hr : tok none [] l with
      | ok r => rw [hr] at h; simp [bind, Except.bind] at h
      | error e' => rw [hr] at h; simp [bind, Except.bind] at h; subst h; exact ih hr
    | case5 => intro h; simpa using h.symm
    | case6 _ _ _ _ _ _ _ ih => exact ih
    | case7 _ _ _ _ _ _ ih => exact ih
    | case8 _ _ _ ih => exact ih
    | case9 _ _ l _ ih =>
      intro h
      cases hr : tok none [] l with
      | ok r => rw [hr] at h; simp [bind, Except.bind] at h
      | error e' => rw [hr] at h; simp [bind, Except.bind] at h; subst h; exact ih hr
    | case10 _ c l _ _ ih =>
      intro h
      cases hr : tok (some c) [] l with
      | ok r => rw [hr] at h; simp [bind, Except.bind] at h
      | error e' => rw [hr] at h; simp [bind, Except.bind] at h; subst h; exact ih hr
    | case11 => intro h; simpa using h.symm
    | case12 _ _ _ _ _ _ _ ih => exact ih
    | case13 _ _ _ _ _ _ ih => exact ih
  unfold tokenize at h
  cases hp : parse s with
  | error e' => rw [hp] at h; simp [bind, Except.bind] at h; subst h; exact Or.inl rfl
  | ok ns => rw [hp] at h; exact Or.inr (key _ _ _ h)

section
attribute [local instance] asciiUni

-- a string with quotes, an escaped quote, an escaped space and a macro is canonical
example : ∃ ns, parse (s% "-n \"a \\\" b\" c\\ d %{x}") = .ok ns ∧ Canonical (items ns) := by
  refine ⟨_, rfl, ?_⟩
  show Canonical ([.chr '-', .chr 'n', .chr ' ', .chr '"', .chr 'a', .chr ' ', .chr '\\', .chr '"', .chr ' ',
    .chr 'b', .chr '"', .chr ' ', .chr 'c', .chr '\\', .chr ' ', .chr 'd', .chr ' ', .mac (s% "%{x}")])
  have pl : ∀ {c l}, (isSpace c == false && c != '"' && c != '\'' && c != '\\') = true →
      Canonical l → Canonical (.chr c :: l) := by
    intro c l h; simp at h; exact .plain ⟨h.1.1.1, h.1.1.2, h.1.2, h.2⟩
  refine pl rfl (pl rfl (.space rfl ?_))
  refine .quoted (b := [.chr 'a', .chr ' ', .chr '\\', .chr '"', .chr ' ', .chr 'b'])
    (Or.inl rfl) ?_ (by simp) ?_
  · exact .chr (by decide) (by decide) (.chr (by decide) (by decide) (.esc
      (.chr (by decide) (by decide) (.chr (by decide) (by decide) .nil))))
  · exact .space rfl (pl rfl (.escaped (Or.inl rfl) (pl rfl (.space rfl (.mac (by decide) .nil)))))

-- tokens of every type that are recovered
example : GoodTokens [⟨.default, s% "-n"⟩, ⟨.whitespace, s% " "⟩, ⟨.doubleQuoted, s% "a \" b"⟩,
    ⟨.quoted, s% "x"⟩, ⟨.default, s% "y z"⟩] := by
  simp only [GoodTokens, GoodToken]
  refine ⟨⟨by decide, by decide, by decide⟩, by decide, ⟨by decide, by decide, by decide⟩, by decide,
    ⟨by decide, by decide, ?_⟩, by decide, ⟨by decide, by decide, ?_⟩, by decide, by decide⟩
  · exact .chr (by decide) (.chr (by decide) (.chr (by decide) (.chr (by decide) (.chr (by decide) .nil))))
  · exact .chr (by decide) .nil
end

/-! ## reading options and positional arguments -/

/-- The value of an option is the text given at its last occurrence (an empty text reads as `True`,
digits as a number); an absent option reads as its default, or `False` for a flag. -/
theorem C29_get [Uni] {o : Opts} {ps : List Piece} (h : Reads o ps) {c : Char}
    (hc : valid o.optstring c = true) : get o c =
    match given c ps with
    | none => if requiresArg o.optstring c then .ok ((o.defaults.find? (·.1 == c)).map (·.2))
        else .ok (some (.bool false))
    | some [] => .ok (some (.bool true))
    | some v => (readValue v).map some := by
  rw [get_eq, optText_given h hc]
  cases given c ps with
  | none => rfl
  | some v => cases v <;> rfl

/-- Which assignments are refused: a Boolean to an option with an argument, anything else to a flag. -/
theorem C29_set_errors (o : Opts) (c : Char) (v : Option Val) :
    (∃ e, Options.set o c v = .error e) ↔
      (requiresArg o.optstring c = true ∧ ∃ b, v = some (.bool b)) ∨
      (requiresArg o.optstring c = false ∧ v ≠ none ∧ ∀ b, v ≠ some (.bool b)) := by
  unfold Options.set
  cases hr : requiresArg o.optstring c with
  | true =>
    simp only [Bool.true_and, Bool.not_true, Bool.false_and, Bool.false_eq_true, if_false]
    rcases v with _ | v
    · simp
    · cases v with
      | bool b => simp
      | int n => simp
      | str n => simp
  | false =>
    simp only [Bool.false_and, Bool.not_false, Bool.true_and, Bool.false_eq_true, if_false]
    rcases v with _ | v
    · simp
    · cases v with
      | bool b => simp
      | int n => simp
      | str n => simp

/-- C29 (full claim: after assigning a value to a recognized option, reading it returns the value).
This part: options with an argument, and values that can stand as an argument. Missing: texts that
are empty or start with a dash, negative numbers. -/
theorem C29_set_get_partial [Uni] {o o' : Opts} {c : Char} {v : Val} (hv0 : v.text ≠ [])
    (hv1 : v.text.head? ≠ some '-') (hset : Options.set o c (some v) = .ok o')
    (hb : ∀ b, v ≠ .bool b) :
    get o' c = match v with
      | .int n => .ok (some (.int n))
      | v => (readValue v.text).map some := by
  have hv : ArgText v.text := by
    refine ⟨hv0, ?_⟩
    cases ht : v.text with
    | nil => exact absurd ht hv0
    | cons d r => rw [ht] at hv1; simp at hv1; simp [startsWith, List.isPrefixOf, Ne.symm hv1]
  have hreq : requiresArg o.optstring c = true := by
    cases hr : requiresArg o.optstring c with
    | true => rfl
    | false =>
      have := (C29_set_errors o c (some v)).2 (Or.inr ⟨hr, by simp, by simpa using hb⟩)
      rw [hset] at this
      simp at this
  have hw := set_ok hset
  have htext : optText o' c = some v.text := by
    cases hin : optText o c with
    | none =>
      obtain ⟨⟨t, m, e1, e2, e3, e4, e5⟩, e6, _⟩ := set_appended hreq hb hv hin hw
      rw [optText_some e1 e2 (fun x hx => not_isOpt_of_dash (e4 x hx)), e6, e5]
    | some x =>
      obtain ⟨⟨r⟩, e6, _⟩ := set_replaced hreq hb hv (by simp [hin]) hw
      have hb' : ∀ x ∈ r.m' ++ r.b, isOpt c x = false := by
        intro x hx
        rcases List.mem_append.1 hx with hx | hx
        · rcases r.arg' with h0 | ⟨y, h0, h1, _⟩ | ⟨w, y, h0, h1, _, h2⟩
          · rw [h0] at hx; simp at hx
          · rw [h0] at hx; simp at hx; subst hx; exact not_isOpt_of_dash h1
          · rw [h0] at hx; simp at hx
            rcases hx with rfl | rfl
            · rcases h2 with h2 | h2
              · exact r.last _ (by simp [h2])
              · exact not_isOpt_of_dash (by simp [dash, h2, startsWith, List.isPrefixOf])
            · exact not_isOpt_of_dash h1
        · exact r.last x (by simp [hx])
      rw [optText_some r.after r.opt' hb', e6, r.text]
  rw [get_eq, htext]
  have he : (v.text).isEmpty = false := by simpa using hv0
  simp only [he, Bool.false_eq_true, if_false]
  cases v with
  | bool b => exact absurd rfl (hb b)
  | str s => rfl
  | int n =>
    have hn : 0 ≤ n := by
      cases n with
      | ofNat k => exact Int.natCast_nonneg k
      | negSucc k => simp [Val.text, intStr] at hv1
    simp only [Val.text, readValue_int hn]; rfl

/-- C29: a flag that is absent can be set. -/
theorem C29_set_flag_partial [Uni] {o o' : Opts} {c : Char} (habs : ∀ t ∈ o.tokens, isOpt c t = false)
    (hset : Options.set o c (some (.bool true)) = .ok o') : get o' c = .ok (some (.bool true)) := by
  have hreq : requiresArg o.optstring c = false := by
    cases hr : requiresArg o.optstring c with
    | false => rfl
    | true =>
      have := (C29_set_errors o c (some (.bool true))).2 (Or.inl ⟨hr, _, rfl⟩)
      rw [hset] at this
      simp at this
  have hw := set_ok hset
  unfold write at hw
  rw [find_none habs] at hw
  simp only at hw
  subst hw
  rw [get_eq, optText_some (t := ⟨.default, ['-', c]⟩) (b := []) rfl
    (by simp [isOpt, startsWith]) (by simp)]
  simp [textOf, hreq]

/-- C29, the other options: assigning a value to one option does not change how any other option
reads. (Whitespace tokens do not look like options, as is the case in everything `tokenize` returns,
see `C29_tokenize_sane`, and the option string does not end in whitespace.) -/
theorem C29_set_others_partial [Uni] {o o' : Opts} {c d : Char} {v : Val} (hcd : d ≠ c)
    (hsane : ∀ t ∈ o.tokens, t.type = .whitespace → ¬ Dash t)
    (hlast : ∀ t, o.tokens.getLast? = some t → t.type ≠ .whitespace)
    (hv0 : v.text ≠ []) (hv1 : v.text.head? ≠ some '-')
    (hset : Options.set o c (some v) = .ok o') (hb : ∀ b, v ≠ .bool b) : get o' d = get o d := by
  have hv : ArgText v.text := by
    refine ⟨hv0, ?_⟩
    cases ht : v.text with
    | nil => exact absurd ht hv0
    | cons d r => rw [ht] at hv1; simp at hv1; simp [startsWith, List.isPrefixOf, Ne.symm hv1]
  have hreq : requiresArg o.optstring c = true := by
    cases hr : requiresArg o.optstring c with
    | true => rfl
    | false =>
      have := (C29_set_errors o c (some v)).2 (Or.inr ⟨hr, by simp, by simpa using hb⟩)
      rw [hset] at this
      simp at this
  have hw := set_ok hset
  have other : ∀ {t}, isOpt c t = true → isOpt d t = false := by
    intro t ht
    cases h : isOpt d t with
    | false => rfl
    | true => exact absurd (isOpt_unique h ht) hcd
  cases hin : optText o c with
  | none =>
    obtain ⟨⟨t, m, e1, e2, e3, e4, e5⟩, e6, e7⟩ := set_appended hreq hb hv hin hw
    refine get_congr (optText_append e1 e6 rfl (isOpt_dash e2) e3 (other e2)
      (fun x hx => not_isOpt_of_dash (e4 x hx)) ?_) e6 e7
    intro t ht
    exact ws_false (hlast t ht)
  | some x =>
    obtain ⟨⟨r⟩, e6, e7⟩ := set_replaced hreq hb hv (by simp [hin]) hw
    have hsane' : ∀ x ∈ r.m, ws x = true → isOpt d x = false := by
      intro x hx hws
      refine not_isOpt_of_dash (not_dash (hsane x (by rw [r.before]; simp [hx]) ?_))
      simpa [ws] using hws
    have ht : ws r.t = false := by
      cases h : ws r.t with
      | false => rfl
      | true =>
        have := hsane r.t (by rw [r.before]; simp) (by simpa [ws] using h)
        exact absurd (dash_iff.1 (isOpt_dash r.opt)) this
    refine get_congr (optText_frame r.before r.after e6 (isOpt_dash r.opt) ht (isOpt_dash r.opt') ?_
      (other r.opt) (other r.opt') ?_ ?_) e6 e7
    · simpa [ws, r.type] using ht
    · intro x hx
      rcases r.arg with h0 | ⟨y, h0, h1, _⟩ | ⟨w, y, h0, h1, h2⟩
      · rw [h0] at hx; simp at hx
      · rw [h0] at hx; simp at hx; subst hx; exact not_isOpt_of_dash h1
      · have hx' := hx
        rw [h0] at hx; simp at hx
        rcases hx with rfl | rfl
        · exact hsane' _ hx' h2
        · exact not_isOpt_of_dash h1
    · intro x hx
      rcases r.arg' with h0 | ⟨y, h0, h1, _⟩ | ⟨w, y, h0, h1, h2, h3⟩
      · rw [h0] at hx; simp at hx
      · rw [h0] at hx; simp at hx; subst hx; exact not_isOpt_of_dash h1
      · rw [h0] at hx; simp at hx
        rcases hx with rfl | rfl
        · rcases h3 with h3 | h3
          · exact hsane' _ h3 h2
          · exact not_isOpt_of_dash (by simp [dash, h3, startsWith, List.isPrefixOf])
        · exact not_isOpt_of_dash h1

/-- C29, the rest of the text: apart from the option and its argument, the tokens stay. -/
theorem C29_set_tokens {o o' : Opts} {c : Char} {v : Val} (hv0 : v.text ≠ [])
    (hv1 : v.text.head? ≠ some '-') (hset : Options.set o c (some v) = .ok o')
    (hb : ∀ b, v ≠ .bool b) :
    ∃ a m m' b, o.tokens = a ++ m ++ b ∧ o'.tokens = a ++ m' ++ b ∧ m.length ≤ 3 ∧ m'.length ≤ 4 ∧
      (∀ t ∈ m.head?, isOpt c t = true) ∧ (m = [] → b = []) := by
  have hv : ArgText v.text := by
    refine ⟨hv0, ?_⟩
    cases ht : v.text with
    | nil => exact absurd ht hv0
    | cons d r => rw [ht] at hv1; simp at hv1; simp [startsWith, List.isPrefixOf, Ne.symm hv1]
  have hreq : requiresArg o.optstring c = true := by
    cases hr : requiresArg o.optstring c with
    | true => rfl
    | false =>
      have := (C29_set_errors o c (some v)).2 (Or.inr ⟨hr, by simp, by simpa using hb⟩)
      rw [hset] at this
      simp at this
  have hw := set_ok hset
  cases hin : optText o c with
  | none =>
    have hn := optText_none.1 hin
    unfold write at hw
    rw [find_none hn] at hw
    refine ⟨o.tokens, [], o'.tokens.drop o.tokens.length, [], by simp, ?_, by simp, ?_, by simp, by simp⟩
    · cases v with
      | bool x => exact absurd rfl (hb x)
      | int n => subst hw; simp
      | str s => subst hw; simp
    · cases v with
      | bool x => exact absurd rfl (hb x)
      | int n => subst hw; simp; split <;> simp
      | str s => subst hw; simp; split <;> simp
  | some x =>
    obtain ⟨⟨r⟩, e6, e7⟩ := set_replaced hreq hb hv (by simp [hin]) hw
    refine ⟨r.a, r.t :: r.m, r.t' :: r.m', r.b, by simp [r.before], by simp [r.after], ?_, ?_, ?_, by simp⟩
    · rcases r.arg with h | ⟨_, h, _⟩ | ⟨_, _, h, _⟩ <;> simp [h]
    · rcases r.arg' with h | ⟨_, h, _⟩ | ⟨_, _, h, _⟩ <;> simp [h]
    · simpa using r.opt

/-- Whitespace tokens coming from `tokenize` are made of whitespace. -/
theorem C29_tokenize_sane [Uni] {s : Str} {ts : List Token} (h : tokenize s = .ok ts) :
    ∀ t ∈ ts, t.type = .whitespace → t.value ≠ [] ∧ (∀ c ∈ t.value, isSpace c = true) ∧ ¬ Dash t := by
  unfold tokenize at h
  cases hp : parse s with
  | error e => rw [hp] at h; simp [bind, Except.bind] at h
  | ok ns =>
    rw [hp] at h
    intro t ht hty
    have := tok_sane (h : tok none [] (items ns) = .ok ts) t ht hty
    refine ⟨this.1, this.2, ?_⟩
    rintro ⟨v, hv⟩
    have := this.2 '-' (by simp [hv])
    exact absurd this (by decide)

/-- The full claim of C29 fails: setting a flag that is set already makes it unreadable as a flag,
and a value starting with a dash is not read back. -/
theorem C29_set_get_violation : ∃ u : Uni,
    (∃ o', Options.set ⟨[⟨.default, s% "-q"⟩], s% "q", []⟩ 'q' (some (.bool true)) = .ok o' ∧
      tokensStr o'.tokens = s% "-qTrue" ∧ @get u o' 'q' = .ok (some (.str (s% "True")))) ∧
    (∃ o', Options.set ⟨[], s% "n:", []⟩ 'n' (some (.str (s% "-x"))) = .ok o' ∧
      @get u o' 'n' = .ok (some (.bool true))) :=
  ⟨asciiUni, ⟨_, rfl, rfl, rfl⟩, ⟨_, rfl, rfl⟩⟩

section
attribute [local instance] asciiUni
-- setting an option that is present with its argument in the next word
example : ∃ o', Options.set ⟨[⟨.default, s% "-n"⟩, ⟨.whitespace, s% " "⟩, ⟨.default, s% "a"⟩,
      ⟨.whitespace, s% " "⟩, ⟨.default, s% "-q"⟩], s% "n:q", []⟩ 'n' (some (.str (s% "b c"))) = .ok o' ∧
    tokensStr o'.tokens = s% "-n \"b c\" -q" ∧ get o' 'n' = .ok (some (.str (s% "b c"))) ∧
    get o' 'q' = .ok (some (.bool true)) := ⟨_, rfl, rfl, rfl, rfl⟩
end

/-! ## C30: deleting -/

/-- C30 (full claim: deleting an option that occurs once removes it and changes nothing else).
Missing: a bare flag that follows whitespace, see `C30_delete_violation`. -/
theorem C30_delete_partial [Uni] {o : Opts} {a b : List Piece} {p : Piece} {c : Char}
    (h : Reads o (a ++ p :: b)) (hc : valid o.optstring c = true)
    (hp : p.given c ≠ none) (ha : given c a = none) (hb : given c b = none)
    (hflag : (∃ t, p = .flag t ∧ t.value = ['-', c]) → ∀ w, a.getLast? ≠ some (.space w)) :
    (∀ t ∈ (del o c).tokens, ∀ v, t.value ≠ '-' :: c :: v) ∧
    (∀ d, d ≠ c → valid o.optstring d = true → get (del o c) d = get o d) ∧
    positionalValues (del o c) = positionalValues o := by
  obtain ⟨v, hv⟩ := Option.ne_none_iff_exists'.1 hp
  have hflag' : p.toks.map (·.value) = [['-', c]] → ∀ w, a.getLast? ≠ some (.space w) := by
    intro hb
    cases p with
    | flag t => exact hflag ⟨t, rfl, by simpa [Piece.toks] using hb⟩
    | space t => simp [Piece.given] at hp
    | word t => simp [Piece.given] at hp
    | withArg t s x => simp [Piece.toks] at hb
  obtain ⟨a', b', ht, e1, e2, e3⟩ := del_pieces h hc hv hb hflag'
  have hok : ∀ q ∈ a' ++ b', q.OK o.optstring := by
    intro q hq
    rcases List.mem_append.1 hq with hq | hq
    · exact h.ok q (by simp [ht.mem.1 q hq])
    · exact h.ok q (by simp [ht.mem.2 q hq])
  have hr : Reads (del o c) (a' ++ b') := ⟨e1, by rw [e2]; exact hok⟩
  have hno : given c (a' ++ b') = none := by
    rw [given_append, (ht.given c).1, (ht.given c).2, ha, hb]; rfl
  refine ⟨?_, ?_, ?_⟩
  · intro t htt v hv
    have := given_none_isOpt hok hno t (by rw [← e1]; exact htt)
    rw [isOpt_iff.2 ⟨v, hv⟩] at this
    simp at this
  · intro d hd hvd
    refine get_congr ?_ e2 e3
    rw [optText_given hr (by rw [e2]; exact hvd), optText_given h hvd, given_append, given_append,
      (ht.given d).1, (ht.given d).2]
    have : p.given d = none := by
      cases p with
      | space t => rfl
      | word t => rfl
      | flag t =>
        simp only [Piece.given] at hv ⊢
        split at hv
        · next x y hxy =>
          split at hv
          · next hx => rw [if_neg (by rw [hx]; exact Ne.symm hd)]
          · simp at hv
        · simp at hv
      | withArg t s x =>
        simp only [Piece.given] at hv ⊢
        split at hv
        · next hx => rw [if_neg (by rw [hx]; simpa using Ne.symm hd)]
        · simp at hv
    simp [given, this]
  · rw [positionalValues_eq hr, positionalValues_eq h]
    have : posWords (p :: b) = posWords b := by
      cases p with
      | word t => simp [Piece.given] at hp
      | space t => rfl
      | flag t => rfl
      | withArg t s x => rfl
    simp [ht.words.1, ht.words.2, this]

/-- The full claim of C30 fails: deleting a flag that follows whitespace deletes the whitespace
instead of the flag. -/
theorem C30_delete_violation :
    let o : Opts := ⟨[⟨.default, s% "-n"⟩, ⟨.whitespace, s% " "⟩, ⟨.default, s% "foo"⟩,
      ⟨.whitespace, s% " "⟩, ⟨.default, s% "-q"⟩], s% "n:q", []⟩
    tokensStr o.tokens = s% "-n foo -q" ∧ tokensStr (del o 'q').tokens = s% "-n foo-q" := by
  decide

/-- Deleting an absent option changes nothing. -/
theorem C30_delete_absent {o : Opts} {c : Char} (h : ∀ t ∈ o.tokens, ∀ v, t.value ≠ '-' :: c :: v) :
    del o c = o := by
  unfold del
  rw [find_none]
  intro t ht
  cases hi : isOpt c t with
  | false => rfl
  | true => obtain ⟨v, hv⟩ := isOpt_iff.1 hi; exact absurd hv (h t ht v)

-- `%setup -q -n foo bar`: deleting `-n` meets the hypotheses
example : Reads ⟨[⟨.default, s% "-q"⟩, ⟨.whitespace, s% " "⟩, ⟨.default, s% "-n"⟩,
      ⟨.whitespace, s% " "⟩, ⟨.default, s% "foo"⟩, ⟨.whitespace, s% " "⟩, ⟨.default, s% "bar"⟩],
      s% "n:q", []⟩
    ([.flag ⟨.default, s% "-q"⟩, .space ⟨.whitespace, s% " "⟩] ++
      .withArg ⟨.default, s% "-n"⟩ (some ⟨.whitespace, s% " "⟩) ⟨.default, s% "foo"⟩ ::
      [.space ⟨.whitespace, s% " "⟩, .word ⟨.default, s% "bar"⟩]) := by
  refine ⟨rfl, ?_⟩
  have hn : TakesArg (s% "n:q") 'n' := ⟨by decide, [], ['q'], rfl, by simp⟩
  have hq : ¬ TakesArg (s% "n:q") 'q' := by
    rw [← requiresArg_iff (by decide)]; decide
  intro p hp
  simp at hp
  rcases hp with rfl | rfl | rfl | rfl | rfl
  · refine ⟨by simp, ⟨_, rfl⟩, ?_⟩
    rintro c hc h
    simp at h
    subst h
    exact hq hc
  · exact ⟨rfl, by simp [Dash]⟩
  · exact ⟨by simp, ⟨'n', hn, rfl⟩, by simp [Dash], by simp, by simp [Dash]⟩
  · exact ⟨rfl, by simp [Dash]⟩
  · exact ⟨by simp, by simp [Dash]⟩

/-! ## C31: options as a mapping -/

theorem mem_distinct {c : Char} {l : List Char} : c ∈ distinct l ↔ c ∈ l := by
  induction l with
  | nil => simp [distinct]
  | cons d l ih =>
    simp only [distinct]
    split
    · next h =>
      simp only [List.contains_iff_mem] at h
      rw [ih, List.mem_cons]
      constructor
      · exact Or.inr
      · rintro (rfl | h')
        · exact ih.1 h
        · exact h'
    · simp [ih]

theorem nodup_distinct (l : List Char) : (distinct l).Nodup := by
  induction l with
  | nil => simp [distinct]
  | cons d l ih =>
    simp only [distinct]
    split
    · exact ih
    · next h => exact List.nodup_cons.2 ⟨by simpa using h, ih⟩

theorem length_le_of_subset {a : List Char} (h : a.Nodup) : ∀ {b : List Char}, (∀ x ∈ a, x ∈ b) →
    a.length ≤ b.length := by
  induction a with
  | nil => simp
  | cons x a ih =>
    intro b hb
    have hx := hb x (by simp)
    have := ih (List.nodup_cons.1 h).2 (b := b.erase x) (by
      intro y hy
      have hne : y ≠ x := by rintro rfl; exact (List.nodup_cons.1 h).1 hy
      exact (List.mem_erase_of_ne hne).2 (hb y (by simp [hy])))
    rw [List.length_erase_of_mem hx] at this
    have : 0 < b.length := List.length_pos_of_mem hx
    simp; omega

/-- C31: a key is iterated iff it is recognized and some token specifies it. -/
theorem C31_keys (o : Opts) (c : Char) :
    c ∈ keys o ↔ c ∈ o.optstring ∧ c ≠ ':' ∧ ∃ t ∈ o.tokens, ∃ v, t.value = '-' :: c :: v := by
  unfold keys
  simp only [List.mem_filter, bne_iff_ne]
  have : (find o c).1.isSome = true ↔ ∃ t ∈ o.tokens, ∃ v, t.value = '-' :: c :: v := by
    cases hl : lastIdx (isOpt c) o.tokens with
    | none =>
      rw [find_none (lastIdx_none.1 hl)]
      simp only [Option.isSome_none, Bool.false_eq_true, false_iff]
      rintro ⟨t, ht, hv⟩
      have := lastIdx_none.1 hl t ht
      rw [isOpt_iff.2 hv] at this
      simp at this
    | some i =>
      obtain ⟨a, t, b, e1, _, e3, e4⟩ := lastIdx_some hl
      rw [find_some e1 e3 e4]
      simp only [Option.isSome_some, true_iff]
      exact ⟨t, by simp [e1], isOpt_iff.1 e3⟩
  rw [this, and_assoc]

/-- C31: the length is the number of iterated keys, if the specification lists no option twice
and whitespace tokens do not look like options. -/
theorem C31_len (o : Opts) (hd : (o.optstring.filter (· != ':')).Nodup)
    (hs : ∀ t ∈ o.tokens, t.type = .whitespace → ¬ Dash t) : len o = (keys o).length := by
  have mem : ∀ c, c ∈ distinct (o.tokens.filterMap (optLetter o.optstring)) ↔ c ∈ keys o := by
    intro c
    rw [mem_distinct, C31_keys, List.mem_filterMap]
    constructor
    · rintro ⟨t, ht, h⟩
      unfold optLetter at h
      split at h
      · simp at h
      · split at h
        · next d v hv =>
          split at h
          · next hval =>
            simp at h; subst h
            simp [valid] at hval
            exact ⟨hval.1, hval.2, t, ht, v, hv⟩
          · simp at h
        · simp at h
    · rintro ⟨h1, h2, t, ht, v, hv⟩
      refine ⟨t, ht, ?_⟩
      unfold optLetter
      have : t.type ≠ .whitespace := fun e => hs t ht e ⟨_, hv⟩
      rw [if_neg this, hv]
      have : valid o.optstring c = true := by simp [valid, h1, h2]
      simp [this]
  apply Nat.le_antisymm
  · exact length_le_of_subset (nodup_distinct _) (fun x hx => (mem x).1 hx)
  · exact length_le_of_subset (List.Pairwise.filter _ hd) (fun x hx => (mem x).2 hx)

/-- iterating yields no key twice -/
theorem C31_keys_nodup (o : Opts) (hd : (o.optstring.filter (· != ':')).Nodup) : (keys o).Nodup :=
  List.Pairwise.filter _ hd

example : (List.filter (· != ':') (s% "a:b:cn:q")).Nodup ∧
    keys ⟨[⟨.default, s% "-q"⟩, ⟨.whitespace, s% " "⟩, ⟨.default, s% "-n"⟩, ⟨.default, s% "-q1"⟩], s% "a:b:cn:q", []⟩
      = ['n', 'q'] := by decide

/-! ## C32: positional arguments as a list -/

/-- C32, reading: the positional arguments are the words that are neither options nor arguments of
options. -/
theorem C32_values {o : Opts} {ps : List Piece} (h : Reads o ps) : positionalValues o = posWords ps :=
  positionalValues_eq h

/-- C32: `positional[i]` is the `i`-th word, with Python's negative indices. -/
theorem C32_getitem [Uni] {o : Opts} {ps : List Piece} (h : Reads o ps) (i : Int) :
    posGet o i = match pyIndex (posWords ps).length i with
      | none => .error .indexError
      | some k => readValue ((posWords ps).getD k []) := by
  unfold posGet
  rw [positionalIdx_eq h, wordIdx_length]
  cases hk : pyIndex (posWords ps).length i with
  | none => rfl
  | some k =>
    have hlt := pyIndex_lt hk
    have hval := positionalValues_eq h
    unfold positionalValues at hval
    rw [positionalIdx_eq h] at hval
    simp only
    congr 1
    rw [← hval]
    rw [List.getD_eq_getElem?_getD, List.getD_eq_getElem?_getD, List.getElem?_map]
    have : k < (wordIdx 0 ps).length := by rw [wordIdx_length]; exact hlt
    rw [List.getElem?_eq_getElem this]
    simp

theorem reads_set {o : Opts} {a b : List Piece} {t : Token} (h : Reads o (a ++ .word t :: b)) {v : Str}
    (hv : v.head? ≠ some '-') :
    Reads { o with tokens := o.tokens.modify (toks a).length (fun t => { t with value := v }) }
      (a ++ .word { t with value := v } :: b) := by
  refine ⟨?_, ?_⟩
  · simp only [h.tokens, toks_append, toks_cons, Piece.toks, List.cons_append, List.nil_append]
    rw [modify_here]
  · intro q hq
    simp only [List.mem_append, List.mem_cons] at hq
    rcases hq with hq | rfl | hq
    · exact h.ok q (by simp [hq])
    · refine ⟨(h.ok (.word t) (by simp)).1, ?_⟩
      rintro ⟨w, hw⟩
      simp at hw
      simp [hw] at hv
    · exact h.ok q (by simp [hq])

theorem given_word (c : Char) (a b : List Piece) (t : Token) :
    given c (a ++ .word t :: b) = given c (a ++ b) := by
  simp [given_append, given, Piece.given]

/-- C32: assigning to a positional argument is list assignment and leaves the options alone.
Missing: values starting with a dash. -/
theorem C32_setitem_partial [Uni] {o o' : Opts} {ps : List Piece} (h : Reads o ps) {i : Int} {v : Val}
    (hv : v.text.head? ≠ some '-') (hset : posSet o i v = .ok o') :
    ∃ k, pyIndex (positionalValues o).length i = some k ∧
      positionalValues o' = (positionalValues o).set k v.text ∧
      ∀ c, valid o.optstring c = true → get o' c = get o c := by
  unfold posSet at hset
  rw [positionalIdx_eq h, wordIdx_length] at hset
  rw [positionalValues_eq h]
  cases hk : pyIndex (posWords ps).length i with
  | none => rw [hk] at hset; simp at hset
  | some k =>
    rw [hk] at hset
    simp only [Except.ok.injEq] at hset
    obtain ⟨a, t, b, rfl, e2⟩ := words_split (pyIndex_lt hk)
    have hi := positionalIdx_at h
    rw [positionalIdx_eq h, e2] at hi
    rw [hi] at hset
    subst hset
    have hr := reads_set h hv
    refine ⟨k, rfl, ?_, ?_⟩
    · rw [positionalValues_eq hr]
      simp [posWords, ← e2]
    · intro c hc
      refine get_congr ?_ rfl rfl
      rw [optText_given hr hc, optText_given h hc, given_word, given_word]

/-- C32: deleting a positional argument is list deletion and leaves the options alone; the rest can be read as before. -/
theorem C32_delitem [Uni] {o o' : Opts} {ps : List Piece} (h : Reads o ps) {i : Int}
    (hdel : posDel o i = .ok o') :
    ∃ k, pyIndex (positionalValues o).length i = some k ∧
      positionalValues o' = (positionalValues o).eraseIdx k ∧
      (∀ c, valid o.optstring c = true → get o' c = get o c) ∧
      (∃ ps', Reads o' ps') ∧ o'.optstring = o.optstring := by
  unfold posDel at hdel
  rw [positionalIdx_eq h, wordIdx_length] at hdel
  rw [positionalValues_eq h]
  cases hk : pyIndex (posWords ps).length i with
  | none => rw [hk] at hdel; simp at hdel
  | some k =>
    rw [hk] at hdel
    simp only [Except.ok.injEq] at hdel
    obtain ⟨a, t, b, rfl, e2⟩ := words_split (pyIndex_lt hk)
    have hi := positionalIdx_at h
    rw [positionalIdx_eq h, e2] at hi
    rw [hi] at hdel
    obtain ⟨a', b', ht, e⟩ := delToken_pieces h
    subst hdel
    have hr : Reads { o with tokens := delToken o.tokens (toks a).length } (a' ++ b') := by
      refine ⟨e, ?_⟩
      intro q hq
      rcases List.mem_append.1 hq with hq | hq
      · exact h.ok q (by simp [ht.mem.1 q hq])
      · exact h.ok q (by simp [ht.mem.2 q hq])
    refine ⟨k, rfl, ?_, ?_, ⟨_, hr⟩, rfl⟩
    · rw [positionalValues_eq hr]
      simp only [posWords_append, posWords, ht.words.1, ht.words.2, ← e2]
      rw [eraseIdx_here]
    · intro c hc
      refine get_congr ?_ rfl rfl
      rw [optText_given hr hc, optText_given h hc, given_word, given_append, given_append,
        (ht.given c).1, (ht.given c).2]

/-- An index out of range is refused, for reading, assigning and deleting alike. -/
theorem C32_index_errors [Uni] {o : Opts} {ps : List Piece} (h : Reads o ps) (i : Int) (v : Val)
    (hi : pyIndex (posWords ps).length i = none) :
    posGet o i = .error .indexError ∧ posSet o i v = .error .indexError ∧
      posDel o i = .error .indexError := by
  simp [posGet, posSet, posDel, positionalIdx_eq h, wordIdx_length, hi]

/-- C32: inserting a positional argument is list insertion and leaves the options alone; the rest can be read as before.
Missing: values starting with a dash; the printed text is not claimed to separate the new argument
from its neighbours, see `C32_insert_violation`. -/
theorem C32_insert_partial [Uni] {o o' : Opts} {ps : List Piece} (h : Reads o ps) {i : Int} {v : Val}
    (hv : v.text.head? ≠ some '-') (hins : posInsert o i v = .ok o') :
    positionalValues o' = (positionalValues o).insertIdx (insertPos (positionalValues o).length i) v.text ∧
      (∀ c, valid o.optstring c = true → get o' c = get o c) ∧
      (∃ ps', Reads o' ps') ∧ o'.optstring = o.optstring := by
  -- inserting between two lists of pieces
  have put : ∀ a b : List Piece, ps = a ++ b → ∀ o' : Opts, o' =
      { o with tokens := o.tokens.take (toks a).length ++
        (if (toks a).length > 0 then [⟨.whitespace, [' ']⟩] else []) ++
        [⟨valueType v, v.text⟩] ++ o.tokens.drop (toks a).length } →
      positionalValues o' = posWords a ++ v.text :: posWords b ∧
      (∀ c, valid o.optstring c = true → get o' c = get o c) ∧
      (∃ ps', Reads o' ps') ∧ o'.optstring = o.optstring := by
    intro a b hab o' ho'
    subst hab ho'
    have hty : valueType v ≠ .whitespace := by unfold valueType; split <;> simp
    let sp : List Piece := if (toks a).length > 0 then [.space ⟨.whitespace, [' ']⟩] else []
    have hsp : toks sp = if (toks a).length > 0 then [⟨.whitespace, [' ']⟩] else [] := by
      simp only [sp]; split <;> rfl
    have hsw : posWords sp = [] := by simp only [sp]; split <;> rfl
    have hsg : ∀ c, given c sp = none := by intro c; simp only [sp]; split <;> rfl
    have hr : Reads { o with tokens := o.tokens.take (toks a).length ++
        (if (toks a).length > 0 then [⟨.whitespace, [' ']⟩] else []) ++
        [⟨valueType v, v.text⟩] ++ o.tokens.drop (toks a).length }
        (a ++ sp ++ .word ⟨valueType v, v.text⟩ :: b) := by
      refine ⟨?_, ?_⟩
      · simp only [h.tokens, toks_append, toks_cons, Piece.toks, List.take_left, List.drop_left, hsp,
          List.append_assoc]
      · intro q hq
        simp only [List.mem_append, List.mem_cons] at hq
        rcases hq with (hq | hq) | rfl | hq
        · exact h.ok q (by simp [hq])
        · simp only [sp] at hq
          split at hq
          · simp at hq; subst hq; exact ⟨rfl, by simp [Dash]⟩
          · simp at hq
        · refine ⟨hty, ?_⟩
          rintro ⟨w, hw⟩
          simp at hw
          simp [hw] at hv
        · exact h.ok q (by simp [hq])
    refine ⟨?_, ?_, ⟨_, hr⟩, rfl⟩
    · rw [positionalValues_eq hr]
      simp [posWords, hsw]
    · intro c hc
      refine get_congr ?_ rfl rfl
      rw [optText_given hr hc, optText_given h hc, given_word]
      simp [given_append, hsg]
  have insertLen : ∀ (x y : List Str), (x ++ y).insertIdx x.length v.text = x ++ v.text :: y := by
    intro x y
    induction x with
    | nil => rfl
    | cons z x ih => simp [ih]
  have htl : o.tokens.length = (toks ps).length := by rw [h.tokens]
  unfold posInsert at hins
  simp only [positionalIdx_eq h, wordIdx_length] at hins
  rw [positionalValues_eq h]
  split at hins
  · next hlt =>
    split at hins
    · next hemp =>
      simp only [Except.ok.injEq] at hins
      have h0 : posWords ps = [] := by
        have : (wordIdx 0 ps).length = 0 := by simpa using hemp
        rw [wordIdx_length] at this
        exact List.length_eq_zero_iff.1 this
      have := put ps [] (by simp) o' (by rw [← hins, htl])
      rw [h0] at this ⊢
      refine ⟨?_, this.2⟩
      rw [this.1]
      have : insertPos (List.length ([] : List Str)) i = 0 := by
        rw [h0] at hlt; simp at hlt
        unfold insertPos; rw [if_neg (by omega)]; simp; omega
      rw [this]; rfl
    · next hne =>
      split at hins
      · simp at hins
      · next k hk =>
        simp only [Except.ok.injEq] at hins
        obtain ⟨a, t, b, rfl, e2⟩ := words_split (pyIndex_lt hk)
        have hi := positionalIdx_at h
        rw [positionalIdx_eq h, e2] at hi
        rw [hi] at hins
        have hpos : insertPos (posWords (a ++ .word t :: b)).length i = (posWords a).length := by
          rw [e2]
          unfold pyIndex at hk
          unfold insertPos
          split at hk
          · next h0 =>
            rw [if_pos h0]
            split at hk
            · simp at hk; omega
            · simp at hk
          · next h0 =>
            rw [if_neg h0]
            split at hk
            · simpa using hk
            · simp at hk
        rw [hpos]
        by_cases hcond : ((toks a).length > 0 && isWsAt o.tokens ((toks a).length - 1)) = true
        · simp only [hcond, if_true] at hins
          simp only [Bool.and_eq_true, decide_eq_true_eq] at hcond
          have hne : toks a ≠ [] := by intro h; rw [h] at hcond; simp at hcond
          have ht : o.tokens = toks a ++ t :: toks b := by rw [h.tokens]; simp [Piece.toks]
          have hw := hcond.2
          rw [ht, isWs_last _ _ _ hne] at hw
          simp only [beq_iff_eq, Option.map_eq_some_iff] at hw
          obtain ⟨w, f1, f2⟩ := hw
          obtain ⟨a', rfl⟩ := last_ws (fun p hp => h.ok p (by simp [hp])) f1 f2
          have hl : (toks (a' ++ [Piece.space w])).length - 1 = (toks a').length := by
            simp [Piece.toks]
          rw [hl] at hins
          have := put a' (.space w :: .word t :: b) (by simp) o' hins.symm
          refine ⟨?_, this.2⟩
          rw [this.1]
          have e : posWords (a' ++ [Piece.space w]) = posWords a' := by simp [posWords]
          rw [posWords_append, e, insertLen]
          rfl
        · simp only [hcond, Bool.false_eq_true, if_false] at hins
          have := put a (.word t :: b) rfl o' hins.symm
          refine ⟨?_, this.2⟩
          rw [this.1, posWords_append, insertLen]
  · next hge =>
    simp only [Except.ok.injEq] at hins
    have := put ps [] (by simp) o' (by rw [← hins, htl])
    refine ⟨?_, this.2⟩
    rw [this.1]
    have : insertPos (posWords ps).length i = (posWords ps).length := by
      unfold insertPos; rw [if_pos (by omega)]; omega
    rw [this]
    have := insertLen (posWords ps) []
    simp only [List.append_nil] at this
    exact this.symm

/-- C32 fails at the level of the text: inserting in front of the first token puts no whitespace
between the new argument and the old one; and an argument appended after an option that lacks its
argument becomes the argument of that option. -/
theorem C32_insert_violation : ∃ u : Uni,
    (∃ o', posInsert ⟨[⟨.default, s% "1"⟩], [], []⟩ 0 (.int 2) = .ok o' ∧
      positionalValues o' = [s% "2", s% "1"] ∧ tokensStr o'.tokens = s% "21") ∧
    (∃ o', posInsert ⟨[⟨.default, s% "-n"⟩], s% "n:", []⟩ 0 (.str (s% "x")) = .ok o' ∧
      positionalValues o' = [] ∧ @get u o' 'n' = .ok (some (.str (s% "x")))) :=
  ⟨asciiUni, ⟨_, rfl, by decide, by decide⟩, ⟨_, rfl, by decide, rfl⟩⟩

/-- C32: inserting raises exactly for an index below the first argument, if there is one. -/
theorem C32_insert_raises (o : Opts) (i : Int) (v : Val) (e : Err) : posInsert o i v = .error e ↔
    e = .indexError ∧ positionalValues o ≠ [] ∧ i < -((positionalValues o).length : Int) := by
  have hlen : (positionalValues o).length = (positionalIdx o).length := by simp [positionalValues]
  have hnil : positionalValues o = [] ↔ positionalIdx o = [] := by simp [positionalValues]
  rw [hlen, ne_eq, hnil]
  unfold posInsert
  simp only
  split
  · split
    · rename_i h
      simp only [reduceCtorEq, false_iff]
      rintro ⟨-, h1, -⟩
      exact h1 (List.isEmpty_iff.1 h)
    · rename_i h1 h2
      unfold pyIndex
      cases hl : positionalIdx o with
      | nil => rw [hl] at h2; simp at h2
      | cons a l =>
        rw [hl] at h1
        by_cases hi : i < -((a :: l).length : Int)
        · rw [if_neg (by omega), if_neg (by omega)]
          simp [eq_comm]
          exact fun _ => by simpa using hi
        · have : ¬ (e = .indexError ∧ ¬ a :: l = [] ∧ i < -((a :: l).length : Int)) := fun h => hi h.2.2
          simp only [this, iff_false]
          split
          · rename_i hn
            repeat' split at hn
            all_goals first | cases hn; done | omega
          · simp
  · rename_i h
    simp only [reduceCtorEq, false_iff]
    rintro ⟨-, -, h1⟩
    omega

/-- Inserting fails only for a negative index below the length of a non-empty list, where a Python
list would insert at the front. -/
theorem C32_insert_error_violation : ∃ o : Opts, positionalValues o = [s% "1"] ∧
    posInsert o (-2) (.int 2) = .error .indexError :=
  ⟨⟨[⟨.default, s% "1"⟩], [], []⟩, by decide, rfl⟩

end Specfile.Props
