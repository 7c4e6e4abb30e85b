import Verif.Proof.Sections4
import Verif.Proof.MacroDefinitions7
/-
Reading back sections that were written.
-/
namespace Specfile.Sections
open Py Regex Spec Tags

theorem sectionNames_letters : ∀ t ∈ Constants.sectionNames,
    t ≠ [] ∧ ∀ c ∈ t, isAsciiAlpha c = true ∨ c = '_' := by decide +kernel

theorem sameLetters_word [Uni] {n w : Str} (h : SameLetters n w)
    (hn : ∀ c ∈ n, isAsciiAlpha c = true ∨ c = '_') : ∀ c ∈ w, Uni.isAlnum c = true ∨ c = '_' := by
  induction n generalizing w with
  | nil => cases w with
    | nil => simp
    | cons x xs => exact absurd h (by simp [SameLetters])
  | cons p ps ih =>
    cases w with
    | nil => simp
    | cons c cs =>
      intro x hx
      rcases List.mem_cons.mp hx with rfl | hx
      · rcases hn p (by simp) with hp | rfl
        · exact Or.inl (Uni.ieq_alnum p x hp h.1)
        · exact Or.inr (Uni.ieq_uncased '_' x (by decide) (by decide) h.1)
      · exact ih h.2 (fun y hy => hn y (by simp [hy])) x hx

theorem name_word [Uni] {n w : Str} (hn : n ∈ Constants.sectionNames) (h : SameLetters n w) :
    Word w ∧ '%' ∉ w := by
  have key := sameLetters_word h (sectionNames_letters n hn).2
  constructor
  · intro c hc
    rcases key c hc with h | rfl
    · exact Uni.alnum_not_space c h
    · decide
  · intro hc
    rcases key _ hc with h | h
    · rw [Uni.alnum_ascii _ (by decide)] at h
      exact absurd h (by decide)
    · exact absurd h (by decide)

theorem escape_last {p : Char → Bool} {v : Str} (hv : '\\' ∉ v) :
    (Options.escape p v).getLast? ≠ some '\\' := by
  induction v with
  | nil => simp [Options.escape]
  | cons c cs ih =>
    have hc : c ≠ '\\' := fun h => hv (by simp [h])
    have ih := ih (fun h => hv (by simp [h]))
    unfold Options.escape
    have e : ∀ x : Char, x ≠ '\\' → (x :: Options.escape p cs).getLast? ≠ some '\\' := by
      intro x hx
      cases h : Options.escape p cs with
      | nil => simpa using hx
      | cons y ys => rw [List.getLast?_cons_cons, ← h]; exact ih
    split
    · cases h : Options.escape p cs with
      | nil => simpa using hc
      | cons y ys => rw [List.getLast?_cons_cons, List.getLast?_cons_cons, ← h]; exact ih
    · exact e c hc

theorem token_last {t : Token} (h : GoodToken t) : (Options.tokenStr t).getLast? ≠ some '\\' := by
  obtain ⟨h1, h2, h3⟩ := h
  unfold Options.tokenStr
  cases ht : t.type with
  | whitespace =>
    rw [ht] at h3
    simp only at h3 ⊢
    intro h
    have := h3 _ (List.mem_of_getLast? h)
    exact absurd this (by decide)
  | quoted =>
    simp only
    rw [← List.cons_append, List.getLast?_concat]
    simp
  | doubleQuoted =>
    simp only
    rw [← List.cons_append, List.getLast?_concat]
    simp
  | default =>
    rw [ht] at h3
    exact escape_last h3

theorem tokenStr_ne_nil {t : Token} (h : GoodToken t) : Options.tokenStr t ≠ [] := by
  obtain ⟨h1, _⟩ := h
  unfold Options.tokenStr
  cases hv : t.value with
  | nil => exact absurd hv h1
  | cons c cs =>
    cases t.type with
    | whitespace => simp
    | quoted => simp
    | doubleQuoted => simp
    | default => simp only [Options.escape]; split <;> simp

theorem goodTokens_mem : ∀ {ts : List Token}, GoodTokens ts → ∀ t ∈ ts, GoodToken t
  | [], _ => by simp
  | [t], h => by simpa [GoodTokens] using h
  | t :: u :: l, h => by
    intro x hx
    rcases List.mem_cons.mp hx with rfl | hx
    · exact h.1
    · exact goodTokens_mem h.2.2 x hx

theorem tokens_last_ne {ts : List Token} (h : ∀ t ∈ ts, GoodToken t) :
    (Options.tokensStr ts).getLast? ≠ some '\\' := by
  induction ts with
  | nil => simp [Options.tokensStr]
  | cons t ts ih =>
    have ih := ih (fun x hx => h x (by simp [hx]))
    simp only [Options.tokensStr, List.map_cons, List.flatten_cons] at ih ⊢
    rw [List.getLast?_append]
    cases hl : ((ts.map Options.tokenStr).flatten).getLast? with
    | none => simpa using token_last (h t (by simp))
    | some c => rw [hl] at ih; simpa using ih

theorem tokens_head {ts : List Token} (h : ∀ t ∈ ts, GoodToken t)
    (hw : ∀ t ∈ ts.head?, t.type ≠ .whitespace) :
    ∀ c ∈ (Options.tokensStr ts).head?, isSpace c = false := by
  cases ts with
  | nil => simp [Options.tokensStr]
  | cons t ts =>
    have hw := hw t (by simp)
    have ht := h t (by simp)
    intro c hc
    simp only [Options.tokensStr, List.map_cons, List.flatten_cons] at hc
    have e : (Options.tokenStr t ++ (ts.map Options.tokenStr).flatten).head? = (Options.tokenStr t).head? := by
      cases hx : Options.tokenStr t with
      | nil => exact absurd hx (tokenStr_ne_nil ht)
      | cons y ys => rfl
    rw [e] at hc
    unfold Options.tokenStr at hc
    cases hty : t.type with
    | whitespace => exact absurd hty hw
    | quoted => rw [hty] at hc; simp at hc; subst hc; decide
    | doubleQuoted => rw [hty] at hc; simp at hc; subst hc; decide
    | default =>
      rw [hty] at hc
      simp only at hc
      cases hv : t.value with
      | nil => exact absurd hv ht.1
      | cons d ds =>
        rw [hv] at hc
        unfold Options.escape at hc
        split at hc
        · simp at hc; subst hc; decide
        · rename_i hd
          simp at hc; subst hc
          simp only [Options.isSpecial, Bool.or_eq_true, not_or] at hd
          simpa using hd.2

/-- the parts of the header of a good section -/
theorem good_header [Uni] {ex : Str → Except Err Str} {s : Section} (h : GoodSection s) {data : List Str}
    (hdata : s.data = data) :
    HeaderLine (headerOf s) ∧ ∃ p, HeaderText ex (headerOf s) p ∧ SectionFor p data s ∧
      (∀ d o, p.options = some (d, o) → ∀ ts, Options.tokenize o = .ok ts → Options.tokensStr ts = o) ∧
      (p.options = none → Uni.lower p.name ≠ preamble) := by
  obtain ⟨n, hn, hsame⟩ := h.name
  obtain ⟨hw, hp⟩ := name_word hn hsame
  have hgood : ∀ t ∈ s.options.tokens, GoodToken t := by
    rcases h.options with ⟨h1, _⟩ | ⟨_, _, h3, _⟩
    · simp [h1]
    · exact goodTokens_mem h3
  have hpct : '%' ∉ Options.tokensStr s.options.tokens :=
    Options.percent_printed (fun t ht => (hgood t ht).2.1)
  have hpd : '%' ∉ s.delimiter := by
    rcases h.options with ⟨_, h1⟩ | ⟨_, h1, _⟩
    · simp [h1]
    · intro hc; have := h1 _ hc; exact absurd this (by decide)
  have hkept : ∀ a w m, headerOf s = a ++ w ++ m → w ≠ [] → Spaces w → Word m → m.head? = some '%' →
      ExpandsInline ex m := by
    intro a w m he hne hsp _ hh
    exfalso
    cases a with
    | nil =>
      cases w with
      | nil => exact hne rfl
      | cons c cs =>
        simp [headerOf] at he
        have := hsp c (by simp)
        rw [← he.1] at this
        exact absurd this (by decide)
    | cons x a =>
      simp only [headerOf, List.cons_append, List.cons.injEq] at he
      have hm : '%' ∈ m := List.mem_of_mem_head? hh
      have : '%' ∈ s.name ++ s.delimiter ++ Options.tokensStr s.options.tokens := by
        rw [he.2]; simp [hm]
      simp only [List.mem_append] at this
      rcases this with (h | h) | h
      · exact hp h
      · exact hpd h
      · exact hpct h
  rcases h.options with ⟨h1, h2⟩ | ⟨h1, h2, h3, h4⟩
  · refine ⟨⟨n, hn, s.name, [], ?_, hsame, Or.inl rfl⟩, ⟨s.name, none, none⟩, ⟨?_, hw, by simp, by simp,
      fun _ => hkept⟩, ⟨h.known, rfl, h.optstring, h.defaults, ⟨h1, h2⟩, ⟨h.separator, hdata⟩⟩, by simp, ?_⟩
    · simp [headerOf, h1, h2, Options.tokensStr]
    · simp [headerOf, h1, h2, Options.tokensStr, pairText]
    · intro _; exact h.notPackage h2
  · have htok := Props.C10_print_tokenize h3
    refine ⟨⟨n, hn, s.name, s.delimiter ++ Options.tokensStr s.options.tokens, ?_, hsame, Or.inr ⟨?_, ?_⟩⟩,
      ⟨s.name, some (s.delimiter, Options.tokensStr s.options.tokens), none⟩, ⟨?_, hw, ?_, by simp, fun _ => hkept⟩,
      ⟨h.known, rfl, h.optstring, h.defaults, ⟨htok, rfl⟩, ⟨h.separator, hdata⟩⟩, ?_, by simp⟩
    · simp [headerOf]
    · cases hd : s.delimiter with
      | nil => exact absurd hd h1
      | cons c cs => exact ⟨c, by simp, h2 c (by simp [hd])⟩
    · rw [List.getLast?_append]
      cases hl : (Options.tokensStr s.options.tokens).getLast? with
      | none =>
        simp only [Option.none_or]
        intro hc
        have := h2 _ (List.mem_of_getLast? hc)
        exact absurd this (by decide)
      | some c =>
        have := tokens_last_ne hgood
        rw [hl] at this
        simpa using this
    · simp [headerOf, pairText]
    · intro d o he
      simp only [Option.some.injEq, Prod.mk.injEq] at he
      obtain ⟨rfl, rfl⟩ := he
      exact ⟨h1, h2, tokens_head hgood h4⟩
    · intro d o he ts ht
      simp only [Option.some.injEq, Prod.mk.injEq] at he
      obtain ⟨rfl, rfl⟩ := he
      rw [htok] at ht
      simp only [Except.ok.injEq] at ht
      rw [← ht]

/-- the lines of a good section -/
theorem good_raw [Uni] {s : Section} (h : GoodSection s) : rawSection s = sectionLines s := by
  obtain ⟨_, p, h1, h2, h3, h4⟩ := good_header (ex := fun _ => .ok []) h rfl
  have hn := normalizedId_ne h1 h2 h4
  unfold rawSection
  rw [if_neg hn, str_of_header h1 h2 h3 hn]
  apply splitlines_unlines
  intro x hx
  rcases List.mem_cons.mp hx with rfl | hx
  · exact h.oneLine
  · exact (h.data x hx).1

theorem sectionsOf_good [Uni] {ex : Nat → Str → Except Err Str} {inDef : Nat → Prop} {ss : List Section}
    (hs : ∀ s ∈ ss, GoodSection s) {i : Nat} {data : List Str} (hd : ∀ l ∈ data, ¬ HeaderLine l)
    (ho : ∀ (j : Nat) l, (data ++ raw ss)[j]? = some l → HeaderLine l → ¬ inDef (i + j)) :
    SectionsOf ex inDef i (data ++ raw ss) data ss := by
  induction data generalizing i with
  | cons l ls ih =>
    refine .line (Or.inr (hd l (by simp))) (ih (fun x hx => hd x (by simp [hx])) ?_)
    intro j x hj hx
    have := ho (j + 1) x (by simpa using hj) hx
    rwa [Nat.add_comm j 1, ← Nat.add_assoc] at this
  | nil =>
    induction ss generalizing i with
    | nil => exact .nil
    | cons s ss ih =>
      have hg := hs s (by simp)
      obtain ⟨hl, p, h1, h2, _⟩ := good_header (ex := ex i) hg rfl
      have e : raw (s :: ss) = headerOf s :: (s.data ++ raw ss) := by
        simp only [raw, List.map_cons, List.flatten_cons, good_raw hg, sectionLines, List.cons_append]
      simp only [List.nil_append, e] at ho ⊢
      refine .header (ho 0 _ (by simp) hl) hl h1 h2 ?_
      have ho' : ∀ (j : Nat) l, (s.data ++ raw ss)[j]? = some l → HeaderLine l → ¬ inDef (i + 1 + j) := by
        intro j x hj hx
        have := ho (j + 1) x (by simpa using hj) hx
        rwa [Nat.add_comm j 1, ← Nat.add_assoc] at this
      -- the lines of this section, then the next ones
      have hdat : ∀ l ∈ s.data, ¬ HeaderLine l := fun l hx => (hg.data l hx).2
      revert ho'
      generalize i + 1 = k
      generalize s.data = ds at hdat
      intro ho'
      induction ds generalizing k with
      | nil =>
        apply ih (fun x hx => hs x (by simp [hx])) (i := k)
        simpa using ho'
      | cons d ds ih2 =>
        refine .line (Or.inr (hdat d (by simp))) (ih2 (k + 1) (fun x hx => hdat x (by simp [hx])) ?_)
        intro j x hj hx
        have := ho' (j + 1) x (by simpa using hj) hx
        rwa [Nat.add_comm j 1, ← Nat.add_assoc] at this

theorem oneLine_nl {l : Str} (h : OneLine l) : '\n' ∉ l := by
  intro hc; have := h _ hc; simp [isLineBreak] at this

theorem parse_good [Uni] {ex : Conditions.Oracle} {ss : Sections} (h : GoodSections ss)
    (ho : HeadersOutside (raw ss)) : parse ex (raw ss) = .ok ss := by
  obtain ⟨data, rest, rfl, hd, hr⟩ := h
  have e : raw (preambleOf data :: rest) = data ++ raw rest := by
    simp only [raw, List.map_cons, List.flatten_cons, raw_preamble]
  have hone : ∀ l ∈ raw (preambleOf data :: rest), '\n' ∉ l := by
    rw [e]
    intro l hl
    rcases List.mem_append.mp hl with hl | hl
    · exact oneLine_nl (hd l hl).1
    · simp only [raw, List.mem_flatten, List.mem_map] at hl
      obtain ⟨_, ⟨s, hs, rfl⟩, hl⟩ := hl
      rw [good_raw (hr s hs)] at hl
      rcases List.mem_cons.mp hl with rfl | hl
      · exact oneLine_nl (hr s hs).oneLine
      · exact oneLine_nl ((hr s hs).data l hl).1
  rw [parse_iff hone]
  refine ⟨data, rest, rfl, ?_⟩
  rw [HeadersOutside] at ho
  revert ho
  generalize hdef : InDefinition (raw (preambleOf data :: rest)) = inDef
  rw [e]
  intro ho
  apply sectionsOf_good hr (fun l hl => (hd l hl).2)
  intro j l hj hl
  simpa using ho j l hj hl

/-- no definitions, no bodies -/
theorem not_inDefinition [Uni] {lines : List Str}
    (h : ∀ l ∈ lines, ¬ (s% "global" <:+: l ∨ s% "define" <:+: l)) (i : Nat) : ¬ InDefinition lines i := by
  have key : ∀ (ls : List (Str × Bool)) (buffer : List Str),
      (∀ l ∈ ls, ¬ (s% "global" <:+: l.1 ∨ s% "define" <:+: l.1)) →
      (MacroDefinitions.parseLoop buffer 0 ls).data = [] := by
    intro ls
    induction ls with
    | nil => intro b _; rfl
    | cons l ls ih =>
      intro b hl
      unfold MacroDefinitions.parseLoop
      cases hm : rmatch MacroDefinitions.mdRe l.1 with
      | none => exact ih _ (fun x hx => hl x (by simp [hx]))
      | some t =>
        exfalso
        obtain ⟨p, hp⟩ := MacroDefinitions.mdRe_inv hm
        apply hl l (by simp)
        rcases p.kw with h | h
        · left; rw [hp, h]; exact ⟨p.g1 ++ p.dnl ++ p.g3, p.g5 ++ p.g6 ++ p.g7 ++ p.g8 ++ p.g9 ++ p.r, by simp⟩
        · right; rw [hp, h]; exact ⟨p.g1 ++ p.dnl ++ p.g3, p.g5 ++ p.g6 ++ p.g7 ++ p.g8 ++ p.g9 ++ p.r, by simp⟩
  unfold InDefinition MacroDefinitions.excluded MacroDefinitions.parseLines MacroDefinitions.parseFlagged
  rw [key]
  · simp [Conditions.isExcluded]
  · intro l hl
    simp only [List.mem_map] at hl
    obtain ⟨x, hx, rfl⟩ := hl
    exact h x hx

/-- every line that starts with `%` has the parts of a header -/
theorem headerText_exists {ex : Str → Except Err Str} {l : Str}
    (hex : ∀ m e, ex m = .error e → e = .rpmException) (hl : l.head? = some '%') :
    ∃ p, HeaderText ex l p := by
  have split : ∀ t : Str, ∃ n d o, t = n ++ d ++ o ∧ Word n ∧ Spaces d ∧ (∀ c ∈ o.head?, isSpace c = false) ∧
      (d = [] → o = []) := by
    intro t
    refine ⟨t.takeWhile (fun c => !isSpace c), (t.dropWhile (fun c => !isSpace c)).takeWhile isSpace,
      (t.dropWhile (fun c => !isSpace c)).dropWhile isSpace, by simp [List.append_assoc, List.takeWhile_append_dropWhile], ?_, ?_, ?_, ?_⟩
    · intro c hc
      have := List.all_eq_true.mp List.all_takeWhile c hc
      simpa using this
    · intro c hc
      exact List.all_eq_true.mp List.all_takeWhile c hc
    · intro c hc
      generalize t.dropWhile (fun c => !isSpace c) = u at hc
      have := List.head?_dropWhile_not isSpace u
      rw [hc] at this
      simpa using this
    · intro h
      have hd := List.head?_dropWhile_not (fun c => !isSpace c) t
      cases hu : t.dropWhile (fun c => !isSpace c) with
      | nil => rfl
      | cons x xs =>
        rw [hu] at hd h
        simp only [List.head?_cons] at hd
        rw [List.takeWhile_cons] at h
        simp at hd
        simp [hd] at h
  cases l with
  | nil => simp at hl
  | cons c t =>
    simp only [List.head?_cons, Option.some.injEq] at hl
    subst hl
    by_cases hm : ∃ a w m, '%' :: t = a ++ w ++ m ∧ w ≠ [] ∧ Spaces w ∧ Word m ∧ m.head? = some '%' ∧
        ExpandsToNewline ex m
    · obtain ⟨a, w, m, he, h1, h2, h3, h4, h5⟩ := hm
      obtain ⟨b, s, rfl, hs, hb⟩ := split_trailing a
      have hw : Spaces (s ++ w) := by
        intro x hx
        rcases List.mem_append.mp hx with hx | hx
        · exact hs x hx
        · exact h2 x hx
      have hne : s ++ w ≠ [] := by simp [h1]
      cases b with
      | nil =>
        exfalso
        rw [List.nil_append] at he
        cases hsw : s ++ w with
        | nil => exact hne hsw
        | cons x xs =>
          rw [hsw] at he
          simp only [List.cons_append, List.cons.injEq] at he
          have := hw x (by simp [hsw])
          rw [← he.1] at this
          exact absurd this (by decide)
      | cons x b =>
        simp only [List.cons_append, List.cons.injEq] at he
        obtain ⟨rfl, he⟩ := he
        obtain ⟨n, d, o, hb', k1, k2, k3, k4⟩ := split b
        cases hd : d with
        | nil =>
          rw [hd] at k4 hb'
          rw [k4 rfl] at hb'
          simp only [List.append_nil] at hb'
          refine ⟨⟨n, none, some (s ++ w, m)⟩, ⟨?_, k1, by simp, ?_, by simp⟩⟩
          · simp [he, pairText, hb']
          · intro s' m' e
            simp only [Option.some.injEq, Prod.mk.injEq] at e
            obtain ⟨rfl, rfl⟩ := e
            exact ⟨hne, hw, h3, h4, h5, by simp⟩
        | cons y ys =>
          refine ⟨⟨n, some (d, o), some (s ++ w, m)⟩, ⟨?_, k1, ?_, ?_, by simp⟩⟩
          · simp [he, pairText, hb']
          · intro d' o' e
            simp only [Option.some.injEq, Prod.mk.injEq] at e
            obtain ⟨rfl, rfl⟩ := e
            exact ⟨by simp [hd], k2, k3⟩
          · intro s' m' e
            simp only [Option.some.injEq, Prod.mk.injEq] at e
            obtain ⟨rfl, rfl⟩ := e
            refine ⟨hne, hw, h3, h4, h5, ?_⟩
            intro d' o' e
            simp only [Option.some.injEq, Prod.mk.injEq] at e
            obtain ⟨rfl, rfl⟩ := e
            rcases hb with h | ⟨z, hz, hzs⟩
            · simp at h
            · rw [hb'] at hz
              cases ho : o with
              | nil =>
                exfalso
                have hzd : z ∈ d := by
                  rw [ho, List.append_nil] at hz
                  rw [hd] at hz ⊢
                  have e2 : ('%' :: (n ++ y :: ys)).getLast? = (y :: ys).getLast? := by
                    rw [← List.cons_append, List.getLast?_append, List.getLast?_cons]
                    rfl
                  rw [e2] at hz
                  exact List.mem_of_getLast? hz
                rw [k2 z hzd] at hzs
                simp at hzs
              | cons u us =>
                refine ⟨z, ?_, hzs⟩
                rw [ho] at hz
                have e2 : ('%' :: (n ++ d ++ u :: us)).getLast? = (u :: us).getLast? := by
                  rw [← List.cons_append, List.getLast?_append, List.getLast?_cons]
                  rfl
                rw [e2] at hz
                exact hz
    · have hkept : ∀ a s m, '%' :: t = a ++ s ++ m → s ≠ [] → Spaces s → Word m →
          m.head? = some '%' → ExpandsInline ex m := by
        intro a s m he h1 h2 h3 h4
        cases hx : ex m with
        | error e => exact Or.inl (by rw [hx, hex m e hx])
        | ok y =>
          right
          refine ⟨y, hx, fun hy => ?_⟩
          apply hm
          refine ⟨a, s, m, he, h1, h2, h3, h4, ?_⟩
          cases y with
          | nil => simp at hy
          | cons z zs =>
            simp only [List.head?_cons, Option.some.injEq] at hy
            subst hy
            exact ⟨zs, hx⟩
      obtain ⟨n, d, o, hb', k1, k2, k3, k4⟩ := split t
      cases hd : d with
      | nil =>
        rw [hd] at k4 hb'
        rw [k4 rfl] at hb'
        exact ⟨⟨n, none, none⟩, ⟨by simp [hb', pairText], k1, by simp, by simp, fun _ => hkept⟩⟩
      | cons y ys =>
        refine ⟨⟨n, some (d, o), none⟩, ⟨by simp [hb', pairText], k1, ?_, by simp, fun _ => hkept⟩⟩
        intro d' o' e
        simp only [Option.some.injEq, Prod.mk.injEq] at e
        obtain ⟨rfl, rfl⟩ := e
        exact ⟨by simp [hd], k2, k3⟩

theorem sectionsOf_exists [Uni] {ex : Nat → Str → Except Err Str} {inDef : Nat → Prop}
    (lines : List Str) (i : Nat)
    (hh : ∀ (j : Nat) l, lines[j]? = some l → ¬ inDef (i + j) → HeaderLine l →
      ∃ p, HeaderText (ex (i + j)) l p ∧ Uni.lower p.name ∈ Constants.sectionNames ∧
      ∀ d o, p.options = some (d, o) → ∃ ts, Options.tokenize o = .ok ts) :
    ∃ data ss, SectionsOf ex inDef i lines data ss := by
  induction lines generalizing i with
  | nil => exact ⟨[], [], .nil⟩
  | cons l ls ih =>
    obtain ⟨data, ss, h⟩ := ih (i + 1) (by
      intro j x hj hd hx
      have e : i + 1 + j = i + (j + 1) := by omega
      rw [e] at hd ⊢
      exact hh (j + 1) x (by simpa using hj) hd hx)
    by_cases hd : inDef i
    · exact ⟨l :: data, ss, .line (Or.inl hd) h⟩
    · by_cases hl : HeaderLine l
      · obtain ⟨p, h1, h2, h3⟩ := hh 0 l (by simp) (by simpa using hd) hl
        have hs : ∃ s, SectionFor p data s := by
          have ht : ∃ (ts : List Token) (de : Str), match p.options with
              | none => ts = [] ∧ de = []
              | some (d, o) => Options.tokenize o = .ok ts ∧ de = d := by
            cases ho : p.options with
            | none => exact ⟨[], [], rfl, rfl⟩
            | some x =>
              obtain ⟨d, o⟩ := x
              obtain ⟨ts, ht⟩ := h3 d o ho
              exact ⟨ts, d, ht, rfl⟩
          obtain ⟨ts, de, ht⟩ := ht
          cases hm : p.moved with
          | none =>
            refine ⟨⟨p.name, ⟨ts, acceptedOptions (Uni.lower p.name), []⟩, de, ['\n'], data⟩, h2, rfl, rfl, rfl, ?_, ?_⟩
            · cases ho : p.options with
              | none => rw [ho] at ht; exact ht
              | some x => rw [ho] at ht; exact ht
            · rw [hm]; exact ⟨rfl, rfl⟩
          | some x =>
            obtain ⟨w, m⟩ := x
            refine ⟨⟨p.name, ⟨ts, acceptedOptions (Uni.lower p.name), []⟩, de, w, m :: data⟩, h2, rfl, rfl, rfl, ?_, ?_⟩
            · cases ho : p.options with
              | none => rw [ho] at ht; exact ht
              | some x => rw [ho] at ht; exact ht
            · rw [hm]; exact ⟨rfl, rfl⟩
        obtain ⟨s, hs⟩ := hs
        exact ⟨[], s :: ss, .header hd hl (by simpa using h1) hs h⟩
      · exact ⟨l :: data, ss, .line (Or.inr hl) h⟩

end Specfile.Sections
