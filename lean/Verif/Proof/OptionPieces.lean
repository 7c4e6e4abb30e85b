import Verif.Proof.Options
/-
Options and positional arguments in terms of the pieces of an option string.
-/
namespace Specfile
open Py Spec
namespace Options

theorem dash_iff {t : Token} : dash t = true ↔ Dash t := by
  unfold dash startsWith Dash
  rw [List.isPrefixOf_iff_prefix]
  constructor
  · rintro ⟨v, h⟩; exact ⟨v, h.symm⟩
  · rintro ⟨v, h⟩; exact ⟨v, h.symm⟩

theorem not_dash {t : Token} (h : ¬ Dash t) : dash t = false := by
  rw [← dash_iff] at h; simpa using h

theorem ws_true {t : Token} (h : t.type = .whitespace) : ws t = true := by simp [ws, h]
theorem ws_false {t : Token} (h : t.type ≠ .whitespace) : ws t = false := by simp [ws, h]

theorem requiresArg_iff {os : Str} {c : Char} (hc : c ≠ ':') :
    requiresArg os c = true ↔ TakesArg os c := by
  unfold TakesArg
  induction os with
  | nil => simp [requiresArg]
  | cons d os ih =>
    simp only [requiresArg]
    by_cases hd : d = c
    · subst hd
      simp only [beq_self_eq_true, if_true, beq_iff_eq]
      constructor
      · intro h
        cases os with
        | nil => simp at h
        | cons e os => simp at h; subst h; exact ⟨hc, [], os, rfl, by simp⟩
      · rintro ⟨_, a, b, h, hn⟩
        cases a with
        | nil => simp at h; subst h; rfl
        | cons x a => simp at h; exact absurd (by simp [h.1]) hn
    · rw [if_neg (by simpa using hd), ih]
      constructor
      · rintro ⟨_, a, b, h, hn⟩
        exact ⟨hc, d :: a, b, by simp [h], by simp [Ne.symm hd, hn]⟩
      · rintro ⟨_, a, b, h, hn⟩
        cases a with
        | nil => simp at h; exact absurd h.1 hd
        | cons x a => simp at h hn; exact ⟨hc, a, b, h.2, hn.2⟩

theorem valid_of_takesArg {os : Str} {c : Char} (h : TakesArg os c) : valid os c = true := by
  obtain ⟨hc, a, b, h, _⟩ := h
  simp [valid, h, hc]

theorem valid_not_colon {os : Str} {c : Char} (h : valid os c = true) : c ≠ ':' := by
  simp [valid] at h; exact h.2

@[simp] theorem toks_nil : toks [] = [] := rfl
@[simp] theorem toks_cons (p : Piece) (ps : List Piece) : toks (p :: ps) = p.toks ++ toks ps := rfl
@[simp] theorem toks_append (a b : List Piece) : toks (a ++ b) = toks a ++ toks b := by simp [toks]

@[simp] theorem posWords_append (a b : List Piece) : posWords (a ++ b) = posWords a ++ posWords b := by
  induction a with
  | nil => rfl
  | cons p a ih => cases p <;> simp [posWords, ih]

theorem given_append (c : Char) (a b : List Piece) : given c (a ++ b) = (given c b).or (given c a) := by
  induction a with
  | nil => simp [given]
  | cons p a ih => simp [given, ih, Option.or_assoc]

/-! ### reading options -/

theorem piece_isOpt {os : Str} {p : Piece} (hp : p.OK os) {c : Char} {t : Token} (ht : t ∈ p.toks)
    (h : isOpt c t = true) : p.given c ≠ none := by
  obtain ⟨v, hv⟩ := isOpt_iff.1 h
  have hd : Dash t := ⟨_, hv⟩
  cases p with
  | space u => simp [Piece.toks] at ht; subst ht; exact absurd hd hp.2
  | flag u => simp [Piece.toks] at ht; subst ht; simp [Piece.given, hv]
  | word u => simp [Piece.toks] at ht; subst ht; exact absurd hd hp.2
  | withArg u sep arg =>
    obtain ⟨h1, ⟨d, h2, h3⟩, h4, h5, h6⟩ := hp
    simp [Piece.toks] at ht
    rcases ht with rfl | ht | rfl
    · rw [h3] at hv; simp at hv; simp [Piece.given, h3, hv]
    · exact absurd hd (h4 t ht).2
    · exact absurd hd h6

theorem given_none_isOpt {os : Str} {ps : List Piece} (hp : ∀ p ∈ ps, p.OK os) {c : Char}
    (h : given c ps = none) : ∀ t ∈ toks ps, isOpt c t = false := by
  induction ps with
  | nil => simp
  | cons p ps ih =>
    intro t ht
    simp only [given, Option.or_eq_none_iff] at h
    rw [toks_cons, List.mem_append] at ht
    rcases ht with ht | ht
    · cases hi : isOpt c t with
      | false => rfl
      | true => exact absurd h.2 (piece_isOpt (hp p (by simp)) ht hi)
    · exact ih (fun q hq => hp q (by simp [hq])) h.1 t ht

/-- a piece specifying an option starts with the token of the option -/
theorem piece_given {os : Str} {p : Piece} (hp : p.OK os) {c : Char} (hc : valid os c = true)
    {v : Str} (h : p.given c = some v) : ∃ t m, p.toks = t :: m ∧ isOpt c t = true ∧ ws t = false ∧
      (∀ x ∈ m, isOpt c x = false) ∧ ∀ b, textOf os c t (m ++ b) = v := by
  have hcc := valid_not_colon hc
  cases p with
  | space u => simp [Piece.given] at h
  | word u => simp [Piece.given] at h
  | flag u =>
    obtain ⟨h1, h2, h3⟩ := hp
    simp only [Piece.given] at h
    split at h
    · next d w hw =>
      split at h
      · next hd =>
        subst hd
        simp at h
        subst h
        refine ⟨u, [], rfl, isOpt_iff.2 ⟨_, hw⟩, ws_false h1, by simp, ?_⟩
        intro b
        unfold textOf
        by_cases hv : u.value = ['-', d]
        · have hn : ¬ TakesArg os d := fun ht => h3 d ht hv
          rw [← requiresArg_iff hcc] at hn
          simp only [Bool.not_eq_true] at hn
          rw [hw] at hv
          simp at hv
          simp [hw, hv, hn]
        · simp [hv]; simp [hw]
      · simp at h
    · simp at h
  | withArg u sep arg =>
    obtain ⟨h1, ⟨d, h2, h3⟩, h4, h5, h6⟩ := hp
    simp only [Piece.given, h3] at h
    split at h
    · next hd =>
      simp at hd h
      subst hd h
      refine ⟨u, sep.toList ++ [arg], rfl, isOpt_iff.2 ⟨[], h3⟩, ws_false h1, ?_, ?_⟩
      · intro x hx
        simp at hx
        rcases hx with hx | rfl
        · exact not_isOpt_of_dash (not_dash (h4 x hx).2)
        · exact not_isOpt_of_dash (not_dash h6)
      · intro b
        have hr : requiresArg os d = true := (requiresArg_iff hcc).2 h2
        cases sep with
        | none => simp [textOf, h3, hr, argOf, ws_false h5, not_dash h6]
        | some w => simp [textOf, h3, hr, argOf, ws_true (h4 w rfl).1, not_dash h6]
    · simp at h

/-- The value of an option is what its last occurrence says. -/
theorem optText_given {o : Opts} {ps : List Piece} (h : Reads o ps) {c : Char}
    (hc : valid o.optstring c = true) : optText o c = given c ps := by
  have key : ∀ a b : List Piece, (∀ p ∈ a ++ b, p.OK o.optstring) → o.tokens = toks (a ++ b) →
      given c b = none → optText o c = given c a := by
    intro a
    induction ha : a.length generalizing a with
    | zero =>
      intro b hok ht hb
      have : a = [] := List.length_eq_zero_iff.1 ha
      subst this
      rw [given, optText_none.2]
      rw [ht]
      exact given_none_isOpt hok hb
    | succ n ih =>
      intro b hok ht hb
      have hne : a ≠ [] := by rintro rfl; simp at ha
      obtain ⟨a', p, rfl⟩ : ∃ a' p, a = a' ++ [p] :=
        ⟨a.dropLast, a.getLast hne, (List.dropLast_concat_getLast hne).symm⟩
      rw [given_append]
      cases hg : p.given c with
      | none =>
        have := ih a' (by simpa using ha) (p :: b) (by simpa using hok) (by simpa using ht)
          (by simp [given, hb, hg])
        simp [given, hg, this]
      | some v =>
        obtain ⟨t, m, e1, e2, _, e4, e5⟩ := piece_given (hok p (by simp)) hc hg
        have := optText_some (o := o) (c := c) (a := toks a') (t := t) (b := m ++ toks b)
          (by rw [ht]; simp [e1]) e2 (by
            intro x hx
            rcases List.mem_append.1 hx with hx | hx
            · exact e4 x hx
            · exact given_none_isOpt (fun q hq => hok q (by simp [hq])) hb x hx)
        rw [this, e5]
        simp [given, hg]
  have := key ps [] (by simpa using h.ok) (by simpa using h.tokens) rfl
  exact this

/-! ### positional arguments -/

theorem takesNext_iff {os : Str} {t : Token} : takesNext os t = true ↔ ∃ c, TakesArg os c ∧ t.value = ['-', c] := by
  unfold takesNext
  split
  · next c hv =>
    rw [hv]
    simp only [Bool.and_eq_true]
    constructor
    · rintro ⟨h1, h2⟩
      exact ⟨c, (requiresArg_iff (valid_not_colon h1)).1 h2, rfl⟩
    · rintro ⟨d, h1, h2⟩
      simp at h2
      subst h2
      exact ⟨valid_of_takesArg h1, (requiresArg_iff h1.1).2 h1⟩
  · next hv =>
    constructor
    · simp
    · rintro ⟨c, _, h⟩
      exact absurd h (hv c)

theorem posIdx_shift (os : Str) (k : Nat) (ts : List Token) :
    posIdx os k ts = (posIdx os 0 ts).map (· + k) := by
  have key : ∀ k j ts, posIdx os (j + k) ts = (posIdx os j ts).map (· + k) := by
    intro k j ts
    fun_induction posIdx os j ts with
    | case1 => simp [posIdx]
    | case2 j t ts h ih => rw [posIdx.eq_def]; simp only [h, if_true]; rw [← ih]; congr 1; omega
    | case3 j t h1 h2 h3 => rw [posIdx.eq_def]; simp [h1, h2, h3]
    | case4 j t h1 h2 h3 w hw => rw [posIdx.eq_def]; simp [h1, h2, h3, hw]
    | case5 j t h1 h2 h3 w hw v ts ih =>
      rw [posIdx.eq_def]; simp only [h1, h2, h3, hw, if_true, if_false]; rw [← ih]; congr 1; omega
    | case6 j t h1 h2 h3 w ts hw ih =>
      rw [posIdx.eq_def]; simp only [h1, h2, h3, hw, if_true, if_false]; rw [← ih]; congr 1; omega
    | case7 j t ts h1 h2 h3 ih =>
      rw [posIdx.eq_def]
      simp only [h1, h2, h3, if_true, if_false]
      rw [← ih, show j + k + 1 = j + 1 + k by omega]
      simp
    | case8 j t ts h1 h2 ih =>
      rw [posIdx.eq_def]
      simp only [h1, h2, if_false, List.map_cons]
      rw [← ih, show j + k + 1 = j + 1 + k by omega]
      simp
  simpa using key k 0 ts

/-- indices of the positional arguments, piece by piece -/
def wordIdx : Nat → List Piece → List Nat
  | _, [] => []
  | k, .word _ :: ps => k :: wordIdx (k + 1) ps
  | k, p :: ps => wordIdx (k + p.toks.length) ps

theorem posIdx_pieces {os : Str} {ps : List Piece} (h : ∀ p ∈ ps, p.OK os) (k : Nat) :
    posIdx os k (toks ps) = wordIdx k ps := by
  induction ps generalizing k with
  | nil => simp [posIdx, wordIdx]
  | cons p ps ih =>
    have ih := ih (fun q hq => h q (by simp [hq]))
    have hp := h p (by simp)
    rw [toks_cons]
    have hdd : ∀ t : Token, dash t = startsWith t.value ['-'] := fun _ => rfl
    cases p with
    | space t =>
      simp only [Piece.toks, List.cons_append, List.nil_append, wordIdx, List.length_singleton]
      rw [posIdx.eq_def]
      simp only [hp.1, if_true, ih]
    | word t =>
      simp only [Piece.toks, List.cons_append, List.nil_append, wordIdx]
      rw [posIdx.eq_def]
      simp only [hp.1, if_false, ← hdd, not_dash hp.2, Bool.false_eq_true, ih]
    | flag t =>
      obtain ⟨h1, h2, h3⟩ := hp
      simp only [Piece.toks, List.cons_append, List.nil_append, wordIdx, List.length_singleton]
      have hn : takesNext os t = false := by
        cases hh : takesNext os t with
        | false => rfl
        | true => obtain ⟨c, e1, e2⟩ := takesNext_iff.1 hh; exact absurd e2 (h3 c e1)
      rw [posIdx.eq_def]
      simp only [h1, if_false, ← hdd, dash_iff.2 h2, if_true, hn, Bool.false_eq_true, ih]
    | withArg t sep arg =>
      obtain ⟨h1, h2, h4, h5, h6⟩ := hp
      obtain ⟨c, _, hv⟩ := id h2
      have hd : dash t = true := dash_iff.2 ⟨_, hv⟩
      rw [posIdx.eq_def]
      cases sep with
      | none =>
        simp only [Piece.toks, List.cons_append, List.nil_append, wordIdx, Option.toList_none,
          h1, if_false, ← hdd, hd, if_true, takesNext_iff.2 h2, h5, ih, List.length_cons,
          List.length_nil]
      | some w =>
        simp only [Piece.toks, List.cons_append, List.nil_append, wordIdx, Option.toList_some,
          h1, if_false, ← hdd, hd, if_true, takesNext_iff.2 h2, (h4 w rfl).1, ih,
          List.length_cons, List.length_nil]

theorem wordIdx_append (k : Nat) (a b : List Piece) :
    wordIdx k (a ++ b) = wordIdx k a ++ wordIdx (k + (toks a).length) b := by
  induction a generalizing k with
  | nil => simp [wordIdx]
  | cons p a ih =>
    cases p <;> simp [wordIdx, ih, Piece.toks, Nat.add_assoc] <;> congr 1 <;> omega

theorem wordIdx_length (k : Nat) (ps : List Piece) : (wordIdx k ps).length = (posWords ps).length := by
  induction ps generalizing k with
  | nil => rfl
  | cons p ps ih => cases p <;> simp [wordIdx, posWords, ih]

/-- the `n`-th positional argument as a piece -/
theorem words_split {ps : List Piece} {n : Nat} (h : n < (posWords ps).length) :
    ∃ a t b, ps = a ++ .word t :: b ∧ (posWords a).length = n := by
  induction ps generalizing n with
  | nil => simp [posWords] at h
  | cons p ps ih =>
    have other : (∀ t, p ≠ .word t) → n < (posWords ps).length →
        posWords [p] = [] → ∃ a t b, p :: ps = a ++ .word t :: b ∧ (posWords a).length = n := by
      intro _ h hp
      obtain ⟨a, t, b, e1, e2⟩ := ih h
      refine ⟨p :: a, t, b, by simp [e1], ?_⟩
      rw [show p :: a = [p] ++ a from rfl, posWords_append, hp]; simpa using e2
    cases p with
    | word t =>
      cases n with
      | zero => exact ⟨[], t, ps, rfl, rfl⟩
      | succ n =>
        simp only [posWords, List.length_cons, Nat.add_lt_add_iff_right] at h
        obtain ⟨a, u, b, e1, e2⟩ := ih h
        exact ⟨.word t :: a, u, b, by simp [e1], by simp [posWords, e2]⟩
    | space t => exact other (by simp) h rfl
    | flag t => exact other (by simp) h rfl
    | withArg t s x => exact other (by simp) h rfl

theorem positionalIdx_eq {o : Opts} {ps : List Piece} (h : Reads o ps) :
    positionalIdx o = wordIdx 0 ps := by
  unfold positionalIdx
  rw [h.tokens, posIdx_pieces h.ok]

theorem positionalIdx_at {o : Opts} {a b : List Piece} {t : Token}
    (h : Reads o (a ++ .word t :: b)) :
    (positionalIdx o).getD (posWords a).length 0 = (toks a).length := by
  rw [positionalIdx_eq h, wordIdx_append, List.getD_eq_getElem?_getD,
    List.getElem?_append_right (by rw [wordIdx_length]; omega)]
  rw [wordIdx_length]
  simp [wordIdx]

theorem words_values (pre post : List Token) (ps : List Piece) :
    (wordIdx pre.length ps).map (valueAt (pre ++ toks ps ++ post)) = posWords ps := by
  induction ps generalizing pre with
  | nil => simp [wordIdx, posWords]
  | cons p ps ih =>
    have := ih (pre ++ p.toks)
    simp only [List.length_append, List.append_assoc] at this
    cases p with
    | word t =>
      simp only [wordIdx, posWords, List.map_cons]
      simp only [Piece.toks, List.length_singleton] at this
      congr 1
      · simp [valueAt, Piece.toks]
      · simpa [Piece.toks] using this
    | space t => simpa [wordIdx, posWords] using this
    | flag t => simpa [wordIdx, posWords] using this
    | withArg t s x => simpa [wordIdx, posWords] using this

theorem positionalValues_eq {o : Opts} {ps : List Piece} (h : Reads o ps) :
    positionalValues o = posWords ps := by
  unfold positionalValues
  rw [positionalIdx_eq h, h.tokens]
  simpa using words_values [] [] ps

theorem last_ws {os : Str} {a : List Piece} (h : ∀ p ∈ a, p.OK os) {w : Token}
    (hw : (toks a).getLast? = some w) (ht : w.type = .whitespace) : ∃ a', a = a' ++ [.space w] := by
  by_cases hne : a = []
  · subst hne; simp at hw
  · obtain ⟨a', p, rfl⟩ : ∃ a' p, a = a' ++ [p] :=
      ⟨a.dropLast, a.getLast hne, (List.dropLast_concat_getLast hne).symm⟩
    have hp := h p (by simp)
    rw [toks_append] at hw
    cases p with
    | space t => simp [Piece.toks] at hw; subst hw; exact ⟨a', rfl⟩
    | flag t => simp [Piece.toks] at hw; subst hw; exact absurd ht hp.1
    | word t => simp [Piece.toks] at hw; subst hw; exact absurd ht hp.1
    | withArg t s x =>
      have : (toks a' ++ toks [Piece.withArg t s x]) = (toks a' ++ t :: s.toList) ++ [x] := by
        simp [Piece.toks]
      rw [this, List.getLast?_append] at hw
      simp at hw; subst hw; exact absurd ht hp.2.2.2.1

theorem first_ws {os : Str} {b : List Piece} (h : ∀ p ∈ b, p.OK os) {w : Token}
    (hw : (toks b).head? = some w) (ht : w.type = .whitespace) : ∃ b', b = .space w :: b' := by
  cases b with
  | nil => simp at hw
  | cons p b =>
    have hp := h p (by simp)
    cases p with
    | space t => simp [Piece.toks] at hw; subst hw; exact ⟨b, rfl⟩
    | flag t => simp [Piece.toks] at hw; subst hw; exact absurd ht hp.1
    | word t => simp [Piece.toks] at hw; subst hw; exact absurd ht hp.1
    | withArg t s x => simp [Piece.toks] at hw; subst hw; exact absurd ht hp.1

theorem isWs_last (a : List Token) (t : Token) (b : List Token) (h : a ≠ []) :
    isWsAt (a ++ t :: b) (a.length - 1) =
      ((a.getLast?.map (·.type)) == some .whitespace) := by
  have : 0 < a.length := List.length_pos_iff.2 h
  rw [isWsAt, List.getElem?_append_left (by omega), List.getLast?_eq_getElem?]

theorem isWs_after (a m b : List Token) (t : Token) :
    isWsAt (a ++ t :: (m ++ b)) (a.length + m.length + 1) =
      ((b.head?.map (·.type)) == some .whitespace) := by
  rw [isWsAt, List.getElem?_append_right (by omega), show a.length + m.length + 1 - a.length = m.length + 1 by omega,
    List.getElem?_cons_succ, List.getElem?_append_right (by omega), Nat.sub_self, List.head?_eq_getElem?]

theorem eraseIdx_here {α : Type} (a : List α) (t : α) (b : List α) :
    (a ++ t :: b).eraseIdx a.length = a ++ b := by
  rw [List.eraseIdx_append_of_length_le (by omega)]; simp

theorem toks_eq_nil {ps : List Piece} : toks ps = [] ↔ ps = [] := by
  cases ps with
  | nil => simp
  | cons p ps => cases p <;> simp [Piece.toks]

/-- dropping at most one whitespace piece on either side -/
inductive Trim : List Piece → List Piece → List Piece → List Piece → Prop
  | same (a b) : Trim a b a b
  | left (a w b) : Trim (a ++ [.space w]) b a b
  | right (a w b) : Trim a (.space w :: b) a b

theorem Trim.words {a b a' b' : List Piece} (h : Trim a b a' b') :
    posWords a' = posWords a ∧ posWords b' = posWords b := by
  cases h <;> simp [posWords]

theorem Trim.given {a b a' b' : List Piece} (h : Trim a b a' b') (c : Char) :
    Spec.given c a' = Spec.given c a ∧ Spec.given c b' = Spec.given c b := by
  cases h <;> simp [Spec.given, given_append, Piece.given]

theorem Trim.mem {a b a' b' : List Piece} (h : Trim a b a' b') :
    (∀ p ∈ a', p ∈ a) ∧ (∀ p ∈ b', p ∈ b) := by
  cases h <;> simp +contextual

theorem delToken_pieces {o : Opts} {a b : List Piece} {t : Token} (h : Reads o (a ++ .word t :: b)) :
    ∃ a' b', Trim a b a' b' ∧ delToken o.tokens (toks a).length = toks (a' ++ b') := by
  have ht : o.tokens = toks a ++ t :: toks b := by rw [h.tokens]; simp [Piece.toks]
  have hoka : ∀ p ∈ a, p.OK o.optstring := fun p hp => h.ok p (by simp [hp])
  have hokb : ∀ p ∈ b, p.OK o.optstring := fun p hp => h.ok p (by simp [hp])
  unfold delToken
  rw [ht]
  by_cases ha : toks a = []
  · have ha' := toks_eq_nil.1 ha
    subst ha'
    simp only [toks_nil, List.length_nil, if_true, List.nil_append]
    have := isWs_after [] [] (toks b) t
    simp only [List.nil_append, List.length_nil, Nat.zero_add] at this
    simp only [this]
    cases hw : ((toks b).head?.map (·.type)) == some .whitespace with
    | false => exact ⟨[], b, .same .., by simp⟩
    | true =>
      simp only [beq_iff_eq, Option.map_eq_some_iff] at hw
      obtain ⟨w, e1, e2⟩ := hw
      obtain ⟨b', rfl⟩ := first_ws hokb e1 e2
      exact ⟨[], b', .right .., by simp [Piece.toks]⟩
  · have hpos : 0 < (toks a).length := List.length_pos_iff.2 ha
    simp only [show ¬ (toks a).length = 0 by omega, if_false]
    rw [isWs_last _ _ _ ha]
    cases hw : ((toks a).getLast?.map (·.type)) == some .whitespace with
    | false =>
      refine ⟨a, b, .same .., ?_⟩
      simp only [Bool.false_eq_true, if_false]
      rw [eraseIdx_here]; simp
    | true =>
      simp only [beq_iff_eq, Option.map_eq_some_iff] at hw
      obtain ⟨w, e1, e2⟩ := hw
      obtain ⟨a', rfl⟩ := last_ws hoka e1 e2
      refine ⟨a', b, .left .., ?_⟩
      simp only [toks_append, toks_cons, Piece.toks, toks_nil, List.append_nil, List.length_append,
        List.length_singleton, Nat.add_sub_cancel, if_true, List.append_assoc,
        List.cons_append, List.nil_append]
      rw [eraseIdx_here, eraseIdx_here]

theorem find_piece {o : Opts} {a b : List Piece} {p : Piece} {c : Char} {v : Str}
    (h : Reads o (a ++ p :: b)) (hc : valid o.optstring c = true) (hp : p.given c = some v)
    (hb : given c b = none) :
    find o c = (some (toks a).length,
      if p.toks.map (·.value) = [['-', c]] then none
      else some ((toks a).length + (p.toks.length - 1))) := by
  have hcc := valid_not_colon hc
  obtain ⟨t, m, e1, e2, _, e4, e5⟩ := piece_given (h.ok p (by simp)) hc hp
  have ht : o.tokens = toks a ++ t :: (m ++ toks b) := by rw [h.tokens]; simp [e1]
  rw [find_some ht e2 (by
    intro x hx
    rcases List.mem_append.1 hx with hx | hx
    · exact e4 x hx
    · exact given_none_isOpt (fun q hq => h.ok q (by simp [hq])) hb x hx)]
  congr 1
  have hpo := h.ok p (by simp)
  cases p with
  | space u => simp [Piece.given] at hp
  | word u => simp [Piece.given] at hp
  | flag u =>
    simp only [Piece.toks, List.cons.injEq] at e1
    obtain ⟨rfl, rfl⟩ := e1
    by_cases hv : u.value = ['-', c]
    · have hn : ¬ TakesArg o.optstring c := fun ht => hpo.2.2 c ht hv
      rw [← requiresArg_iff hcc] at hn
      simp [hv, Piece.toks, hn]
    · simp [hv, Piece.toks]
  | withArg u sep arg =>
    simp only [Piece.toks, List.cons.injEq] at e1
    obtain ⟨rfl, rfl⟩ := e1
    obtain ⟨h1, ⟨d, h2, h3⟩, h4, h5, h6⟩ := hpo
    simp only [Piece.given, h3] at hp
    split at hp
    · next hd =>
      simp at hd
      subst hd
      have hr : requiresArg o.optstring d = true := (requiresArg_iff hcc).2 h2
      cases sep with
      | none =>
        simp [h3, hr, argPos, ws_false h5, not_dash h6, Piece.toks]
        try omega
      | some w =>
        simp [h3, hr, argPos, ws_true (h4 w rfl).1, not_dash h6, Piece.toks]
        try omega
    · simp at hp

theorem del_pieces {o : Opts} {a b : List Piece} {p : Piece} {c : Char} {v : Str}
    (h : Reads o (a ++ p :: b)) (hc : valid o.optstring c = true) (hp : p.given c = some v)
    (hb : given c b = none)
    (hflag : p.toks.map (·.value) = [['-', c]] → ∀ w, a.getLast? ≠ some (.space w)) :
    ∃ a' b', Trim a b a' b' ∧ (del o c).tokens = toks (a' ++ b') ∧
      (del o c).optstring = o.optstring ∧ (del o c).defaults = o.defaults := by
  have hoka : ∀ p ∈ a, p.OK o.optstring := fun p hp => h.ok p (by simp [hp])
  have hokb : ∀ p ∈ b, p.OK o.optstring := fun p hp => h.ok p (by simp [hp])
  obtain ⟨t, m, e1, e2, _, e4, e5⟩ := piece_given (h.ok p (by simp)) hc hp
  have ht : o.tokens = toks a ++ t :: (m ++ toks b) := by rw [h.tokens]; simp [e1]
  have hlen : p.toks.length - 1 = m.length := by rw [e1]; simp
  have drop1 : ∀ k, (toks a ++ t :: (m ++ toks b)).drop ((toks a).length + m.length + 1 + k) =
      (toks b).drop k := by
    intro k
    rw [List.drop_append, List.drop_eq_nil_of_le (by omega),
      show (toks a).length + m.length + 1 + k - (toks a).length = (m.length + k) + 1 by omega,
      List.drop_succ_cons, List.drop_append, List.drop_eq_nil_of_le (by omega)]
    simp
  have drop0 := drop1 0
  simp only [Nat.add_zero, List.drop_zero] at drop0
  unfold del
  rw [find_piece h hc hp hb, hlen]
  simp only [ht]
  by_cases hbare : p.toks.map (·.value) = [['-', c]]
  · have hm : m = [] := by
      rw [e1] at hbare; simp at hbare; exact hbare.2
    subst hm
    simp only [hbare, if_true]
    by_cases ha : toks a = []
    · have ha' := toks_eq_nil.1 ha
      subst ha'
      exact ⟨[], b, .same .., by simp, by simp, by simp⟩
    · have hpos : 0 < (toks a).length := List.length_pos_iff.2 ha
      have hw : (((toks a).getLast?.map (·.type)) == some .whitespace) = false := by
        cases hw : ((toks a).getLast?.map (·.type)) == some .whitespace with
        | false => rfl
        | true =>
          simp only [beq_iff_eq, Option.map_eq_some_iff] at hw
          obtain ⟨w, e1, e2⟩ := hw
          obtain ⟨a', rfl⟩ := last_ws hoka e1 e2
          exact absurd (by simp) (hflag hbare w)
      simp only [show ¬ (toks a).length = 0 by omega, if_false, isWs_last _ _ _ ha, hw,
        Bool.false_eq_true]
      refine ⟨a, b, .same .., ?_, ?_⟩
      · simp only [List.nil_append, eraseIdx_here]; simp
      · simp
  · simp only [hbare, if_false]
    by_cases ha : toks a = []
    · have ha' := toks_eq_nil.1 ha
      subst ha'
      have hws := isWs_after [] m (toks b) t
      simp only [toks_nil, List.length_nil, Nat.zero_add, List.nil_append] at hws drop0 drop1 ⊢
      simp only [if_true]
      rw [hws]
      cases hw : ((toks b).head?.map (·.type)) == some .whitespace with
      | false =>
        refine ⟨[], b, .same .., ?_⟩
        simp only [Bool.false_eq_true, if_false, List.nil_append]
        by_cases hm : m.length > 0
        · simp [hm, drop0]
        · have : m = [] := List.length_eq_zero_iff.1 (by omega)
          subst this
          simp
      | true =>
        simp only [beq_iff_eq, Option.map_eq_some_iff] at hw
        obtain ⟨w, e1, e2⟩ := hw
        obtain ⟨b', rfl⟩ := first_ws hokb e1 e2
        refine ⟨[], b', .right .., ?_⟩
        have d1 := drop1 1
        simp only [if_true, show m.length + 1 > 0 by omega, d1]
        simp [Piece.toks]
    · have hpos : 0 < (toks a).length := List.length_pos_iff.2 ha
      simp only [show ¬ (toks a).length = 0 by omega, if_false, isWs_last _ _ _ ha]
      cases hw : ((toks a).getLast?.map (·.type)) == some .whitespace with
      | false =>
        refine ⟨a, b, .same .., ?_⟩
        simp only [Bool.false_eq_true, if_false]
        by_cases hm : m.length > 0
        · simp only [show (toks a).length + m.length > (toks a).length by omega, if_true, drop0]
          simp
        · have : m = [] := List.length_eq_zero_iff.1 (by omega)
          subst this
          simp [eraseIdx_here]
      | true =>
        simp only [beq_iff_eq, Option.map_eq_some_iff] at hw
        obtain ⟨w, e1, e2⟩ := hw
        obtain ⟨a', rfl⟩ := last_ws hoka e1 e2
        refine ⟨a', b, .left .., ?_⟩
        simp only [if_true, show (toks (a' ++ [Piece.space w])).length + m.length >
          (toks (a' ++ [Piece.space w])).length - 1 by omega, drop0]
        simp [Piece.toks]

end Options
end Specfile
