import Verif.Py.Str
/-
General lemmas on the string primitives.
-/
namespace Py

theorem isLineBreak_isSpace {c : Char} (h : isLineBreak c = true) : isSpace c = true := by
  simp only [isLineBreak, Bool.or_eq_true, Bool.and_eq_true, decide_eq_true_eq, beq_iff_eq] at h
  simp only [isSpace, Bool.or_eq_true, Bool.and_eq_true, decide_eq_true_eq, beq_iff_eq]
  omega

@[simp] theorem joinC_nil (c : Char) : joinC c [] = [] := rfl
@[simp] theorem joinC_one (c : Char) (a : Str) : joinC c [a] = a := rfl
theorem joinC_cons (c : Char) (a : Str) {l : List Str} (h : l ≠ []) :
    joinC c (a :: l) = a ++ c :: joinC c l := by
  cases l with
  | nil => exact absurd rfl h
  | cons b l => rfl

theorem splitP_ne_nil (p : Char → Bool) (s : Str) : splitP p s ≠ [] := by
  induction s with
  | nil => simp [splitP]
  | cons d ds ih =>
    simp only [splitP]
    split
    · simp
    · split <;> simp

theorem splitC_ne_nil (c : Char) (s : Str) : splitC c s ≠ [] := splitP_ne_nil _ _

theorem splitP_cons_pos {p : Char → Bool} {c : Char} (h : p c = true) (s : Str) :
    splitP p (c :: s) = [] :: splitP p s := by simp [splitP, h]

theorem splitP_cons_neg {p : Char → Bool} {c : Char} (h : p c = false) (s : Str) :
    ∃ l ls, splitP p s = l :: ls ∧ splitP p (c :: s) = (c :: l) :: ls := by
  cases hs : splitP p s with
  | nil => exact absurd hs (splitP_ne_nil p s)
  | cons l ls => exact ⟨l, ls, rfl, by simp [splitP, h, hs]⟩

/-- `sep.join(s.split(sep)) == s` -/
@[simp] theorem joinC_splitC (c : Char) (s : Str) : joinC c (splitC c s) = s := by
  unfold splitC
  induction s with
  | nil => simp [splitP]
  | cons d ds ih =>
    cases h : (d == c) with
    | true =>
      have hd : d = c := by simpa using h
      rw [splitP_cons_pos (by simpa using h), joinC_cons _ _ (splitP_ne_nil _ ds), ih]; simp [hd]
    | false =>
      obtain ⟨l, ls, h1, h2⟩ := splitP_cons_neg (p := (· == c)) h ds
      rw [h2]; rw [h1] at ih
      cases ls with
      | nil => simp at ih ⊢; exact ih
      | cons a as => simp only [joinC, List.cons_append] at ih ⊢; rw [ih]

theorem splitP_of_all_neg {p : Char → Bool} {s : Str} (h : ∀ c ∈ s, p c = false) :
    splitP p s = [s] := by
  induction s with
  | nil => rfl
  | cons d ds ih =>
    obtain ⟨l, ls, h1, h2⟩ := splitP_cons_neg (h d (by simp)) ds
    rw [ih (fun c hc => h c (by simp [hc]))] at h1
    simp at h1
    rw [h2, ← h1.1, ← h1.2]

theorem splitC_of_not_mem {c : Char} {s : Str} (h : c ∉ s) : splitC c s = [s] :=
  splitP_of_all_neg (fun d hd => by simp; rintro rfl; exact h hd)

theorem splitP_append_sep {p : Char → Bool} {a : Str} {c : Char} (b : Str)
    (h : ∀ c ∈ a, p c = false) (hc : p c = true) :
    splitP p (a ++ c :: b) = a :: splitP p b := by
  induction a with
  | nil => simp [splitP, hc]
  | cons d ds ih =>
    obtain ⟨l, ls, h1, h2⟩ := splitP_cons_neg (h d (by simp)) (ds ++ c :: b)
    rw [ih (fun c hc => h c (by simp [hc]))] at h1
    simp at h1
    rw [List.cons_append, h2, ← h1.1, ← h1.2]

theorem splitC_append_sep {c : Char} {a : Str} (b : Str) (h : c ∉ a) :
    splitC c (a ++ c :: b) = a :: splitC c b :=
  splitP_append_sep b (fun d hd => by simp; rintro rfl; exact h hd) (by simp)

/-- `sep.join(l).split(sep) == l` for a non-empty list of separator-free strings -/
theorem splitC_joinC {c : Char} {l : List Str} (hne : l ≠ []) (h : ∀ s ∈ l, c ∉ s) :
    splitC c (joinC c l) = l := by
  induction l with
  | nil => exact absurd rfl hne
  | cons a l ih =>
    cases l with
    | nil => simpa using splitC_of_not_mem (h a (by simp))
    | cons b l =>
      rw [joinC_cons _ _ (by simp), splitC_append_sep _ (h a (by simp)),
        ih (by simp) (fun s hs => h s (by simp [hs]))]

theorem mem_splitP {p : Char → Bool} {s w : Str} (h : w ∈ splitP p s) : ∀ c ∈ w, p c = false := by
  induction s generalizing w with
  | nil => simp [splitP] at h; simp [h]
  | cons d ds ih =>
    cases hd : p d with
    | true =>
      rw [splitP_cons_pos hd] at h
      rcases List.mem_cons.mp h with rfl | h
      · simp
      · exact ih h
    | false =>
      obtain ⟨l, ls, h1, h2⟩ := splitP_cons_neg hd ds
      rw [h2] at h
      rcases List.mem_cons.mp h with rfl | h
      · intro c hc
        rcases List.mem_cons.mp hc with rfl | hc
        · exact hd
        · exact ih (w := l) (by simp [h1]) c hc
      · exact ih (by simp [h1, h])

theorem mem_splitC_not_mem {c : Char} {s w : Str} (h : w ∈ splitC c s) : c ∉ w := by
  intro hc
  have := mem_splitP h c hc
  simp at this

theorem joinC_append (c : Char) {a b : List Str} (ha : a ≠ []) (hb : b ≠ []) :
    joinC c (a ++ b) = joinC c a ++ c :: joinC c b := by
  induction a with
  | nil => exact absurd rfl ha
  | cons x a ih =>
    cases a with
    | nil => simp [joinC_cons c x hb]
    | cons y a =>
      rw [List.cons_append, joinC_cons c x (by simp), ih (by simp), joinC_cons c x (by simp)]
      simp

theorem takeWhile_all (p : Char → Bool) (s : Str) : (s.takeWhile p).all p = true := by
  induction s with
  | nil => rfl
  | cons c cs ih => simp only [List.takeWhile]; split <;> simp_all

theorem dropWhile_head {p : Char → Bool} {s : Str} {c : Char} {cs : Str}
    (h : s.dropWhile p = c :: cs) : p c = false := by
  induction s with
  | nil => simp at h
  | cons d ds ih =>
    simp only [List.dropWhile] at h
    split at h
    · exact ih h
    · simp_all

theorem dropWhile_eq_self {p : Char → Bool} {s : Str} (h : ∀ c ∈ s.head?, p c = false) :
    s.dropWhile p = s := by
  cases s with
  | nil => rfl
  | cons c cs => simp only [List.dropWhile]; rw [h c (by simp)]

theorem takeWhile_append_of_all {p : Char → Bool} {a b : Str} (ha : a.all p = true)
    (hb : ∀ c ∈ b.head?, p c = false) :
    (a ++ b).takeWhile p = a ∧ (a ++ b).dropWhile p = b := by
  induction a with
  | nil =>
    cases b with
    | nil => simp
    | cons c cs => have := hb c (by simp); simp [this]
  | cons c cs ih =>
    simp only [List.all_cons, Bool.and_eq_true] at ha
    simp [ha.1, ih ha.2]

/-! ### `rstrip` as a split -/

/-- every string is its `rstrip` followed by whitespace, and the `rstrip` does not end in
whitespace -/
theorem rstrip_spec (s : Str) : ∃ w, s = rstrip s ++ w ∧ w.all isSpace = true ∧
    (∀ c ∈ (rstrip s).getLast?, isSpace c = false) := by
  refine ⟨(s.reverse.takeWhile isSpace).reverse, ?_, ?_, ?_⟩
  · unfold rstrip
    rw [← List.reverse_append, List.takeWhile_append_dropWhile, List.reverse_reverse]
  · rw [List.all_reverse]; exact takeWhile_all _ _
  · intro c hc
    simp only [rstrip, List.getLast?_reverse] at hc
    cases hd : List.dropWhile isSpace s.reverse with
    | nil => simp [hd] at hc
    | cons d ds =>
      simp [hd] at hc; subst hc
      exact dropWhile_head hd

theorem dropWhile_eq_nil_iff {p : Char → Bool} {s : Str} :
    s.dropWhile p = [] ↔ ∀ c ∈ s, p c = true := by
  induction s with
  | nil => simp
  | cons c cs ih => by_cases h : p c = true <;> simp [List.dropWhile, h, ih]

theorem isBlank_iff {s : Str} : isBlank s = true ↔ strip s = [] := by
  unfold isBlank strip
  constructor
  · intro h
    have : lstrip s = [] := by
      simp only [lstrip, dropWhile_eq_nil_iff]
      simpa using h
    rw [this]; rfl
  · intro h
    have h1 : lstrip s = [] := by
      rcases hl : lstrip s with _ | ⟨c, cs⟩
      · rfl
      · exfalso
        have hc : isSpace c = false := dropWhile_head hl
        rw [hl] at h
        simp only [rstrip, List.reverse_eq_nil_iff, dropWhile_eq_nil_iff] at h
        have := h c (by simp)
        simp [hc] at this
    simp only [lstrip, dropWhile_eq_nil_iff] at h1
    simpa using h1

/-! ### words -/

/-- `s` with all whitespace deleted -/
def noSpace (s : Str) : Str := s.filter (fun c => !isSpace c)

@[simp] theorem noSpace_nil : noSpace [] = [] := rfl
@[simp] theorem noSpace_append (a b : Str) : noSpace (a ++ b) = noSpace a ++ noSpace b := by
  simp [noSpace]
theorem noSpace_cons (c : Char) (s : Str) :
    noSpace (c :: s) = if isSpace c then noSpace s else c :: noSpace s := by
  simp only [noSpace, List.filter_cons]
  by_cases h : isSpace c = true <;> simp [h]

theorem flatten_splitP (s : Str) : (splitP isSpace s).flatten = noSpace s := by
  induction s with
  | nil => rfl
  | cons c cs ih =>
    rw [noSpace_cons]
    cases h : isSpace c with
    | true => rw [splitP_cons_pos h]; simpa using ih
    | false =>
      obtain ⟨l, ls, h1, h2⟩ := splitP_cons_neg h cs
      rw [h2, ← ih, h1]; simp

theorem flatten_words (s : Str) : (words s).flatten = noSpace s := by
  rw [← flatten_splitP]
  unfold words
  generalize splitP isSpace s = l
  induction l with
  | nil => rfl
  | cons a l ih => cases a <;> simp_all

theorem words_nil_iff {s : Str} : words s = [] ↔ isBlank s = true := by
  constructor
  · intro h
    have := flatten_words s
    rw [h] at this
    simp [noSpace] at this
    simpa [isBlank] using this
  · intro h
    have h1 := flatten_words s
    have : noSpace s = [] := by
      simp [isBlank] at h
      simpa [noSpace] using h
    rw [this] at h1
    cases hw : words s with
    | nil => rfl
    | cons a l =>
      have ha : a ∈ words s := by simp [hw]
      rw [hw] at h1
      simp only [List.flatten_cons, List.append_eq_nil_iff] at h1
      simp [words, h1.1] at ha

theorem noSpace_of_no_space {s : Str} (h : ∀ c ∈ s, isSpace c = false) : noSpace s = s := by
  rw [noSpace, List.filter_eq_self]
  intro c hc; simp [h c hc]

theorem mem_words_no_space {s w : Str} (h : w ∈ words s) : ∀ c ∈ w, isSpace c = false := by
  simp only [words, List.mem_filter] at h
  exact mem_splitP h.1

theorem mem_words_ne_nil {s w : Str} (h : w ∈ words s) : w ≠ [] := by
  simp only [words, List.mem_filter] at h
  simpa using h.2

theorem noSpace_joinC (l : List Str) (h : ∀ w ∈ l, ∀ c ∈ w, isSpace c = false) :
    noSpace (joinC ' ' l) = l.flatten := by
  induction l with
  | nil => rfl
  | cons a l ih =>
    have ha := noSpace_of_no_space (h a (by simp))
    cases l with
    | nil => simp [ha]
    | cons b l =>
      rw [joinC_cons _ _ (by simp), noSpace_append, noSpace_cons, if_pos (by decide),
        ih (fun w hw => h w (by simp [hw])), ha]
      rfl

theorem noSpace_joinC_words (s : Str) : noSpace (joinC ' ' (words s)) = noSpace s := by
  rw [noSpace_joinC _ (fun w hw => mem_words_no_space hw), flatten_words]

theorem splitP_congr {p q : Char → Bool} {s : Str} (h : ∀ c ∈ s, p c = q c) :
    splitP p s = splitP q s := by
  induction s with
  | nil => rfl
  | cons c cs ih => simp only [splitP, h c (by simp), ih (fun d hd => h d (by simp [hd]))]

theorem nil_mem_splitC {c : Char} {s : Str} (h : [] ∈ splitC c s) :
    s.head? = some c ∨ s.getLast? = some c ∨ [c, c] <:+: s ∨ s = [] := by
  unfold splitC at h
  induction s with
  | nil => simp
  | cons d ds ih =>
    cases hd : (d == c) with
    | true => left; simpa using hd
    | false =>
      obtain ⟨l, ls, h1, h2⟩ := splitP_cons_neg (p := (· == c)) hd ds
      rw [h2] at h
      simp only [List.mem_cons, List.nil_eq, List.cons_ne_nil, false_or] at h
      right
      -- the empty piece is not the first one
      have hmem : [] ∈ ls := by simpa using h
      -- some separator occurs in ds
      have aux : ∀ (s : Str) (l : Str) (ls : List Str), splitP (· == c) s = l :: ls → [] ∈ ls →
          s.getLast? = some c ∨ [c, c] <:+: s := by
        intro s
        induction s with
        | nil => intro l ls h hm; simp [splitP] at h; simp [h.2] at hm
        | cons x xs ihx =>
          intro l ls h hm
          cases hx : (x == c) with
          | true =>
            have hx' : x = c := by simpa using hx
            rw [splitP_cons_pos (by simpa using hx)] at h
            simp only [List.cons.injEq] at h
            cases xs with
            | nil => left; simp [hx']
            | cons y ys =>
              cases hy : (y == c) with
              | true =>
                have hy' : y = c := by simpa using hy
                right; exact ⟨[], ys, by simp [hx', hy']⟩
              | false =>
                obtain ⟨l', ls', h1', h2'⟩ := splitP_cons_neg (p := (· == c)) hy ys
                rw [h2'] at h
                rw [← h.2] at hm
                have hm' : [] ∈ ls' := by simpa using hm
                rcases ihx _ _ h2' hm' with h | ⟨u, v, h⟩
                · left; simpa using h
                · right; exact ⟨x :: u, v, by simp [← h]⟩
          | false =>
            obtain ⟨l', ls', h1', h2'⟩ := splitP_cons_neg (p := (· == c)) hx xs
            rw [h2'] at h
            simp only [List.cons.injEq] at h
            rw [← h.2] at hm
            rcases ihx _ _ h1' hm with h | ⟨u, v, h⟩
            · left
              cases xs with
              | nil => simp at h
              | cons y ys => simpa using h
            · right; exact ⟨x :: u, v, by simp [← h]⟩
      rcases aux _ _ _ h2 hmem with h | h
      · left; exact h
      · right; left; exact h

/-- single spaces between words and none around: splitting and joining is the identity -/
theorem joinC_words_of_tidy {s : Str} (h1 : ∀ c ∈ s, isSpace c = true → c = ' ')
    (h2 : ¬ [' ', ' '] <:+: s) (h3 : s.head? ≠ some ' ') (h4 : s.getLast? ≠ some ' ') :
    joinC ' ' (words s) = s := by
  have hsp : isSpace ' ' = true := by decide
  by_cases hs : s = []
  · subst hs; rfl
  have e : splitP isSpace s = splitC ' ' s := splitP_congr (fun c hc => by
    cases h : isSpace c with
    | true => simp [h1 c hc h]
    | false =>
      symm; rw [beq_eq_false_iff_ne]
      rintro rfl; rw [hsp] at h; simp at h)
  have hf : words s = splitC ' ' s := by
    unfold words
    rw [e, List.filter_eq_self]
    intro w hw
    cases w with
    | nil =>
      rcases nil_mem_splitC hw with h | h | h | h
      · exact absurd h h3
      · exact absurd h h4
      · exact absurd h h2
      · exact absurd h hs
    | cons _ _ => rfl
  rw [hf, joinC_splitC]

end Py
