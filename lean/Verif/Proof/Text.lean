import Verif.Spec.Text
import Verif.Proof.Sections4
/-
Loading and saving text.
-/
namespace Specfile.Text
open Py Spec

theorem onlyLF_cons {c : Char} {t : Str} (h : OnlyLF (c :: t)) : OnlyLF t := fun d hd => h d (by simp [hd])

theorem splitlines_cons {c : Char} {cs : Str} (h : c ≠ '\r') : splitlines (c :: cs) =
    if isLineBreak c then [] :: splitlines cs
    else match splitlines cs with
      | [] => [[c]]
      | l :: ls => (c :: l) :: ls := by
  rw [splitlines]
  · cases splitlines cs <;> rfl
  · intro _ h'; exact absurd h' h

theorem splitlines_ne_nil {t : Str} (h : t ≠ []) : splitlines t ≠ [] := by
  fun_cases splitlines t <;> simp_all

theorem universal_self {t : Str} (h : '\r' ∉ t) : universal t = t := by
  induction t with
  | nil => rfl
  | cons c cs ih =>
    have hc : c ≠ '\r' := by rintro rfl; simp at h
    rw [universal, ih (fun h' => h (by simp [h'])), if_neg hc]
    intro _ h'; exact absurd h' hc

theorem universal_ne_nil {t : Str} : universal t = [] ↔ t = [] := by
  fun_cases universal t <;> simp

theorem universal_no_cr (t : Str) : '\r' ∉ universal t := by
  fun_induction universal t with
  | case1 => simp
  | case2 cs ih => simp [ih]
  | case3 c cs h ih =>
    simp only [List.mem_cons, not_or]
    refine ⟨?_, ih⟩
    split <;> simp_all [eq_comm]

theorem text_cons {c : Char} {l : Str} {ls : List Str} {b : Bool} :
    text ⟨(c :: l) :: ls, b⟩ = c :: text ⟨l :: ls, b⟩ := by
  cases ls <;> simp [text, joinC]

theorem text_nil_cons {l : Str} {ls : List Str} {b : Bool} :
    text ⟨[] :: l :: ls, b⟩ = '\n' :: text ⟨l :: ls, b⟩ := by
  simp [text, joinC]

/-- joining the lines gives the text -/
theorem text_splitlines {t : Str} (hne : t ≠ []) (h : OnlyLF t) :
    text ⟨splitlines t, t.getLast? == some '\n'⟩ = t := by
  induction t with
  | nil => exact absurd rfl hne
  | cons c cs ih =>
    have hc : c ≠ '\r' := by rintro rfl; exact absurd (h '\r' (by simp) (by decide)) (by decide)
    rw [splitlines_cons hc]
    cases cs with
    | nil =>
      by_cases hb : isLineBreak c = true
      · have := h c (by simp) hb
        subst this
        simp [isLineBreak, splitlines, text]
      · have : c ≠ '\n' := by rintro rfl; exact hb (by decide)
        simp [hb, splitlines, text, this]
    | cons d ds =>
      have ih := ih (by simp) (onlyLF_cons h)
      have e : ((c :: d :: ds).getLast? == some '\n') = ((d :: ds).getLast? == some '\n') := by
        rw [List.getLast?_cons_cons]
      rw [e]
      cases hs : splitlines (d :: ds) with
      | nil => exact absurd hs (splitlines_ne_nil (by simp))
      | cons l ls =>
        rw [hs] at ih
        by_cases hb : isLineBreak c = true
        · have := h c (by simp) hb
          subst this
          rw [if_pos hb, text_nil_cons, ih]
        · rw [if_neg hb]
          simp only
          rw [text_cons, ih]

theorem oneLine_splitlines (t : Str) : ∀ l ∈ splitlines t, OneLine l := by
  fun_induction splitlines t with
  | case1 => simp
  | case2 cs ih =>
    intro l hl
    rcases List.mem_cons.1 hl with rfl | hl
    · intro c hc; simp at hc
    · exact ih l hl
  | case3 c cs h hb ih =>
    intro l hl
    rcases List.mem_cons.1 hl with rfl | hl
    · intro c hc; simp at hc
    · exact ih l hl
  | case4 c cs h hb hs ih =>
    intro l hl
    simp at hl
    subst hl
    intro d hd
    simp at hd
    subst hd
    simpa using hb
  | case5 c cs h hb l ls hs ih =>
    rw [hs] at ih
    intro l' hl
    rcases List.mem_cons.1 hl with rfl | hl
    · intro d hd
      rcases List.mem_cons.1 hd with rfl | hd
      · simpa using hb
      · exact ih l (by simp) d hd
    · exact ih l' (by simp [hl])

theorem joinC_onlyLF {ls : List Str} (h : ∀ l ∈ ls, OneLine l) : OnlyLF (joinC '\n' ls) := by
  fun_induction joinC '\n' ls with
  | case1 => intro c hc; simp at hc
  | case2 a =>
    intro c hc hb
    rw [h a (by simp) c hc] at hb
    cases hb
  | case3 a b l ih =>
    intro c hc hb
    rw [List.mem_append, List.mem_cons] at hc
    rcases hc with hc | rfl | hc
    · rw [h a (by simp) c hc] at hb; cases hb
    · rfl
    · exact ih (fun l' hl => h l' (by simp [hl])) c hc hb

theorem text_onlyLF {c : Content} (h : ∀ l ∈ c.lines, OneLine l) : OnlyLF (text c) := by
  intro d hd hb
  unfold text at hd
  rw [List.mem_append] at hd
  rcases hd with hd | hd
  · exact joinC_onlyLF h d hd hb
  · split at hd <;> simp at hd; exact hd

theorem readLines_error {file : Str} {e : Err} : readLines file = .error e ↔ file = [] ∧ e = .indexError := by
  unfold readLines
  split
  · rename_i h
    rw [List.getLast?_eq_none_iff, universal_ne_nil] at h
    simp [h, eq_comm]
  · rename_i c h
    have : file ≠ [] := by rintro rfl; simp [universal] at h
    simp [this]

theorem readLines_ok {file : Str} {c : Content} (h : readLines file = .ok c) :
    c = ⟨splitlines (universal file), (universal file).getLast? == some '\n'⟩ := by
  unfold readLines at h
  split at h
  · cases h
  · rename_i x hx
    cases h
    simp [hx]

theorem readLines_oneLine {file : Str} {c : Content} (h : readLines file = .ok c) : ∀ l ∈ c.lines, OneLine l := by
  rw [readLines_ok h]
  exact oneLine_splitlines _

theorem no_cr_of_onlyLF {t : Str} (h : OnlyLF t) : '\r' ∉ t := fun hc =>
  absurd (h '\r' hc (by decide)) (by decide)

/-- a text is reproduced iff it is not empty and has no other line separators than line feeds -/
theorem roundtrip_iff {file : Str} : (∃ c, readLines file = .ok c ∧ text c = file) ↔ file ≠ [] ∧ OnlyLF file := by
  constructor
  · rintro ⟨c, h, rfl⟩
    refine ⟨?_, text_onlyLF (readLines_oneLine h)⟩
    intro h0
    rw [h0] at h
    simp [readLines, universal] at h
  · rintro ⟨hne, h⟩
    have hu := universal_self (no_cr_of_onlyLF h)
    cases hr : readLines file with
    | error e => exact absurd (readLines_error.1 hr).1 hne
    | ok c =>
      refine ⟨c, rfl, ?_⟩
      rw [readLines_ok hr, hu]
      exact text_splitlines hne h

theorem joinC_snoc {ls : List Str} {l : Str} (h : ls ≠ []) : joinC '\n' (ls ++ [l]) = joinC '\n' ls ++ '\n' :: l := by
  induction ls with
  | nil => exact absurd rfl h
  | cons a ls ih =>
    cases ls with
    | nil => simp [joinC]
    | cons b ls =>
      have := ih (by simp)
      simp only [List.cons_append] at this
      simp [joinC, this]

theorem splitlines_oneLine {l : Str} (h : OneLine l) (hne : l ≠ []) : splitlines l = [l] := by
  induction l with
  | nil => exact absurd rfl hne
  | cons c cs ih =>
    have hc := h c (by simp)
    have hr : c ≠ '\r' := by rintro rfl; simp [isLineBreak] at hc
    rw [splitlines_cons hr, if_neg (by simp [hc])]
    cases cs with
    | nil => rfl
    | cons d ds => rw [ih (fun x hx => h x (by simp [hx])) (by simp)]

theorem splitlines_text {c : Content} (h : Stable c) : splitlines (text c) = c.lines := by
  obtain ⟨ls, b⟩ := c
  obtain ⟨h1, h2, h3⟩ := h
  simp only at h1 h2 h3
  induction ls with
  | nil => exact absurd rfl h2
  | cons l ls ih =>
    cases ls with
    | nil =>
      cases b with
      | true =>
        simp only [text, joinC, if_true]
        rw [Sections.splitlines_line (h1 l (by simp))]
        rfl
      | false =>
        simp only [text, joinC, Bool.false_eq_true, if_false, List.append_nil]
        exact splitlines_oneLine (h1 l (by simp)) (by simpa using h3)
    | cons m ls =>
      have := ih (fun x hx => h1 x (by simp [hx])) (by simp) (by simpa using h3)
      have e : text ⟨l :: m :: ls, b⟩ = l ++ '\n' :: text ⟨m :: ls, b⟩ := by simp [text, joinC]
      rw [e, Sections.splitlines_line (h1 l (by simp)), this]

theorem last_text {c : Content} (h : Stable c) : ∃ x, (text c).getLast? = some x ∧ (x == '\n') = c.newline := by
  obtain ⟨ls, b⟩ := c
  obtain ⟨h1, h2, h3⟩ := h
  simp only at h1 h2 h3
  cases b with
  | true => exact ⟨'\n', by simp [text], rfl⟩
  | false =>
    have h3 := h3 rfl
    rcases List.eq_nil_or_concat ls with rfl | ⟨q, z, rfl⟩
    · exact absurd rfl h2
    · have hz : z ≠ [] := by rintro rfl; simp at h3
      rcases List.eq_nil_or_concat z with rfl | ⟨y, x, rfl⟩
      · exact absurd rfl hz
      · refine ⟨x, ?_, ?_⟩
        · simp only [text, Bool.false_eq_true, if_false, List.append_nil]
          by_cases hq : q = []
          · simp [hq]
          · rw [List.concat_eq_append, joinC_snoc hq, List.concat_eq_append, ← List.cons_append, ← List.append_assoc, List.getLast?_concat]
        · have := h1 _ (by simp : y.concat x ∈ q.concat (y.concat x)) x (by simp)
          cases hx : x == '\n' with
          | false => rfl
          | true =>
            simp at hx
            subst hx
            exact absurd this (by decide)

/-- saved lines are loaded again iff they are stable -/
theorem save_load {c : Content} (h1 : ∀ l ∈ c.lines, OneLine l) : readLines (save c) = .ok c ↔ Stable c := by
  constructor
  · intro h
    refine ⟨h1, ?_, ?_⟩
    · intro h0
      obtain ⟨ls, b⟩ := c
      simp only at h0
      subst h0
      cases b <;> revert h <;> decide
    · intro hb h0
      obtain ⟨ls, b⟩ := c
      simp only at h0 hb h1
      subst hb
      rcases List.eq_nil_or_concat ls with rfl | ⟨q, z, rfl⟩
      · simp at h0
      · simp at h0
        subst h0
        by_cases hq : q = []
        · subst hq; revert h; decide
        · have e : save ⟨q.concat [], false⟩ = joinC '\n' q ++ ['\n'] := by
            simp [save, text, joinC_snoc hq]
          rw [e] at h
          have := readLines_ok h
          have hlf : OnlyLF (joinC '\n' q ++ ['\n']) := by
            rw [← e]; exact text_onlyLF h1
          rw [universal_self (no_cr_of_onlyLF hlf)] at this
          simp at this
  · intro h
    have hu := universal_self (no_cr_of_onlyLF (text_onlyLF h.1))
    obtain ⟨x, hx, hb⟩ := last_text h
    unfold readLines save
    rw [hu, hx, splitlines_text h]
    simp [hb]

theorem LinesOf.push {t l : Str} {ls : List Str} {c : Char} (h : LinesOf t (l :: ls)) (hc : isLineBreak c = false) :
    LinesOf (c :: t) ((c :: l) :: ls) := by
  have cons : OneLine l → OneLine (c :: l) := by
    intro h d hd
    rcases List.mem_cons.1 hd with rfl | hd
    · exact hc
    · exact h d hd
  cases h with
  | last h hne => exact .last (cons h) (by simp)
  | crlf h hr => exact .crlf (l := c :: l) (cons h) hr
  | sep h hb hn hr => exact .sep (l := c :: l) (cons h) hb hn hr

theorem linesOf_splitlines (t : Str) : LinesOf t (splitlines t) := by
  fun_induction splitlines t with
  | case1 => exact .nil
  | case2 cs ih => exact .crlf (l := []) (by intro c hc; simp at hc) ih
  | case3 c cs h hb ih =>
    refine .sep (l := []) (by intro c hc; simp at hc) hb ?_ ih
    rintro rfl hh
    cases cs with
    | nil => simp at hh
    | cons d cs =>
      simp at hh
      exact h cs rfl (by rw [hh])
  | case4 c cs h hb hs ih =>
    have : cs = [] := by
      cases cs with
      | nil => rfl
      | cons d cs => exact absurd hs (splitlines_ne_nil (by simp))
    subst this
    refine .last ?_ (by simp)
    intro d hd
    simp at hd
    subst hd
    simpa using hb
  | case5 c cs h hb l ls hs ih =>
    rw [hs] at ih
    exact LinesOf.push ih (by simpa using hb)

theorem splitlines_universal (t : Str) : splitlines (universal t) = splitlines t := by
  fun_induction universal t with
  | case1 => rfl
  | case2 cs ih => rw [splitlines_cons (by decide), if_pos (by decide), ih, splitlines]
  | case3 c cs h ih =>
    by_cases hc : c = '\r'
    · subst hc
      rw [if_pos rfl, splitlines_cons (by decide), if_pos (by decide), ih, splitlines, if_pos (by decide)]
      intro cs' _ hcs
      exact h cs' rfl hcs
    · rw [if_neg hc, splitlines_cons hc, splitlines_cons hc, ih]

theorem getLast_universal (t : Str) : (universal t).getLast? = some '\n' ↔ t.getLast? = some '\n' ∨ t.getLast? = some '\r' := by
  fun_induction universal t with
  | case1 => simp
  | case2 cs ih =>
    cases cs with
    | nil => simp [universal]
    | cons d cs =>
      have : universal (d :: cs) ≠ [] := by rw [Ne, universal_ne_nil]; simp
      obtain ⟨x, xs, e⟩ := List.exists_cons_of_ne_nil this
      rw [e] at ih ⊢
      simpa [List.getLast?_cons_cons] using ih
  | case3 c cs h ih =>
    cases cs with
    | nil =>
      simp only [universal, List.getLast?_singleton, Option.some.injEq]
      split
      · simp [*]
      · rename_i hc; simp [hc]
    | cons d cs =>
      have : universal (d :: cs) ≠ [] := by rw [Ne, universal_ne_nil]; simp
      obtain ⟨x, xs, e⟩ := List.exists_cons_of_ne_nil this
      rw [e] at ih ⊢
      simpa [List.getLast?_cons_cons] using ih

end Specfile.Text
