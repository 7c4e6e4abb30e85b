import Verif.Proof.Sections3
import Verif.Props.Options
/-
Writing sections back.
-/
namespace Specfile.Sections
open Py Regex Spec Tags

theorem splitlines_line {l : Str} (h : OneLine l) (r : Str) :
    splitlines (l ++ '\n' :: r) = l :: splitlines r := by
  induction l with
  | nil => simp only [List.nil_append]; rw [splitlines]; rfl; intro c h; simp at h
  | cons c cs ih =>
    have hc := h c (by simp)
    have hr : c ≠ '\r' := by rintro rfl; simp [isLineBreak] at hc
    have := ih (fun x hx => h x (by simp [hx]))
    rw [List.cons_append, splitlines, if_neg (by simp [hc]), this]
    intro _ h; exact absurd h hr

theorem splitlines_unlines {ls : List Str} (h : ∀ l ∈ ls, OneLine l) : splitlines (unlines ls) = ls := by
  induction ls with
  | nil => rfl
  | cons l ls ih =>
    have e : unlines (l :: ls) = l ++ '\n' :: unlines ls := by simp [unlines]
    rw [e, splitlines_line (h l (by simp)), ih (fun x hx => h x (by simp [hx]))]

theorem len_nil (os : Str) (df) : Options.len ⟨[], os, df⟩ = 0 := rfl

/-- the delimiter of a section that was read is the one in its header -/
theorem delim_of_header [Uni] {p : HeaderParts} {data : List Str} {s : Section}
    (h : SectionFor p data s) (hd : ∀ d o, p.options = some (d, o) → d ≠ []) : delim s = s.delimiter := by
  unfold delim
  rw [if_neg]
  rintro ⟨h1, h2⟩
  have ht := h.tokens
  cases ho : p.options with
  | none =>
    rw [ho] at ht
    simp only at ht
    apply h1
    simp [Options.len, ht.1, Options.distinct]
  | some x =>
    obtain ⟨d, o⟩ := x
    rw [ho] at ht
    simp only at ht
    apply hd d o ho
    rw [ht.2] at h2
    simpa using h2

/-- a section that was read from a header that prints back -/
theorem str_of_header [Uni] {ex : Str → Except Err Str} {l : Str} {p : HeaderParts} {data : List Str}
    {s : Section} (ht : HeaderText ex l p) (hs : SectionFor p data s)
    (ho : ∀ d o, p.options = some (d, o) → ∀ ts, Options.tokenize o = .ok ts → Options.tokensStr ts = o)
    (hn : normalizedId s ≠ preamble) : str s = unlines (l :: data) := by
  unfold str
  simp only
  rw [if_neg hn]
  have hd := delim_of_header hs (fun d o h => (ht.options d o h).1)
  have hid : id s = p.name ++ pairText p.options := by
    unfold id
    rw [hd, hs.name, List.append_assoc]
    congr 1
    have t := hs.tokens
    cases hp : p.options with
    | none =>
      rw [hp] at t; simp only at t
      simp [t.1, t.2, pairText, Options.tokensStr]
    | some x =>
      obtain ⟨d, o⟩ := x
      rw [hp] at t; simp only at t
      simp only [pairText, t.2, ho d o hp _ t.1]
  rw [hid, ht.text]
  have c := hs.content
  cases hm : p.moved with
  | none =>
    rw [hm] at c; simp only at c
    simp [unlines, c.1, c.2, pairText]
  | some x =>
    obtain ⟨w, m⟩ := x
    rw [hm] at c; simp only at c
    simp [unlines, c.1, c.2, pairText]

theorem normalizedId_ne [Uni] {ex : Str → Except Err Str} {l : Str} {p : HeaderParts} {data : List Str}
    {s : Section} (ht : HeaderText ex l p) (hs : SectionFor p data s)
    (hp : p.options = none → Uni.lower p.name ≠ preamble) : normalizedId s ≠ preamble := by
  have hd := delim_of_header hs (fun d o h => (ht.options d o h).1)
  have t := hs.tokens
  unfold normalizedId
  rw [hd, hs.name]
  cases ho : p.options with
  | none =>
    rw [ho] at t; simp only at t
    rw [t.1, t.2]
    simpa [Options.tokensStr] using hp ho
  | some x =>
    obtain ⟨d, o⟩ := x
    rw [ho] at t; simp only at t
    rw [t.2]
    obtain ⟨h1, h2, _⟩ := ht.options d o ho
    cases d with
    | nil => exact absurd rfl h1
    | cons c cs =>
      intro he
      have hc := h2 c (by simp)
      have : c ∈ preamble := by rw [← he]; simp
      have key : ∀ c ∈ preamble, isSpace c = false := by decide
      rw [key c this] at hc
      simp at hc

/-- every header of the sections prints back -/
theorem raw_sectionsOf [Uni] {ex : Nat → Str → Except Err Str} {inDef : Nat → Prop} {i : Nat}
    {lines data : List Str} {ss : Sections} (h : SectionsOf ex inDef i lines data ss)
    (hl : ∀ l ∈ lines, OneLine l)
    (hh : ∀ j l, lines[j]? = some l → HeaderLine l → ∀ p, HeaderText (ex (i + j)) l p →
      (∀ d o, p.options = some (d, o) → ∀ ts, Options.tokenize o = .ok ts → Options.tokensStr ts = o) ∧
      (p.options = none → Uni.lower p.name ≠ preamble)) :
    data ++ raw ss = lines ∧ unlines data ++ strAll ss = unlines lines := by
  induction h with
  | nil => exact ⟨rfl, rfl⟩
  | line _ _ ih =>
    have := ih (fun x hx => hl x (by simp [hx]))
      (fun j l hj hd p hp => hh (j + 1) l (by simpa using hj) hd p (by rw [Nat.add_right_comm] at hp; exact hp))
    exact ⟨by simp [this.1], by have e := this.2; simp only [unlines, List.map_cons, List.flatten_cons] at e ⊢; rw [← e]; simp⟩
  | @header i l ls data ss p s _ h2 h3 h4 _ ih =>
    have := ih (fun x hx => hl x (by simp [hx]))
      (fun j l hj hd p hp => hh (j + 1) l (by simpa using hj) hd p (by rw [Nat.add_right_comm] at hp; exact hp))
    obtain ⟨k1, k2⟩ := hh 0 l (by simp) h2 p (by simpa using h3)
    have hn := normalizedId_ne h3 h4 k2
    have e := str_of_header h3 h4 k1 hn
    have hraw : rawSection s = l :: data := by
      unfold rawSection
      rw [if_neg hn, e]
      apply splitlines_unlines
      intro x hx
      rcases List.mem_cons.mp hx with rfl | hx
      · exact hl x (by simp)
      · apply hl x
        rw [← this.1]; simp [hx]
    constructor
    · simp only [raw, List.map_cons, List.flatten_cons, List.nil_append, hraw]
      have := this.1
      simp only [raw] at this
      rw [List.cons_append, this]
    · have e2 := this.2
      simp only [strAll, List.map_cons, List.flatten_cons, e] at e2 ⊢
      simp only [unlines, List.map_cons, List.flatten_cons, List.map_nil, List.flatten_nil, List.nil_append] at e2 ⊢
      rw [← e2]; simp

theorem canonical_prints [Uni] {o : Str} (h : CanonicalText o) {ts : List Token}
    (ht : Options.tokenize o = .ok ts) : Options.tokensStr ts = o := by
  obtain ⟨h1, ns, h2, h3⟩ := h
  obtain ⟨ts', e1, e2⟩ := Props.C10_tokenize_print_partial h1 h2 h3
  rw [e1] at ht
  simp only [Except.ok.injEq] at ht
  rw [← ht, e2]

theorem preamble_id [Uni] (data : List Str) : normalizedId (preambleOf data) = preamble := by
  unfold normalizedId delim
  rw [if_neg (by simp [preambleOf, len_nil])]
  simp only [preambleOf, Options.tokensStr, List.map_nil, List.flatten_nil, List.append_nil]
  exact lower_preamble

theorem raw_preamble [Uni] (data : List Str) : rawSection (preambleOf data) = data := by
  unfold rawSection
  rw [if_pos (preamble_id data)]
  rfl

theorem str_preamble [Uni] (data : List Str) : str (preambleOf data) = unlines data := by
  unfold str
  simp only
  rw [if_pos (preamble_id data)]
  rfl

end Specfile.Sections
