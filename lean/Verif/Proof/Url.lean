import Verif.Py.Lemmas
import Verif.Model.Url
import Verif.Spec.Url
/-
Splitting of URLs.
-/
namespace Specfile
open Py Spec
namespace Url

theorem urlText_iff {location text : Str} : UrlText location text ↔ text = clean location := by
  have hf : (fun c : Char => decide (c ∉ ['\t', '\r', '\n'])) = (fun c => c != '\t' && c != '\r' && c != '\n') := by
    funext c; rw [Bool.eq_iff_iff]; simp [and_assoc]
  constructor
  · rintro ⟨lead, rest, rfl, h1, h2, rfl⟩
    unfold clean
    rw [List.dropWhile_append_of_pos (by simpa using h1)]
    have : rest.dropWhile (fun c => decide (c.toNat ≤ 32)) = rest := by
      cases rest with
      | nil => rfl
      | cons c cs => rw [List.dropWhile_cons_of_neg]; simpa using h2 c (by simp)
    rw [this, hf]
  · rintro rfl
    refine ⟨location.takeWhile (fun c => decide (c.toNat ≤ 32)), location.dropWhile (fun c => decide (c.toNat ≤ 32)),
      by rw [List.takeWhile_append_dropWhile], ?_, ?_, ?_⟩
    · intro c hc
      have := List.all_eq_true.1 (takeWhile_all (fun c => decide (c.toNat ≤ 32)) location) c hc
      simpa using this
    · intro c hc
      have := List.head?_dropWhile_not (fun c : Char => decide (c.toNat ≤ 32)) location
      rw [hc] at this
      simpa using this
    · rw [hf]; rfl

theorem letter_iff {c : Char} : letter c = true ↔ 'a' ≤ c ∧ c ≤ 'z' ∨ 'A' ≤ c ∧ c ≤ 'Z' := by simp [letter]

theorem schemeChar_iff {c : Char} : schemeChar c = true ↔
    ('a' ≤ c ∧ c ≤ 'z' ∨ 'A' ≤ c ∧ c ≤ 'Z') ∨ ('0' ≤ c ∧ c ≤ '9') ∨ c ∈ ['+', '-', '.'] := by
  simp only [schemeChar, Bool.or_eq_true, letter_iff, decide_eq_true_eq, beq_iff_eq, List.mem_cons, List.not_mem_nil, or_false]
  simp only [or_assoc]

theorem isScheme_iff {s : Str} : IsScheme s ↔ s.head?.any letter = true ∧ s.all schemeChar = true := by
  unfold IsScheme
  simp only [List.all_eq_true, schemeChar_iff]
  constructor
  · rintro ⟨⟨c, hc, h1⟩, h2⟩
    refine ⟨?_, h2⟩
    rw [Option.mem_def.1 hc]
    simpa using letter_iff.2 h1
  · rintro ⟨h1, h2⟩
    refine ⟨?_, h2⟩
    cases hs : s.head? with
    | none => simp [hs] at h1
    | some c => exact ⟨c, rfl, letter_iff.1 (by simpa [hs] using h1)⟩

theorem splitScheme_of {scheme rest : Str} (h : IsScheme scheme) : splitScheme (scheme ++ ':' :: rest) = (scheme, rest) := by
  have hc : ∀ c ∈ scheme, (c != ':') = true := by
    intro c hc
    have := (List.all_eq_true.1 (isScheme_iff.1 h).2) c hc
    rw [bne_iff_ne]
    rintro rfl
    revert this; decide
  have ht : (scheme ++ ':' :: rest).takeWhile (fun c => c != ':') = scheme := by
    rw [List.takeWhile_append_of_pos hc]; simp
  unfold splitScheme
  simp only [ht, isScheme_iff.1 h]
  simp

theorem splitScheme_none {url : Str} (h : ∀ scheme rest, url = scheme ++ ':' :: rest → ¬ IsScheme scheme) :
    splitScheme url = ([], url) := by
  unfold splitScheme
  simp only
  split
  · rename_i hc
    simp only [Bool.and_eq_true, decide_eq_true_eq] at hc
    exfalso
    have hne : url.dropWhile (fun c => c != ':') ≠ [] := by
      intro hn
      have := congrArg List.length (List.takeWhile_append_dropWhile (p := fun c => c != ':') (l := url))
      rw [hn] at this
      simp at this
      omega
    cases hd : url.dropWhile (fun c => c != ':') with
    | nil => exact hne hd
    | cons c cs =>
      have h1 := List.head?_dropWhile_not (fun c : Char => c != ':') url
      rw [hd] at h1
      simp at h1
      subst h1
      refine h (url.takeWhile (fun c => c != ':')) cs ?_ (isScheme_iff.2 ⟨hc.1.2, hc.2⟩)
      rw [← hd, List.takeWhile_append_dropWhile]
  · rfl

theorem hostOf_netloc {text host : Str} (h : HostOf text host) : netloc text = host := by
  obtain ⟨rest, rfl, h1, h2⟩ := h
  have : startsWith (s% "//" ++ host ++ rest) (s% "//") = true := by
    simp [startsWith, List.isPrefixOf]
  unfold netloc
  rw [this, if_pos rfl]
  simp only [List.cons_append, List.nil_append, List.drop_succ_cons, List.drop_zero]
  rw [List.takeWhile_append_of_pos (by intro c hc; have := h1 c hc; simp at this; simp [this])]
  cases rest with
  | nil => simp
  | cons c cs =>
    have := h2 c (by simp)
    rw [List.takeWhile_cons_of_neg]
    · simp
    · simp at this ⊢
      intro a b; rcases this with h | h | h
      · exact absurd h a
      · exact absurd h b
      · exact h

theorem hostOf_of {text : Str} (h : s% "//" <+: text) : HostOf text (netloc text) := by
  obtain ⟨t, rfl⟩ := h
  have : startsWith (s% "//" ++ t) (s% "//") = true := by simp [startsWith, List.isPrefixOf]
  unfold netloc
  rw [this, if_pos rfl]
  simp only [List.cons_append, List.nil_append, List.drop_succ_cons, List.drop_zero]
  refine ⟨t.dropWhile (fun c => c != '/' && c != '?' && c != '#'), ?_, ?_, ?_⟩
  · simp [List.takeWhile_append_dropWhile]
  · intro c hc
    have := List.all_eq_true.1 (takeWhile_all _ t) c hc
    simpa [and_assoc] using this
  · intro c hc
    have := List.head?_dropWhile_not (fun c : Char => c != '/' && c != '?' && c != '#') t
    rw [hc] at this
    simp only [Bool.and_eq_false_iff, bne_eq_false_iff_eq] at this
    simp only [List.mem_cons, List.not_mem_nil, or_false]
    rcases this with (h | h) | h
    · exact .inl h
    · exact .inr (.inl h)
    · exact .inr (.inr h)

theorem netloc_nil {text : Str} (h : ¬ s% "//" <+: text) : netloc text = [] := by
  have : startsWith text (s% "//") = false := by
    rw [Bool.eq_false_iff]; intro hc; exact h (List.isPrefixOf_iff_prefix.1 hc)
  simp [netloc, this]

theorem inBrackets_of {a b rest : Str} (h1 : '[' ∉ a) (h2 : ']' ∉ b) (h3 : ∀ c ∈ rest.head?, c = ']') :
    inBrackets (a ++ '[' :: (b ++ rest)) = b := by
  unfold inBrackets
  rw [List.dropWhile_append_of_pos (by intro c hc; simp; rintro rfl; exact h1 hc)]
  rw [List.dropWhile_cons_of_neg (by simp)]
  simp only [List.drop_succ_cons, List.drop_zero]
  rw [List.takeWhile_append_of_pos (by intro c hc; simp; rintro rfl; exact h2 hc)]
  cases rest with
  | nil => simp
  | cons c cs => rw [List.takeWhile_cons_of_neg (by simp [h3 c (by simp)])]; simp

theorem inBrackets_split {host : Str} (h : '[' ∈ host) : ∃ a rest : Str, host = a ++ '[' :: (inBrackets host ++ rest) ∧
    '[' ∉ a ∧ ']' ∉ inBrackets host ∧ ∀ c ∈ rest.head?, c = ']' := by
  obtain ⟨a, t, rfl, ha⟩ : ∃ a t : Str, host = a ++ '[' :: t ∧ '[' ∉ a := by
    have h1 := List.takeWhile_append_dropWhile (p := fun c => c != '[') (l := host)
    cases hd : host.dropWhile (fun c => c != '[') with
    | nil =>
      exfalso
      rw [hd, List.append_nil] at h1
      have := List.all_eq_true.1 (takeWhile_all (fun c => c != '[') host) '[' (by rw [h1]; exact h)
      simp at this
    | cons c cs =>
      have h2 := List.head?_dropWhile_not (fun c : Char => c != '[') host
      rw [hd] at h2
      simp at h2
      subst h2
      rw [hd] at h1
      refine ⟨_, cs, h1.symm, ?_⟩
      intro hc
      have := List.all_eq_true.1 (takeWhile_all (fun c => c != '[') host) '[' hc
      simp at this
  have hb : inBrackets (a ++ '[' :: t) = t.takeWhile (fun c => c != ']') := by
    unfold inBrackets
    rw [List.dropWhile_append_of_pos (by intro c hc; simp; rintro rfl; exact ha hc)]
    rw [List.dropWhile_cons_of_neg (by simp)]
    rfl
  rw [hb]
  refine ⟨a, t.dropWhile (fun c => c != ']'), by rw [List.takeWhile_append_dropWhile], ha, ?_, ?_⟩
  · intro hc
    have := List.all_eq_true.1 (takeWhile_all (fun c => c != ']') t) ']' hc
    simp at this
  · intro c hc
    have := List.head?_dropWhile_not (fun c : Char => c != ']') t
    rw [hc] at this
    simpa using this

theorem malformed_iff {ch : Checks} {host : Str} :
    malformed ch host = true ↔ BadHost ch.bracketed ch.normalized host := by
  simp only [malformed, Bool.or_eq_true, Bool.and_eq_true, List.contains_eq_mem, decide_eq_true_eq, Bool.not_eq_true',
    decide_eq_false_iff_not, List.any_eq_true, List.isEmpty_eq_false_iff]
  constructor
  · rintro (((⟨h1, h2⟩ | ⟨h1, h2⟩) | ⟨⟨h1, h2⟩, h3⟩) | ⟨⟨_, h1⟩, h2⟩)
    · exact .unclosed h1 h2
    · exact .unopened h1 h2
    · obtain ⟨a, rest, e, ha, hb, hr⟩ := inBrackets_split h1
      rw [e]
      refine .address ha hb hr ?_ h3
      rw [e] at h2
      simp only [List.mem_append, List.mem_cons] at h2 ⊢
      rcases h2 with h2 | h2 | h2 | h2
      · exact .inl h2
      · exact absurd h2 (by decide)
      · exact absurd h2 hb
      · exact .inr h2
    · exact .characters h1 h2
  · intro h
    cases h with
    | unclosed h1 h2 => exact .inl (.inl (.inl ⟨h1, h2⟩))
    | unopened h1 h2 => exact .inl (.inl (.inr ⟨h1, h2⟩))
    | address h1 h2 h3 h4 h5 =>
      refine .inl (.inr ⟨⟨by simp, ?_⟩, by rw [inBrackets_of h1 h2 h3]; exact h5⟩)
      simp only [List.mem_append, List.mem_cons] at h4 ⊢
      rcases h4 with h4 | h4
      · exact .inl h4
      · exact .inr (.inr (.inr h4))
    | characters h1 h2 =>
      refine .inr ⟨⟨?_, h1⟩, h2⟩
      rintro rfl
      obtain ⟨c, hc, _⟩ := h1
      simp at hc

theorem badHost_nil {a b : Str → Bool} : ¬ BadHost a b [] := by
  intro h
  have := (malformed_iff (ch := ⟨a, b⟩)).2 h
  simp [malformed] at this

theorem scheme_or (text : Str) : (∃ scheme rest, text = scheme ++ ':' :: rest ∧ IsScheme scheme) ∨
    ∀ scheme rest, text = scheme ++ ':' :: rest → ¬ IsScheme scheme := by
  by_cases h : ∃ scheme rest, text = scheme ++ ':' :: rest ∧ IsScheme scheme
  · exact .inl h
  · right
    intro s r h1 h2
    exact h ⟨s, r, h1, h2⟩

theorem hostOf_no_scheme {text host : Str} (h : HostOf text host) : ∀ scheme rest, text = scheme ++ ':' :: rest → ¬ IsScheme scheme := by
  obtain ⟨r, rfl, _, _⟩ := h
  intro s rest he hs
  cases s with
  | nil => obtain ⟨⟨c, hc, _⟩, _⟩ := hs; simp at hc
  | cons c cs =>
    simp at he
    have := (isScheme_iff.1 hs).1
    rw [← he.1] at this
    have h2 : letter '/' = true := this
    revert h2; decide

end Url
end Specfile
