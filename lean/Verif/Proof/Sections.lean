import Verif.Spec.Sections
import Verif.Proof.Tags
/-
Lemmas about section headers.
-/
namespace Specfile.Sections
open Py Regex Spec Tags

/-! ### `re.split(r"(\s+)", line)` -/

theorem splitWs_cons_neg {c : Char} (h : isSpace c = false) (cs : Str) :
    splitWs (c :: cs) = (c :: (splitWs cs).1, (splitWs cs).2) := by
  conv => lhs; unfold splitWs
  rw [if_neg (by simp [h])]

theorem splitWs_text (s : Str) : (splitWs s).1 ++ joinPairs (splitWs s).2 = s := by
  induction s with
  | nil => rfl
  | cons c cs ih =>
    unfold splitWs
    split
    · split
      · rename_i w t ps h
        rw [h] at ih
        simp only [joinPairs, List.map_cons, List.flatten_cons, List.nil_append] at ih ⊢
        simp [← ih]
      · rename_i h ps hne heq
        rw [heq] at ih
        simp only [joinPairs, List.map_cons, List.flatten_cons, List.nil_append] at ih ⊢
        simp [← ih]
    · simp [ih]

/-- shape of the result -/
structure Tidy (r : Str × List (Str × Str)) : Prop where
  head : Word r.1
  ws : ∀ p ∈ r.2, p.1 ≠ [] ∧ Spaces p.1 ∧ Word p.2
  /-- only the last token can be empty -/
  inner : ∀ a p q b, r.2 = a ++ p :: q :: b → p.2 ≠ []

theorem splitWs_tidy (s : Str) : Tidy (splitWs s) := by
  induction s with
  | nil => exact ⟨by intro c hc; simp [splitWs] at hc, by simp [splitWs], by simp [splitWs]⟩
  | cons c cs ih =>
    obtain ⟨h1, h2, h3⟩ := ih
    unfold splitWs
    split
    · rename_i hc
      split
      · rename_i w t ps h
        rw [h] at h1 h2 h3
        refine ⟨by intro x hx; simp at hx, ?_, ?_⟩
        · intro p hp
          rcases List.mem_cons.mp hp with rfl | hp
          · obtain ⟨a1, a2, a3⟩ := h2 (w, t) (by simp)
            exact ⟨by simp, by intro x hx; rcases List.mem_cons.mp hx with rfl | hx; exact hc; exact a2 x hx, a3⟩
          · exact h2 p (by simp [hp])
        · intro a p q b he
          cases a with
          | nil =>
            simp only [List.nil_append, List.cons.injEq] at he
            have := h3 [] (w, t) q b (by simp [he.2])
            rw [← he.1]; exact this
          | cons x a =>
            simp only [List.cons_append, List.cons.injEq] at he
            exact h3 ((w, t) :: a) p q b (by simp [he.2])
      · rename_i h ps hne heq
        rw [heq] at h1 h2 h3
        refine ⟨by intro x hx; simp at hx, ?_, ?_⟩
        · intro p hp
          rcases List.mem_cons.mp hp with rfl | hp
          · exact ⟨by simp, by intro x hx; simp at hx; subst hx; exact hc, h1⟩
          · exact h2 p hp
        · intro a p q b he
          cases a with
          | nil =>
            simp only [List.nil_append, List.cons.injEq] at he
            rw [← he.1]
            intro hnil
            simp only at hnil
            subst hnil
            exact hne q.1 q.2 b rfl (by simp [he.2])
          | cons x a =>
            simp only [List.cons_append, List.cons.injEq] at he
            exact h3 a p q b he.2
    · rename_i hc
      refine ⟨?_, h2, h3⟩
      intro x hx
      rcases List.mem_cons.mp hx with rfl | hx
      · simpa using hc
      · exact h1 x hx

theorem splitWs_word_append {w : Str} (hw : Word w) (r : Str) :
    splitWs (w ++ r) = (w ++ (splitWs r).1, (splitWs r).2) := by
  induction w with
  | nil => rfl
  | cons c cs ih =>
    rw [List.cons_append, splitWs_cons_neg (hw c (by simp)), ih (fun x hx => hw x (by simp [hx]))]
    rfl

theorem splitWs_word {w : Str} (hw : Word w) : splitWs w = (w, []) := by
  have := splitWs_word_append hw []
  simpa [splitWs] using this

/-- the first token is empty and there are others exactly if the text starts with whitespace -/
theorem splitWs_head_space {c : Char} (h : isSpace c = true) (cs : Str) :
    ∃ w t ps, splitWs (c :: cs) = ([], (w, t) :: ps) := by
  unfold splitWs
  rw [if_pos h]
  split
  · exact ⟨_, _, _, rfl⟩
  · exact ⟨_, _, _, rfl⟩

theorem splitWs_spaces_append {s : Str} (hne : s ≠ []) (hs : Spaces s) {r : Str}
    (hr : ∀ c ∈ r.head?, isSpace c = false) :
    splitWs (s ++ r) = ([], (s, (splitWs r).1) :: (splitWs r).2) := by
  induction s with
  | nil => exact absurd rfl hne
  | cons c cs ih =>
    have hc := hs c (by simp)
    cases cs with
    | nil =>
      simp only [List.cons_append, List.nil_append]
      conv => lhs; unfold splitWs
      rw [if_pos hc]
      split
      · rename_i w t ps h
        exfalso
        cases r with
        | nil => simp [splitWs] at h
        | cons d ds =>
          rw [splitWs_cons_neg (hr d (by simp))] at h
          simp at h
      · rename_i h ps hn heq
        rw [heq]
    | cons d ds =>
      have := ih (by simp) (fun x hx => hs x (by simp [hx]))
      rw [List.cons_append]
      conv => lhs; unfold splitWs
      rw [if_pos hc, this]

/-- a last word is split off at the end -/
theorem splitWs_append_word {a : Str} (ha : a = [] ∨ ∃ c ∈ a.getLast?, isSpace c = false) {s m : Str}
    (hne : s ≠ []) (hs : Spaces s) (hm : Word m) :
    splitWs (a ++ s ++ m) = ((splitWs a).1, (splitWs a).2 ++ [(s, m)]) := by
  have hm' : ∀ c ∈ m.head?, isSpace c = false := by
    intro c hc
    exact hm c (List.mem_of_mem_head? hc)
  induction a with
  | nil =>
    rw [List.nil_append, splitWs_spaces_append hne hs hm', splitWs_word hm]
    rfl
  | cons c cs ih =>
    have ha' : cs = [] ∨ ∃ c ∈ cs.getLast?, isSpace c = false := by
      cases cs with
      | nil => exact Or.inl rfl
      | cons d ds =>
        right
        rcases ha with h | ⟨x, hx, h⟩
        · simp at h
        · exact ⟨x, by simpa [List.getLast?_cons_cons] using hx, h⟩
    have ih := ih ha'
    by_cases hc : isSpace c = true
    · cases cs with
      | nil =>
        rcases ha with h | ⟨x, hx, h⟩
        · simp at h
        · simp at hx; subst hx; simp [hc] at h
      | cons d ds =>
        simp only [List.cons_append] at ih ⊢
        conv => lhs; unfold splitWs
        conv => rhs; unfold splitWs
        rw [if_pos hc, if_pos hc, ih]
        by_cases hd : isSpace d = true
        · obtain ⟨w, t, ps, e⟩ := splitWs_head_space hd ds
          rw [e]
          simp
        · rw [splitWs_cons_neg (by simpa using hd)]
          simp
    · have hc : isSpace c = false := by simpa using hc
      simp only [List.cons_append] at ih ⊢
      rw [splitWs_cons_neg hc, splitWs_cons_neg hc, ih]


/-! ### header lines -/

theorem mem_notAfter {κ : Type} [DecidableEq κ] {p : Char → Bool} {s t : St κ} :
    t ∈ run (.notAfter p : Re κ) s ↔ t = s ∧ ∀ c ∈ s.pre.head?, p c = false := by
  simp only [run]
  cases s.pre with
  | nil => simp
  | cons c cs => by_cases h : p c = true <;> simp [h]

theorem headerRe_iff [Uni] {n l : Str} (hl : '\n' ∉ l) : (rmatch (headerRe n) l).isSome = true ↔
    ∃ w r, l = '%' :: (w ++ r) ∧ SameLetters n w ∧
      (r = [] ∨ (∃ c ∈ r.head?, isSpace c = true) ∧ r.getLast? ≠ some '\\') := by
  constructor
  · intro h
    obtain ⟨t, ht⟩ := Option.isSome_iff_exists.mp h
    have hm := mem_of_rmatch ht
    simp only [headerRe, mem_cat, mem_bos, mem_ch, mem_litI, mem_alt, mem_eos, plus, star, mem_rep,
      mem_notAfter, init, St.adv] at hm
    obtain ⟨u, ⟨rfl, _⟩, v, ⟨cs, hcs, rfl⟩, x, ⟨w, r, hw, hsame, rfl⟩, hm⟩ := hm
    simp only at hcs hw hm
    subst hcs; subst hw
    refine ⟨w, r, rfl, hsame, ?_⟩
    rcases hm with ⟨y, ⟨s, r2, hr, hs, hlen, rfl⟩, z, ⟨d, r3, hr2, _, _, rfl⟩, q, ⟨rfl, hb⟩, rfl, hend⟩ | ⟨_, hend⟩
    · right
      simp only at hr hr2 hb hend
      subst hr; subst hr2
      have hr3 : r3 = [] := by
        rcases hend with h | h
        · exact h
        · subst h; exfalso; apply hl; simp
      subst hr3
      cases s with
      | nil => simp at hlen
      | cons c s =>
        refine ⟨⟨c, by simp, by simp at hs; exact hs.1⟩, ?_⟩
        intro hlast
        have := hb '\\' ?_
        · simp at this
        · have e : d.reverse ++ ((c :: s).reverse ++ (w.reverse ++ ['%'])) =
            (c :: s ++ (d ++ [])).reverse ++ (w.reverse ++ ['%']) := by simp
          rw [e, List.head?_append, List.head?_reverse, hlast]
          simp
    · left
      rcases hend with h | h
      · exact h
      · subst h; exfalso; apply hl; simp
  · rintro ⟨w, r, rfl, hsame, hr⟩
    cases h : rmatch (headerRe n) ('%' :: (w ++ r)) with
    | some t => rfl
    | none =>
      exfalso
      rw [rmatch_none] at h
      rcases hr with rfl | ⟨⟨c, hc, hsp⟩, hlast⟩
      · apply h ⟨w.reverse ++ ['%'], [], []⟩
        simp only [headerRe, mem_cat, mem_bos, mem_ch, mem_litI, mem_alt, mem_eos, init]
        exact ⟨_, ⟨rfl, by simp⟩, _, ⟨_, rfl, rfl⟩, _, ⟨w, [], by simp, hsame, rfl⟩, Or.inr ⟨rfl, Or.inl rfl⟩⟩
      · cases r with
        | nil => simp at hc
        | cons d ds =>
          simp at hc; subst hc
          apply h ⟨ds.reverse ++ ([d].reverse ++ (w.reverse ++ ['%'])), [], []⟩
          simp only [headerRe, mem_cat, mem_bos, mem_ch, mem_litI, mem_alt, mem_eos, plus, star, mem_rep,
            mem_notAfter, init, St.adv]
          refine ⟨_, ⟨rfl, by simp⟩, _, ⟨_, rfl, rfl⟩, _, ⟨w, d :: ds, by simp, hsame, rfl⟩, Or.inl
            ⟨_, ⟨[d], ds, rfl, by simp [hsp], by simp, rfl⟩, _, ⟨ds, [], by simp, ?_, by simp, rfl⟩, _, ⟨rfl, ?_⟩,
              by simp, Or.inl rfl⟩⟩
          · simp only [List.all_eq_true]
            intro x hx
            simp only [dot, bne_iff_ne]
            rintro rfl
            apply hl; simp [hx]
          · intro x hx
            have e : ds.reverse ++ ([d].reverse ++ (w.reverse ++ ['%'])) =
              (d :: ds).reverse ++ (w.reverse ++ ['%']) := by simp
            simp only at hx
            rw [e, List.head?_append, List.head?_reverse] at hx
            cases hg : (d :: ds).getLast? with
            | none => simp at hg
            | some y =>
              rw [hg] at hx
              simp at hx
              subst hx
              simp only [beq_eq_false_iff_ne]
              rintro rfl
              exact hlast hg

theorem isHeader_iff [Uni] {l : Str} (hl : '\n' ∉ l) : isHeader l = true ↔ HeaderLine l := by
  simp only [isHeader, Bool.and_eq_true, List.any_eq_true, headerRe_iff hl, HeaderLine]
  constructor
  · rintro ⟨_, n, hn, w, r, h⟩; exact ⟨n, hn, w, r, h⟩
  · rintro ⟨n, hn, w, r, h⟩
    refine ⟨?_, n, hn, w, r, h⟩
    rw [h.1]; simp [startsWith]

end Specfile.Sections
