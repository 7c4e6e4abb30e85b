import Verif.Proof.MacroDefinitions3
/-
Reading back a definition that was written.
-/
namespace Specfile
open Py Regex Spec
namespace MacroDefinitions

theorem mdRe_eq [Uni] (v : Str) : rmatch mdRe v = (run
    (.grp 1 (star isSpace) ⬝ opt (.grp 2 (lit (s% "%dnl"))) ⬝
    .grp 3 (.ifgrp 2 (starL dot ⬝ ch '%') (ch '%' ∣∣ (ch '#' ⬝ opt (starL dot ⬝ ch '%')))) ⬝
    tailRe) (init v)).head? := by
  unfold rmatch mdRe
  rw [run_bos_cat]
  rfl

theorem tail_nil [Uni] {s : St Nat} (h : ∀ c ∈ s.rest.head?, c ≠ 'g' ∧ c ≠ 'd') :
    run tailRe s = [] := by
  unfold tailRe
  rw [run_cat, run_grp_alt, run_grp_lit_nil, run_grp_lit_nil]
  · rfl
  · rintro ⟨x, hx⟩
    exact (h 'd' (by rw [← hx]; rfl)).2 rfl
  · rintro ⟨x, hx⟩
    exact (h 'g' (by rw [← hx]; rfl)).1 rfl

/-- a tail that matches starts with one of the keywords -/
theorem tail_kw [Uni] {s t : St Nat} (h : t ∈ run tailRe s) :
    s% "global" <+: s.rest ∨ s% "define" <+: s.rest := by
  unfold tailRe at h
  rw [mem_cat] at h
  obtain ⟨u, h, _⟩ := h
  rw [mem_grp] at h
  obtain ⟨v, _, h, _, _⟩ := h
  rw [mem_alt, mem_lit, mem_lit] at h
  rcases h with ⟨r, h, _⟩ | ⟨r, h, _⟩
  · left; exact ⟨r, h.symm⟩
  · right; exact ⟨r, h.symm⟩

/-- text between a comment sign and the final percent sign: no percent sign, except possibly one
right before the final one -/
def LeadText (q : Str) : Prop :=
  q.all dot = true ∧ ('%' ∉ q ∨ ∃ q', q = q' ++ ['%'] ∧ '%' ∉ q')

theorem lead_head {q T : Str} {f : St Nat → List (St Nat)} {s t : St Nat} (hq : LeadText q)
    (hs : s.rest = q ++ '%' :: T)
    (hf : ∀ u : St Nat, u.rest.head? = some '%' → f u = [])
    (h : (f ⟨'%' :: (q.reverse ++ s.pre), T, s.caps⟩).head? = some t) :
    ((run (.rep dot 0 false ⬝ ch '%') s).flatMap f).head? = some t := by
  rw [run_cat, List.flatMap_assoc]
  refine head_rep_lazy (w := q) (r' := '%' :: T) hs hq.1 (Nat.zero_le _) ?_ ?_
  · simpa [St.adv, run, ch] using h
  · intro w' w'' e hne _
    cases w'' with
    | nil => exact absurd rfl hne
    | cons c cs =>
      by_cases hc : c = '%'
      · subst hc
        simp only [St.adv, run, ch, List.cons_append, beq_self_eq_true, if_true,
          List.flatMap_singleton]
        apply hf
        rcases hq.2 with hq1 | ⟨q', rfl, hq1⟩
        · exfalso; apply hq1; rw [e]; simp
        · cases cs with
          | nil => rfl
          | cons d ds =>
            exfalso
            apply hq1
            have : q' = w' ++ '%' :: (d :: ds).dropLast := by
              have := congrArg List.dropLast e
              rw [List.dropLast_concat] at this
              rw [this, List.dropLast_append_of_ne_nil (by simp)]
              rfl
            rw [this]; simp
      · simp [St.adv, run, ch, hc]

theorem noMore_space_lead (x : Str) (c : Char) (h : isSpace c = false) : NoMore isSpace (c :: x) := by
  intro d hd; simp at hd; subst hd; exact h

/-- `%global …` -/
theorem plain_head [Uni] {w1 T : Str} {t : St Nat} (h1 : w1.all isSpace = true)
    (hT : (run tailRe ⟨'%' :: w1.reverse, T, [(3, ['%']), (1, w1)]⟩).head? = some t)
    (hT0 : ¬ s% "dnl" <+: T) :
    rmatch mdRe (w1 ++ '%' :: T) = some t := by
  rw [mdRe_eq]
  refine head_grp_greedy (w := w1) (r' := '%' :: T) rfl h1 (Nat.zero_le _)
    (noMore_space_lead _ _ (by decide)) ?_
  simp only [init, List.append_nil]
  rw [run_opt_cat]
  rw [run_cat (Re.grp 2 _), run_grp_lit_nil (by simpa using hT0)]
  simp only [List.flatMap_nil, List.nil_append]
  rw [run_grp_cat]
  have : (⟨w1.reverse, '%' :: T, [(1, w1)]⟩ : St Nat).get 2 = none := by
    simp [St.get]
  simp only [run, this, Option.isSome_none, Bool.false_eq_true, if_false, List.flatMap_append]
  apply head_append_left
  simpa [run, ch, init] using hT

/-- `#…%global …` -/
theorem comment_head [Uni] {w1 q T : Str} {t : St Nat} (h1 : w1.all isSpace = true)
    (hq : LeadText q)
    (hT : (run tailRe ⟨'%' :: (q.reverse ++ '#' :: w1.reverse), T, [(3, '#' :: (q ++ ['%'])), (1, w1)]⟩).head? = some t) :
    rmatch mdRe (w1 ++ '#' :: (q ++ '%' :: T)) = some t := by
  rw [mdRe_eq]
  refine head_grp_greedy (w := w1) (r' := '#' :: (q ++ '%' :: T)) rfl h1 (Nat.zero_le _)
    (noMore_space_lead _ _ (by decide)) ?_
  simp only [init, List.append_nil]
  rw [run_opt_cat]
  rw [run_cat (Re.grp 2 _), run_grp_lit_nil (by simp)]
  simp only [List.flatMap_nil, List.nil_append]
  rw [run_grp_cat]
  have hg : (⟨w1.reverse, '#' :: (q ++ '%' :: T), [(1, w1)]⟩ : St Nat).get 2 = none := by
    simp [St.get]
  rw [run]
  simp only [hg, Option.isSome_none, Bool.false_eq_true, if_false]
  rw [run_alt, List.flatMap_append]
  rw [show run (ch '%' : Re Nat) ⟨w1.reverse, '#' :: (q ++ '%' :: T), [(1, w1)]⟩ = [] by simp [run, ch]]
  rw [List.flatMap_nil, List.nil_append, run_ch_cat '#' _ _ (q ++ '%' :: T) rfl]
  simp only [opt, run_alt, List.flatMap_append]
  apply head_append_left
  refine lead_head hq rfl ?_ ?_
  · intro u hu
    apply tail_nil
    intro c hc
    simp only at hc
    rw [hu] at hc
    simp at hc; subst hc; decide
  · simp only
    have := take_left_length ('#' :: (q ++ ['%'])) T
    simp only [List.cons_append, List.append_assoc, List.nil_append] at this
    rw [this]
    simpa [init] using hT

/-- `#global …` -/
theorem hash_head [Uni] {w1 T : Str} {t : St Nat} (h1 : w1.all isSpace = true)
    (hn : ¬ s% "%global" <:+: T ∧ ¬ s% "%define" <:+: T)
    (hT : (run tailRe ⟨'#' :: w1.reverse, T, [(3, ['#']), (1, w1)]⟩).head? = some t) :
    rmatch mdRe (w1 ++ '#' :: T) = some t := by
  rw [mdRe_eq]
  refine head_grp_greedy (w := w1) (r' := '#' :: T) rfl h1 (Nat.zero_le _)
    (noMore_space_lead _ _ (by decide)) ?_
  simp only [init, List.append_nil]
  rw [run_opt_cat]
  rw [run_cat (Re.grp 2 _), run_grp_lit_nil (by simp)]
  simp only [List.flatMap_nil, List.nil_append]
  rw [run_grp_cat]
  have hg : (⟨w1.reverse, '#' :: T, [(1, w1)]⟩ : St Nat).get 2 = none := by
    simp [St.get]
  rw [run]
  simp only [hg, Option.isSome_none, Bool.false_eq_true, if_false]
  rw [run_alt, List.flatMap_append]
  rw [show run (ch '%' : Re Nat) ⟨w1.reverse, '#' :: T, [(1, w1)]⟩ = [] by simp [run, ch]]
  rw [List.flatMap_nil, List.nil_append, run_ch_cat '#' _ _ T rfl]
  simp only [opt, run_alt, List.flatMap_append]
  rw [show ∀ (a b : List (St Nat)), a = [] → (a ++ b).head? = b.head? from by rintro a b rfl; rfl]
  · simp only [run_eps, List.flatMap_singleton]
    have := take_left_length ['#'] T
    simp only [List.singleton_append] at this
    rw [this]
    simpa [init] using hT
  · rw [List.eq_nil_iff_forall_not_mem]
    intro u hu
    rw [List.mem_flatMap] at hu
    obtain ⟨v, hv, hu⟩ := hu
    simp only [starL, mem_cat, mem_rep', mem_ch] at hv
    obtain ⟨_, ⟨q, r, h2, h3, _, rfl⟩, r', h4, rfl⟩ := hv
    simp only at h2 h4
    rcases tail_kw hu with ⟨x, hx⟩ | ⟨x, hx⟩
    · simp only at hx; exact hn.1 ⟨q, x, by rw [h2, h4, ← hx]; simp⟩
    · simp only at hx; exact hn.2 ⟨q, x, by rw [h2, h4, ← hx]; simp⟩

/-- `%dnl…%global …` -/
theorem dnl_head [Uni] {w1 q T : Str} {t : St Nat} (h1 : w1.all isSpace = true)
    (hq : LeadText q)
    (hT : (run tailRe ⟨'%' :: (q.reverse ++ ((s% "%dnl").reverse ++ w1.reverse)), T,
      [(3, q ++ ['%']), (2, s% "%dnl"), (1, w1)]⟩).head? = some t) :
    rmatch mdRe (w1 ++ (s% "%dnl" ++ (q ++ '%' :: T))) = some t := by
  rw [mdRe_eq]
  refine head_grp_greedy (w := w1) (r' := s% "%dnl" ++ (q ++ '%' :: T)) rfl h1 (Nat.zero_le _)
    (noMore_space_lead _ _ (by decide)) ?_
  simp only [init, List.append_nil]
  rw [run_opt_cat]
  apply head_append_left
  rw [run_cat, run_grp_lit (a := s% "%dnl") rfl, List.flatMap_singleton, run_grp_cat, run]
  rw [if_pos (by simp [St.get])]
  refine lead_head hq rfl ?_ ?_
  · intro u hu
    apply tail_nil
    intro c hc
    simp only at hc
    rw [hu] at hc
    simp at hc; subst hc; decide
  · simp only
    have := take_left_length (q ++ ['%']) T
    simp only [List.append_assoc, List.singleton_append] at this
    rw [this]
    simpa [init] using hT

/-! ### `splitTrailing` on a text that is already split -/

theorem searchFrom_first {κ : Type} [DecidableEq κ] {r : Re κ} {w rest pre : Str} {t : St κ}
    (h1 : ∀ a b, w = a ++ b → b ≠ [] → run r ⟨a.reverse ++ pre, b ++ rest, []⟩ = [])
    (h2 : (run r ⟨w.reverse ++ pre, rest, []⟩).head? = some t) :
    searchFrom r pre (w ++ rest) = some ⟨pre.reverse ++ w, rest.take (rest.length - t.rest.length), t⟩ := by
  induction w generalizing pre with
  | nil =>
    simp only [List.nil_append, List.reverse_nil, List.append_nil] at h2 ⊢
    unfold searchFrom
    rw [h2]
  | cons c cs ih =>
    unfold searchFrom
    have := h1 [] (c :: cs) rfl (by simp)
    simp only [List.reverse_nil, List.nil_append] at this
    rw [this]
    simp only [List.head?_nil, List.cons_append]
    rw [ih]
    · simp
    · intro a b e hb
      have := h1 (c :: a) b (by simp [e]) hb
      simpa using this
    · simpa using h2

theorem searchFrom_none {κ : Type} [DecidableEq κ] {r : Re κ} {w pre : Str}
    (h1 : ∀ a b, w = a ++ b → run r ⟨a.reverse ++ pre, b, []⟩ = []) :
    searchFrom r pre w = none := by
  induction w generalizing pre with
  | nil =>
    have := h1 [] [] rfl
    simp only [List.reverse_nil, List.nil_append] at this
    unfold searchFrom
    rw [this]; rfl
  | cons c cs ih =>
    have := h1 [] (c :: cs) rfl
    simp only [List.reverse_nil, List.nil_append] at this
    unfold searchFrom
    rw [this]
    simp only [List.head?_nil]
    apply ih
    intro a b e
    have := h1 (c :: a) b (by simp [e])
    simpa using this

/-- a text without trailing whitespace, followed by whitespace, is split between the two -/
theorem splitTrailing_append {b w : Str} (hb : ∀ c ∈ b.getLast?, isSpace c = false)
    (hw : w.all inlineSpace = true) : splitTrailing (b ++ w) = (b, w) := by
  have hws : ∀ x ∈ w, isSpace x = true ∧ x ≠ '\n' := by
    intro x hx
    have := List.all_eq_true.1 hw x hx
    simpa [inlineSpace] using this
  -- a match that starts inside `b` is impossible
  have hfail : ∀ (a c : Str), b = a ++ c → c ≠ [] → ∀ st : St Nat, st.rest = c ++ w →
      run (.grp 1 (plus inlineSpace) ⬝ .eos : Re Nat) st = [] := by
    intro a c e hc st hst
    rw [run_eq_nil_iff]
    intro t ht
    simp only [plus, mem_cat, mem_grp_rep, mem_eos] at ht
    obtain ⟨_, ⟨v, r, h1, h2, h3, rfl⟩, _, h4⟩ := ht
    simp only at h4
    obtain ⟨z, hz⟩ := List.getLast?_eq_some_iff.1 (List.getLast?_eq_some_getLast hc)
    generalize c.getLast hc = y at hz
    have hy := hb y (by rw [e, hz]; simp)
    have hmem : y ∈ v ++ r := by rw [← h1, hst, hz]; simp
    rw [List.mem_append] at hmem
    rcases hmem with hm | hm
    · have := List.all_eq_true.1 h2 y hm
      simp [inlineSpace, hy] at this
    · rcases h4 with rfl | rfl
      · simp at hm
      · simp at hm; subst hm; revert hy; decide
  unfold splitTrailing search
  cases hw0 : w with
  | nil =>
    rw [List.append_nil, searchFrom_none]
    intro a c e
    cases hc : c with
    | nil =>
      rw [run_eq_nil_iff]
      intro t ht
      simp only [plus, mem_cat, mem_grp_rep, mem_eos] at ht
      obtain ⟨_, ⟨v, r, h1, h2, h3, rfl⟩, _, h4⟩ := ht
      simp only [List.nil_eq, List.append_eq_nil_iff] at h1
      rw [h1.1] at h3; simp at h3
    | cons x xs =>
      rw [← hc]
      exact hfail a c e (by simp [hc]) _ (by simp [hw0])
  | cons x xs =>
    rw [← hw0, searchFrom_first (t := ⟨w.reverse ++ b.reverse, [], [(1, w)]⟩)]
    · simp [St.get]
    · intro a c e hc
      exact hfail a c e hc _ rfl
    · rw [plus]
      exact head_grp_greedy (w := w) (r' := []) (by simp) hw (by simp [hw0]) (by simp [NoMore])
        (by simp [run])

end MacroDefinitions
end Specfile
