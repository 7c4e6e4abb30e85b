import Verif.Spec.Conditions
import Verif.Proof.MacroDefinitions3
/-
The regex of condition lines.
-/
namespace Specfile
open Py Regex Spec
open MacroDefinitions (EndText end_head)
namespace Conditions

theorem kwd_mem {s t : St G} : t ∈ run kwdRe s ↔
    ∃ kw ∈ keywords, ∃ r, s.rest = kw ++ r ∧ t = ⟨kw.reverse ++ s.pre, r, s.caps⟩ := by
  constructor
  · intro h
    simp only [kwdRe, mem_cat, mem_alt, mem_opt, mem_ch, mem_lit] at h
    obtain ⟨u, ⟨cs, h0, rfl⟩, h⟩ := h
    simp only at h
    rcases h with ⟨u1, h1, u2, ⟨r2, h2, rfl⟩, h3⟩ | ⟨r, h1, rfl⟩ | ⟨r, h1, rfl⟩
    · have key : ∃ p q, (p = [] ∨ p = s% "el") ∧ (q = [] ∨ q = s% "arch" ∨ q = s% "os" ∨ q = s% "narch" ∨ q = s% "nos") ∧
          ∃ r, cs = p ++ s% "if" ++ q ++ r ∧
            t = ⟨('%' :: (p ++ s% "if" ++ q)).reverse ++ s.pre, r, s.caps⟩ := by
        have h1' : ∃ p, (p = [] ∨ p = s% "el") ∧ cs = p ++ u1.rest ∧ u1 = ⟨p.reverse ++ '%' :: s.pre, u1.rest, s.caps⟩ := by
          rcases h1 with ⟨r, h1, rfl⟩ | rfl
          · exact ⟨s% "el", .inr rfl, h1, rfl⟩
          · exact ⟨[], .inl rfl, rfl, rfl⟩
        obtain ⟨p, hp, hcs, hu1⟩ := h1'
        rw [hu1] at h3
        simp only at h3
        rcases h3 with ⟨u3, h3, h4⟩ | rfl
        · have h3' : ∃ n, (n = [] ∨ n = ['n']) ∧ r2 = n ++ u3.rest ∧
              u3 = ⟨n.reverse ++ ((s% "if").reverse ++ (p.reverse ++ '%' :: s.pre)), u3.rest, s.caps⟩ := by
            rcases h3 with ⟨r, h3, rfl⟩ | rfl
            · exact ⟨['n'], .inr rfl, h3, rfl⟩
            · exact ⟨[], .inl rfl, rfl, rfl⟩
          obtain ⟨n, hn, hr2, hu3⟩ := h3'
          rw [hu3] at h4
          simp only at h4
          rcases h4 with ⟨r, h4, rfl⟩ | ⟨r, h4, rfl⟩
          · refine ⟨p, n ++ s% "arch", hp, ?_, r, by rw [hcs, h2, hr2, h4]; simp, by simp⟩
            rcases hn with rfl | rfl <;> simp
          · refine ⟨p, n ++ s% "os", hp, ?_, r, by rw [hcs, h2, hr2, h4]; simp, by simp⟩
            rcases hn with rfl | rfl <;> simp
        · exact ⟨p, [], hp, .inl rfl, r2, by rw [hcs, h2]; simp, by simp⟩
      obtain ⟨p, q, hp, hq, r, e1, e2⟩ := key
      refine ⟨'%' :: (p ++ s% "if" ++ q), ?_, r, by rw [h0, e1]; rfl, e2⟩
      rcases hp with rfl | rfl <;> rcases hq with rfl | rfl | rfl | rfl | rfl <;> decide
    · exact ⟨s% "%endif", by decide, r, by rw [h0, h1]; rfl, by simp⟩
    · exact ⟨s% "%else", by decide, r, by rw [h0, h1]; rfl, by simp⟩
  · rintro ⟨kw, hk, r, h, rfl⟩
    simp only [kwdRe, mem_cat, mem_alt, mem_opt, mem_ch, mem_lit]
    have key : ∀ p q, (p = [] ∨ p = s% "el") → (q = [] ∨ q = s% "arch" ∨ q = s% "os" ∨ q = s% "narch" ∨ q = s% "nos") →
        kw = '%' :: (p ++ s% "if" ++ q) → ∃ u : St G, (∃ cs, s.rest = '%' :: cs ∧ u = ⟨'%' :: s.pre, cs, s.caps⟩) ∧
          ((∃ u_1 : St G, ((∃ r, u.rest = s% "el" ++ r ∧ u_1 = ⟨(s% "el").reverse ++ u.pre, r, u.caps⟩) ∨ u_1 = u) ∧
            ∃ u : St G, (∃ r, u_1.rest = s% "if" ++ r ∧ u = ⟨(s% "if").reverse ++ u_1.pre, r, u_1.caps⟩) ∧
              ((∃ u_2 : St G, ((∃ cs, u.rest = 'n' :: cs ∧ u_2 = ⟨'n' :: u.pre, cs, u.caps⟩) ∨ u_2 = u) ∧
                ((∃ r_1, u_2.rest = s% "arch" ++ r_1 ∧
                  (⟨kw.reverse ++ s.pre, r, s.caps⟩ : St G) = ⟨(s% "arch").reverse ++ u_2.pre, r_1, u_2.caps⟩) ∨
                 ∃ r_1, u_2.rest = s% "os" ++ r_1 ∧
                  (⟨kw.reverse ++ s.pre, r, s.caps⟩ : St G) = ⟨(s% "os").reverse ++ u_2.pre, r_1, u_2.caps⟩)) ∨
                (⟨kw.reverse ++ s.pre, r, s.caps⟩ : St G) = u))) := by
      rintro p q hp hq rfl
      refine ⟨_, ⟨_, h, rfl⟩, ⟨p.reverse ++ '%' :: s.pre, s% "if" ++ (q ++ r), s.caps⟩, ?_,
        _, ⟨_, rfl, rfl⟩, ?_⟩
      · rcases hp with rfl | rfl
        · right; simp
        · left; exact ⟨_, by simp; rfl, by simp⟩
      · rcases hq with rfl | rfl | rfl | rfl | rfl
        · right; simp
        · left; exact ⟨_, .inr rfl, .inl ⟨_, rfl, by simp⟩⟩
        · left; exact ⟨_, .inr rfl, .inr ⟨_, rfl, by simp⟩⟩
        · left; exact ⟨_, .inl ⟨_, rfl, rfl⟩, .inl ⟨_, rfl, by simp⟩⟩
        · left; exact ⟨_, .inl ⟨_, rfl, rfl⟩, .inr ⟨_, rfl, by simp⟩⟩
    simp only [keywords, openers, elifs, negElifs, List.cons_append, List.nil_append, List.mem_cons,
      List.not_mem_nil, or_false] at hk
    rcases hk with rfl | rfl | rfl | rfl | rfl | rfl | rfl | rfl | rfl | rfl | rfl | rfl
    · obtain ⟨u, h1, h2⟩ := key [] [] (by simp) (by simp) rfl; exact ⟨u, h1, .inl h2⟩
    · obtain ⟨u, h1, h2⟩ := key [] (s% "arch") (by simp) (by simp) rfl; exact ⟨u, h1, .inl h2⟩
    · obtain ⟨u, h1, h2⟩ := key [] (s% "narch") (by simp) (by simp) rfl; exact ⟨u, h1, .inl h2⟩
    · obtain ⟨u, h1, h2⟩ := key [] (s% "os") (by simp) (by simp) rfl; exact ⟨u, h1, .inl h2⟩
    · obtain ⟨u, h1, h2⟩ := key [] (s% "nos") (by simp) (by simp) rfl; exact ⟨u, h1, .inl h2⟩
    · obtain ⟨u, h1, h2⟩ := key (s% "el") [] (by simp) (by simp) rfl; exact ⟨u, h1, .inl h2⟩
    · obtain ⟨u, h1, h2⟩ := key (s% "el") (s% "arch") (by simp) (by simp) rfl; exact ⟨u, h1, .inl h2⟩
    · obtain ⟨u, h1, h2⟩ := key (s% "el") (s% "os") (by simp) (by simp) rfl; exact ⟨u, h1, .inl h2⟩
    · obtain ⟨u, h1, h2⟩ := key (s% "el") (s% "narch") (by simp) (by simp) rfl; exact ⟨u, h1, .inl h2⟩
    · obtain ⟨u, h1, h2⟩ := key (s% "el") (s% "nos") (by simp) (by simp) rfl; exact ⟨u, h1, .inl h2⟩
    · exact ⟨_, ⟨_, h, rfl⟩, .inr (.inr ⟨_, rfl, by simp⟩)⟩
    · exact ⟨_, ⟨_, h, rfl⟩, .inr (.inl ⟨_, rfl, by simp⟩)⟩

theorem keyword_nonSpace {kw : Str} (h : kw ∈ keywords) : ∀ c ∈ kw, isSpace c = false := by
  revert kw; decide

theorem keyword_head {kw : Str} (h : kw ∈ keywords) : ∃ k, kw = '%' :: k := by
  simp only [keywords, openers, elifs, negElifs, List.cons_append, List.nil_append, List.mem_cons,
    List.not_mem_nil, or_false] at h
  rcases h with rfl | rfl | rfl | rfl | rfl | rfl | rfl | rfl | rfl | rfl | rfl | rfl <;> exact ⟨_, rfl⟩

theorem takeWhile_word {kw r : Str} (h : ∀ c ∈ kw, isSpace c = false)
    (hr : ∀ c ∈ r.head?, isSpace c = true) : (kw ++ r).takeWhile (fun c => !isSpace c) = kw := by
  induction kw with
  | nil =>
    cases r with
    | nil => rfl
    | cons c cs => simp [hr c (by simp)]
  | cons c cs ih =>
    simp only [List.cons_append, List.takeWhile_cons, h c (by simp)]
    simp [ih (fun x hx => h x (by simp [hx]))]

theorem word_unique {a b r r' : Str} (h : a ++ r = b ++ r') (ha : a ∈ keywords) (hb : b ∈ keywords)
    (hr : ∀ c ∈ r.head?, isSpace c = true) (hr' : ∀ c ∈ r'.head?, isSpace c = true) :
    a = b ∧ r = r' := by
  have h1 := takeWhile_word (keyword_nonSpace ha) hr
  have h2 := takeWhile_word (keyword_nonSpace hb) hr'
  rw [h] at h1
  have : a = b := by rw [← h1, h2]
  subst this
  exact ⟨rfl, List.append_cancel_left h⟩

theorem spaces_lead_unique {a b x y : Str} (h : a ++ x = b ++ y) (ha : a.all isSpace = true)
    (hb : b.all isSpace = true) (hx : NoMore isSpace x) (hy : NoMore isSpace y) : a = b ∧ x = y := by
  induction a generalizing b with
  | nil =>
    cases b with
    | nil => exact ⟨rfl, h⟩
    | cons c cs =>
      exfalso
      simp at h hb
      have := hx c (by rw [h]; simp)
      rw [hb.1] at this; simp at this
  | cons c cs ih =>
    cases b with
    | nil =>
      exfalso
      simp at h ha
      have := hy c (by rw [← h]; simp)
      rw [ha.1] at this; simp at this
    | cons d ds =>
      simp only [List.cons_append, List.cons.injEq] at h
      simp only [List.all_cons, Bool.and_eq_true] at ha hb
      obtain ⟨e1, e2⟩ := ih h.2 ha.2 hb.2
      exact ⟨by rw [h.1, e1], e2⟩

theorem noMore_keyword {kw r : Str} (h : kw ∈ keywords) : NoMore isSpace (kw ++ r) := by
  obtain ⟨k, rfl⟩ := keyword_head h
  intro c hc
  simp at hc; subst hc; decide

/-- the part of the regex after the keyword -/
def afterRe : Re G :=
  star isSpace ⬝
    opt (plus isSpace ⬝ .grp .expr (starL dot) ⬝ .grp .fin (star isSpace ∣∣ ch '\\')) ⬝ .eos

/-- what follows the keyword starts with whitespace -/
theorem after_space {s t : St G} (h : t ∈ run afterRe s) : ∀ c ∈ s.rest.head?, isSpace c = true := by
  simp only [afterRe, star, plus, mem_cat, mem_opt, mem_rep', mem_eos] at h
  obtain ⟨u, ⟨w, r, h1, h2, _, rfl⟩, v, h3, h4⟩ := h
  intro c hc
  cases w with
  | cons d ds => rw [h1] at hc; simp at hc h2; rw [← hc]; exact h2.1
  | nil =>
    simp only [List.nil_append] at h1
    rcases h3 with ⟨u1, ⟨w', r', h5, h6, h7, rfl⟩, _⟩ | rfl
    · cases w' with
      | nil => simp at h7
      | cons d ds =>
        simp only at h5
        rw [h1, h5] at hc; simp at hc h6; rw [← hc]; exact h6.1
    · simp only at h4
      rcases h4.2 with h4 | h4
      · rw [h1, h4] at hc; simp at hc
      · rw [h1, h4] at hc; simp at hc; subst hc; decide

theorem head_flatMap_unique {α β : Type} {l : List α} {f : α → List β} {a : α} (ha : a ∈ l)
    (h : ∀ x ∈ l, x ≠ a → f x = []) : (l.flatMap f).head? = (f a).head? := by
  induction l with
  | nil => simp at ha
  | cons x xs ih =>
    rw [List.flatMap_cons, List.head?_append]
    by_cases hx : x = a
    · subst hx
      cases hf : (f x).head? with
      | some t => rfl
      | none =>
        by_cases hm : x ∈ xs
        · rw [ih hm (fun y hy => h y (by simp [hy])), hf]; rfl
        · have : xs.flatMap f = [] := by
            rw [List.flatMap_eq_nil_iff]
            intro y hy
            exact h y (by simp [hy]) (by rintro rfl; exact hm hy)
          rw [this]; rfl
    · rw [h x (by simp) hx]
      simp only [List.mem_cons] at ha
      rcases ha with rfl | ha
      · exact absurd rfl hx
      · simp [ih ha (fun y hy => h y (by simp [hy]))]

theorem condRe_eq (v : Str) : rmatch condRe v =
    (run (star isSpace ⬝ .grp .kwd kwdRe ⬝ afterRe) (init v)).head? := by
  unfold rmatch condRe
  rw [run_bos_cat]
  rfl

theorem condRe_word {line kw rest : Str} {t : St G} (hk : kw ∈ keywords) (h : FirstWord line kw rest)
    (ht : ∀ pre, ∃ pre', (run afterRe ⟨pre, rest, [(.kwd, kw)]⟩).head? =
      some { t with pre := pre' }) : ∃ pre', rmatch condRe line = some { t with pre := pre' } := by
  obtain ⟨w, rfl, hw, hr⟩ := h
  obtain ⟨pre', ht⟩ := ht (kw.reverse ++ w.reverse)
  refine ⟨pre', ?_⟩
  rw [condRe_eq]
  refine head_rep_cat (w := w) (r' := kw ++ rest) (by simp [init]) (List.all_eq_true.2 hw) (Nat.zero_le _)
    (noMore_keyword hk) ?_
  simp only [init, List.append_nil]
  rw [run_grp_cat]
  rw [head_flatMap_unique (a := ⟨kw.reverse ++ w.reverse, rest, []⟩)]
  · simp only [take_left_length]
    exact ht
  · rw [kwd_mem]; exact ⟨kw, hk, rest, rfl, rfl⟩
  · intro x hx hne
    rw [kwd_mem] at hx
    obtain ⟨kw', hk', r', e, rfl⟩ := hx
    simp only at e
    rw [run_eq_nil_iff]
    intro u hu
    have := after_space hu
    simp only at this
    obtain ⟨rfl, rfl⟩ := word_unique e hk hk' hr this
    exact hne rfl

/-- nothing but whitespace after the keyword -/
theorem condRe_bare {line kw rest : Str} (hk : kw ∈ keywords) (h : FirstWord line kw rest)
    (hr : ∀ c ∈ rest, isSpace c = true) :
    ∃ m, rmatch condRe line = some m ∧ m.get .kwd = some kw ∧ m.get .expr = none := by
  obtain ⟨pre', hm⟩ := condRe_word (t := ⟨[], [], [(.kwd, kw)]⟩) hk h (by
    intro pre
    refine ⟨rest.reverse ++ pre, ?_⟩
    refine head_rep_cat (w := rest) (r' := []) (by simp) (List.all_eq_true.2 hr) (Nat.zero_le _)
      (by simp [NoMore]) ?_
    simp only
    rw [run_opt_cat]
    have : run ((plus isSpace ⬝ .grp G.expr (starL dot) ⬝ .grp G.fin (star isSpace ∣∣ ch '\\')) ⬝ .eos)
        (⟨rest.reverse ++ pre, [], [(.kwd, kw)]⟩ : St G) = [] := by
      rw [run_cat_assoc]
      simp [run, plus, splits]
    rw [this]
    simp [run])
  exact ⟨_, hm, by simp [St.get], by simp [St.get]⟩

theorem condRe_inv {line : Str} {m : St G} (h : rmatch condRe line = some m) :
    ∃ kw ∈ keywords, ∃ rest, FirstWord line kw rest ∧ m.get .kwd = some kw := by
  rw [condRe_eq] at h
  have h := List.mem_of_head? h
  simp only [mem_cat, star, mem_rep', mem_grp, kwd_mem] at h
  obtain ⟨_, ⟨w, r, h1, h2, _, rfl⟩, _, ⟨u, v, ⟨kw, hk, r', h3, rfl⟩, h4, rfl⟩, h5⟩ := h
  simp only [init] at h1 h3 h4
  have hsp := after_space h5
  simp only at hsp
  have hv : v = kw := by
    rw [h3] at h4
    exact (List.append_cancel_right h4).symm
  subst hv
  refine ⟨v, hk, r', ⟨w, by rw [h1, h3]; simp, List.all_eq_true.1 h2, hsp⟩, ?_⟩
  simp only [afterRe, star, plus, mem_cat, mem_opt, mem_rep', mem_eos, mem_grp, starL, mem_alt, mem_ch] at h5
  obtain ⟨_, ⟨_, _, _, _, _, rfl⟩, x, h6, rfl, _⟩ := h5
  rcases h6 with ⟨_, ⟨_, _, _, _, _, rfl⟩, _, ⟨_, _, ⟨_, _, _, _, _, rfl⟩, _, rfl⟩, _, _, h7, _, rfl⟩ | rfl
  · rcases h7 with ⟨_, _, _, _, _, rfl⟩ | ⟨_, _, rfl⟩ <;> simp [St.get]
  · simp [St.get]

end Conditions
end Specfile
