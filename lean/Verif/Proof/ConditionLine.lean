import Verif.Proof.Conditions
/-
Condition lines and the text of their conditions.
-/
namespace Specfile
open Py Regex Spec
open MacroDefinitions (EndText end_head)
namespace Conditions

theorem firstWord_unique {l kw kw' r r' : Str} (hk : kw ∈ keywords) (hk' : kw' ∈ keywords)
    (h : FirstWord l kw r) (h' : FirstWord l kw' r') : kw = kw' ∧ r = r' := by
  obtain ⟨w, rfl, hw, hr⟩ := h
  obtain ⟨w', h2, hw', hr'⟩ := h'
  rw [List.append_assoc, List.append_assoc] at h2
  obtain ⟨_, h3⟩ := spaces_lead_unique h2 (List.all_eq_true.2 hw) (List.all_eq_true.2 hw')
    (noMore_keyword hk) (noMore_keyword hk')
  exact word_unique h3 hk hk' hr hr'

/-- the text after the keyword and its whitespace: the expression `b`, the end `e` and what is left -/
def CEnd (b e r : Str) : Prop :=
  '\n' ∉ b ∧ NoMore isSpace (b ++ (e ++ r)) ∧
  ((e.all isSpace = true ∧ r = [] ∧ (∀ c ∈ b.getLast?, isSpace c = false) ∧
      (e = [] ∨ e = ['\n'] → b.getLast? ≠ some '\\')) ∨ (e = ['\\'] ∧ (r = [] ∨ r = ['\n'])))

theorem cend_head {k8 k9 : G} {b e r pre : Str} {caps : List (G × Str)} (h : CEnd b e r) :
    ∃ pre', (run (.grp k8 (starL dot) ⬝ .grp k9 (star isSpace ∣∣ ch '\\') ⬝ .eos)
      ⟨pre, b ++ (e ++ r), caps⟩).head? = some ⟨pre', r, (k9, e) :: (k8, b) :: caps⟩ := by
  obtain ⟨hb, hnm, he⟩ := h
  have hbd : b.all dot = true := by
    rw [List.all_eq_true]
    intro c hc
    simp only [dot, bne_iff_ne]
    rintro rfl; exact hb hc
  have hfail : ∀ w' w'', b = w' ++ w'' → w'' ≠ [] → ∀ st : St G, st.rest = w'' ++ (e ++ r) →
      run (.grp k9 (star isSpace ∣∣ ch '\\') ⬝ .eos) st = [] := by
    intro w' w'' hbw hne st hst
    rw [run_eq_nil_iff]
    intro t ht
    simp only [mem_cat, mem_grp, mem_alt, star, mem_rep', mem_ch, mem_eos] at ht
    obtain ⟨_, ⟨v, x, hv, hx, rfl⟩, _, h4⟩ := ht
    simp only at h4
    obtain ⟨zs, hz⟩ := List.getLast?_eq_some_iff.1 (List.getLast?_eq_some_getLast hne)
    generalize w''.getLast hne = z at hz
    have hzb : z ∈ b := by rw [hbw, hz]; simp
    have hzn : z ≠ '\n' := by rintro rfl; exact hb hzb
    have hlast : b.getLast? = some z := by rw [hbw, hz, ← List.append_assoc]; simp
    rcases hv with ⟨y, r', h1, h2, _, rfl⟩ | ⟨r', h1, rfl⟩
    · simp only at h4
      rw [hst] at h1
      rw [List.all_eq_true] at h2
      have hall : ∀ c ∈ y ++ r', isSpace c = true := by
        intro c hc
        rcases List.mem_append.1 hc with hc | hc
        · exact h2 c hc
        · rcases h4 with h4 | h4
          · rw [h4] at hc; cases hc
          · rw [h4] at hc; simp at hc; subst hc; decide
      rw [← h1] at hall
      rcases he with ⟨e1, e2, e3, e4⟩ | ⟨e1, -⟩
      · have g1 := hall z (by rw [hz]; simp)
        have g2 := e3 z hlast
        rw [g1] at g2; cases g2
      · have g1 := hall '\\' (by rw [e1]; simp)
        revert g1; decide
    · simp only at h4
      rw [hst] at h1
      cases hw : w'' with
      | nil => exact hne hw
      | cons c cs =>
        rw [hw] at h1
        simp only [List.cons_append, List.cons.injEq] at h1
        obtain ⟨rfl, h1⟩ := h1
        have hcs : cs = [] := by
          cases cs with
          | nil => rfl
          | cons d ds =>
            rcases h4 with h4 | h4
            · rw [h4] at h1; simp at h1
            · rw [h4] at h1
              simp at h1
              exfalso
              apply hb
              rw [hbw, hw, h1.1]; simp
        subst hcs
        rw [List.nil_append] at h1
        rcases he with ⟨e1, e2, e3, e4⟩ | ⟨e1, -⟩
        · rw [e2, List.append_nil] at h1
          rw [← h1] at h4
          exact e4 h4 (by rw [hbw, hw]; simp)
        · rcases h4 with h4 | h4 <;> rw [h4, e1] at h1 <;> simp at h1
  refine ⟨e.reverse ++ (b.reverse ++ pre),
    head_grp_lazy (w := b) (r' := e ++ r) rfl hbd (Nat.zero_le _) ?_ ?_⟩
  rotate_left
  · intro w' w'' hbw hne _
    exact hfail w' w'' hbw hne _ rfl
  · simp only
    rw [run_grp_cat]
    rcases he with ⟨e1, e2, e3, e4⟩ | ⟨e1, e2⟩
    · subst e2
      rw [run_alt, List.flatMap_append]
      apply head_append_left
      apply head_greedy (w := e) (r' := []) (by simp) e1 (Nat.zero_le _) (by simp [NoMore])
      simp [run]
    · subst e1
      rw [run_alt, List.flatMap_append]
      have : (run (star isSpace) (⟨b.reverse ++ pre, ['\\'] ++ r, (k8, b) :: caps⟩ : St G)) =
          [⟨b.reverse ++ pre, ['\\'] ++ r, (k8, b) :: caps⟩] := by
        simp [run, star, splits, St.adv, show isSpace '\\' = false from by decide]
      rw [this]
      rcases e2 with rfl | rfl <;> simp [run, ch]

/-- text after the keyword -/
theorem condRe_cend {line kw w b e r : Str} (hk : kw ∈ keywords) (h : FirstWord line kw (w ++ (b ++ (e ++ r))))
    (hw : ∀ c ∈ w, isSpace c = true) (he : CEnd b e r) (hne : b ++ e ≠ []) :
    ∃ m, rmatch condRe line = some m ∧ m.get .kwd = some kw ∧ m.get .expr = some b ∧
      m.get .fin = some e := by
  have hsp : ∀ c ∈ (w ++ (b ++ (e ++ r))).head?, isSpace c = true := by
    obtain ⟨_, _, _, h⟩ := h; exact h
  have hnm : NoMore isSpace (b ++ (e ++ r)) := he.2.1
  have hne' : b ++ (e ++ r) ≠ [] := by rw [← List.append_assoc]; simp at hne ⊢; intro h h'; exact absurd h' (hne h)
  have hwne : w ≠ [] := by
    rintro rfl
    cases hx : b ++ (e ++ r) with
    | nil => exact hne' hx
    | cons c cs =>
      rw [List.nil_append, hx] at hsp
      have h1 := hsp c (by simp)
      have h2 := hnm c (by rw [hx]; simp)
      rw [h1] at h2; simp at h2
  obtain ⟨z, hz⟩ := List.getLast?_eq_some_iff.1 (List.getLast?_eq_some_getLast hwne)
  generalize w.getLast hwne = c at hz
  have hzs : z.all isSpace = true := by rw [List.all_eq_true]; intro x hx; exact hw x (by rw [hz]; simp [hx])
  have hcs : isSpace c = true := hw c (by rw [hz]; simp)
  obtain ⟨pre', hm⟩ := condRe_word (t := ⟨[], r, [(.fin, e), (.expr, b), (.kwd, kw)]⟩) hk h (by
    intro pre
    obtain ⟨pre', hend⟩ := cend_head (k8 := G.expr) (k9 := G.fin) (pre := c :: (z.reverse ++ pre))
      (caps := [(.kwd, kw)]) he
    refine ⟨pre', ?_⟩
    unfold afterRe
    rw [run_cat]
    refine head_rep_greedy (w := z) (r' := c :: (b ++ (e ++ r))) (by simp [hz]) hzs (Nat.zero_le _) ?_ ?_
    · rw [run_opt_cat]
      apply head_append_left
      rw [run_cat_assoc]
      refine head_rep_cat (w := [c]) (r' := b ++ (e ++ r)) (by simp [St.adv]) (by simp [hcs]) (by simp) hnm ?_
      simp only [St.adv]
      rw [run_cat_assoc]
      simpa using hend
    · intro w'' r'' e1 e2 e3
      cases w'' with
      | nil => exact absurd rfl e2
      | cons d ds =>
        simp only [List.cons_append, List.cons.injEq] at e1
        simp only [List.all_cons, Bool.and_eq_true] at e3
        have hds : ds = [] := by
          cases ds with
          | nil => rfl
          | cons f fs =>
            exfalso
            have := hnm f (by rw [e1.2]; simp)
            simp only [List.all_cons, Bool.and_eq_true] at e3
            rw [e3.2.1] at this; simp at this
        subst hds
        have hr'' : r'' = b ++ (e ++ r) := by simpa using e1.2.symm
        rw [run_opt_cat, List.append_eq_nil_iff]
        constructor
        · rw [run_cat_assoc, run_eq_nil_iff]
          intro t ht
          simp only [mem_cat, plus, mem_rep'] at ht
          obtain ⟨_, ⟨w', r', h5, h6, h7, _⟩, _⟩ := ht
          simp only [St.adv] at h5
          cases w' with
          | nil => simp at h7
          | cons f fs =>
            simp only [List.all_cons, Bool.and_eq_true] at h6
            have := hnm f (by rw [← hr'', h5]; simp)
            rw [h6.1] at this; simp at this
        · rw [run_eq_nil_iff]
          intro t ht
          rw [mem_eos] at ht
          simp only [St.adv, hr''] at ht
          rcases ht.2 with h | h
          · exact hne' h
          · have := hnm '\n' (by rw [h]; simp)
            revert this; decide)
  exact ⟨_, hm, by simp [St.get], by simp [St.get], by simp [St.get]⟩

/-- only texts on one line are recognised -/
theorem condRe_oneLine {line : Str} {m : St G} (h : rmatch condRe line = some m) :
    ∃ kw ∈ keywords, ∃ text, ConditionLine line kw text ∧ m.get .kwd = some kw := by
  obtain ⟨kw, hk, rest, hf, hm⟩ := condRe_inv h
  refine ⟨kw, hk, rest, ⟨hf, ?_⟩, hm⟩
  rw [condRe_eq] at h
  have h := List.mem_of_head? h
  simp only [mem_cat, star, mem_rep', mem_grp, kwd_mem] at h
  obtain ⟨_, ⟨w, r, h1, h2, _, rfl⟩, _, ⟨u, v, ⟨kw', hk', r', h3, rfl⟩, h4, rfl⟩, h5⟩ := h
  simp only [init] at h1 h3 h4
  have hsp := after_space h5
  simp only at hsp
  have hf' : FirstWord line kw' r' := ⟨w, by rw [h1, h3]; simp, List.all_eq_true.1 h2, hsp⟩
  obtain ⟨rfl, rfl⟩ := firstWord_unique hk hk' hf hf'
  have hd : ∀ y : Str, y.all dot = true → '\n' ∉ y := by
    intro y hy hc
    have := List.all_eq_true.1 hy _ hc
    simp [dot] at this
  simp only [afterRe, star, plus, mem_cat, mem_opt, mem_rep', mem_eos, mem_grp, starL, mem_alt, mem_ch] at h5
  obtain ⟨_, ⟨w1, r1, h6, g6, _, rfl⟩, x, h7, rfl, hend⟩ := h5
  simp only at h6 h7 hend
  have hsp' : ∀ {x : Str}, x = [] ∨ x = ['\n'] → ∀ c ∈ x, isSpace c = true := by
    rintro x (rfl | rfl) c hc
    · cases hc
    · simp at hc; subst hc; decide
  rcases h7 with ⟨_, ⟨w2, r2, h8, g8, _, rfl⟩, _, ⟨_, b, ⟨w3, r3, h9, g9, _, rfl⟩, h10, rfl⟩, _, e, h11, h12, rfl⟩ | rfl
  · simp only at h8 h9 h10 h12 hend
    rcases h11 with ⟨w4, r4, h13, h14, _, rfl⟩ | ⟨cs, h13, rfl⟩ <;> simp only at h13 hend
    · refine ⟨w1 ++ w2, w3, w4 ++ r4, by rw [h6, h8, h9, h13]; simp, ?_, ?_, hd _ g9⟩
      · intro c hc
        rcases List.mem_append.1 hc with hc | hc
        · exact List.all_eq_true.1 g6 c hc
        · exact List.all_eq_true.1 g8 c hc
      · intro c hc
        rcases List.mem_append.1 hc with hc | hc
        · exact List.all_eq_true.1 h14 c hc
        · exact hsp' hend c hc
    · refine ⟨w1 ++ w2, w3 ++ ['\\'], cs, by rw [h6, h8, h9, h13]; simp, ?_, hsp' hend, ?_⟩
      · intro c hc
        rcases List.mem_append.1 hc with hc | hc
        · exact List.all_eq_true.1 g6 c hc
        · exact List.all_eq_true.1 g8 c hc
      · intro hc
        rcases List.mem_append.1 hc with hc | hc
        · exact hd _ g9 hc
        · revert hc; decide
  · exact ⟨w1, [], r1, by rw [h6]; simp, List.all_eq_true.1 g6, hsp' hend, by simp⟩

theorem spaces_split (text : Str) : ∃ w x : Str, text = w ++ x ∧ (∀ c ∈ w, isSpace c = true) ∧ NoMore isSpace x := by
  refine ⟨text.takeWhile isSpace, text.dropWhile isSpace, by rw [List.takeWhile_append_dropWhile], ?_, ?_⟩
  · intro c hc; exact (List.all_eq_true.1 List.all_takeWhile) c hc
  · intro c hc
    cases hd : text.dropWhile isSpace with
    | nil => rw [hd] at hc; simp at hc
    | cons d ds =>
      rw [hd] at hc; simp at hc; subst hc
      have := List.head?_dropWhile_not isSpace text
      rw [hd] at this
      simpa using this

theorem spaces_split_end (y : Str) :
    ∃ b e : Str, y = b ++ e ∧ (∀ c ∈ e, isSpace c = true) ∧ ∀ c ∈ b.getLast?, isSpace c = false := by
  obtain ⟨w, x, h1, h2, h3⟩ := spaces_split y.reverse
  refine ⟨x.reverse, w.reverse, ?_, ?_, ?_⟩
  · rw [← List.reverse_append, ← h1, List.reverse_reverse]
  · intro c hc; exact h2 c (List.mem_reverse.1 hc)
  · intro c hc
    rw [List.getLast?_reverse] at hc
    exact h3 c hc

theorem trimmed_exists (text : Str) : ∃ e, Trimmed text e := by
  obtain ⟨w, x, rfl, hw, hx⟩ := spaces_split text
  obtain ⟨e, w', rfl, hw', he⟩ := spaces_split_end x
  refine ⟨e, w, w', by simp, hw, hw', ?_, he⟩
  intro c hc
  refine hx c ?_
  cases e with
  | nil => simp at hc
  | cons d ds => simpa using hc

theorem trimmed_unique {text e e' : Str} (h : Trimmed text e) (h' : Trimmed text e') : e = e' := by
  obtain ⟨w, z, h1, h2, h3, h4, h5⟩ := h
  obtain ⟨w', z', g1, g2, g3, g4, g5⟩ := h'
  have key : ∀ {a b x y : Str}, a ++ x = b ++ y → (∀ c ∈ a, isSpace c = true) → (∀ c ∈ b, isSpace c = true) →
      (∀ c ∈ x.head?, isSpace c = false) → (∀ c ∈ y.head?, isSpace c = false) → x = y := by
    intro a b x y h ha hb hx hy
    exact (spaces_lead_unique h (List.all_eq_true.2 ha) (List.all_eq_true.2 hb) hx hy).2
  by_cases he : e = []
  · subst he
    by_cases he' : e' = []
    · rw [he']
    · exfalso
      cases e' with
      | nil => exact he' rfl
      | cons c cs =>
        have : isSpace c = true := by
          have hm : c ∈ text := by rw [g1]; simp
          rw [h1] at hm
          simp at hm
          rcases hm with hm | hm
          · exact h2 c hm
          · exact h3 c hm
        rw [g4 c (by simp)] at this
        cases this
  · by_cases he' : e' = []
    · subst he'
      exfalso
      cases e with
      | nil => exact he rfl
      | cons c cs =>
        have : isSpace c = true := by
          have hm : c ∈ text := by rw [h1]; simp
          rw [g1] at hm
          simp at hm
          rcases hm with hm | hm
          · exact g2 c hm
          · exact g3 c hm
        rw [h4 c (by simp)] at this
        cases this
    · have e1 : e ++ z = e' ++ z' := by
        refine key (a := w) (b := w') (by rw [← List.append_assoc, ← List.append_assoc, ← h1, ← g1]) h2 g2 ?_ ?_
        · cases e with
          | nil => exact absurd rfl he
          | cons c cs => simpa using h4
        · cases e' with
          | nil => exact absurd rfl he'
          | cons c cs => simpa using g4
      have e2 := congrArg List.reverse e1
      rw [List.reverse_append, List.reverse_append] at e2
      have e3 := key e2 (by intro c hc; exact h3 c (List.mem_reverse.1 hc)) (by intro c hc; exact g3 c (List.mem_reverse.1 hc))
        (by rw [List.head?_reverse]; exact h5) (by rw [List.head?_reverse]; exact g5)
      exact List.reverse_inj.1 e3

theorem endsWith_one {s : Str} {c : Char} : endsWith s [c] = true ↔ s.getLast? = some c := by
  unfold endsWith
  rw [List.isSuffixOf_iff_suffix, List.getLast?_eq_some_iff]
  constructor
  · rintro ⟨a, rfl⟩; exact ⟨a, rfl⟩
  · rintro ⟨a, rfl⟩; exact ⟨a, rfl⟩

theorem continuation_stop {acc : Str} (h : acc.getLast? ≠ some '\\') (ls : List Str) :
    continuation acc ls = (acc, 0) := by
  cases ls with
  | nil => rfl
  | cons l ls =>
    have : endsWith acc ['\\'] = false := by rw [Bool.eq_false_iff, ne_eq, endsWith_one]; exact h
    simp [continuation, this]

theorem lone_trimmed {text : Str} (h : Lone text) : Trimmed text ['\\'] := by
  obtain ⟨v, hv, hv' | hv'⟩ := h
  · exact ⟨v, [], by simp [hv'], hv, by simp, by decide, by decide⟩
  · exact ⟨v, ['\n'], by simp [hv'], hv, by decide, by decide, by decide⟩

/-- a condition line is recognised, and the expression is its text with the lines it continues on -/
theorem condRe_line {l kw text : Str} (hk : kw ∈ keywords) (h : ConditionLine l kw text) :
    ∃ m, rmatch condRe l = some m ∧ m.get .kwd = some kw ∧
      ((Lone text ∧ ∀ ls, expression (m.get .expr) (m.get .fin) ls = (s% "0", 0)) ∨
       (¬ Lone text ∧ ∃ e, Trimmed text e ∧ ∀ ls, expression (m.get .expr) (m.get .fin) ls =
          (if (continuation e ls).1 = [] then s% "0" else (continuation e ls).1, (continuation e ls).2))) := by
  obtain ⟨hf, w1, e1, w1', ht, hw1, hw1', hn⟩ := h
  obtain ⟨e, w, w', h1, h2, h3, h4, h5⟩ := trimmed_exists text
  by_cases he : e = []
  · -- nothing but whitespace
    subst he
    have hsp : ∀ c ∈ text, isSpace c = true := by
      intro c hc
      rw [h1] at hc
      simp at hc
      rcases hc with hc | hc
      · exact h2 c hc
      · exact h3 c hc
    obtain ⟨m, m1, m2, m3⟩ := condRe_bare hk hf hsp
    refine ⟨m, m1, m2, .inr ⟨?_, [], ⟨w, w', h1, h2, h3, h4, h5⟩, fun ls => by
      rw [m3, continuation_stop (by simp)]; rfl⟩⟩
    rintro ⟨v, _, hv⟩
    have : isSpace '\\' = true := hsp _ (by rcases hv with hv | hv <;> rw [hv] <;> simp)
    revert this; decide
  · -- the text is not broken
    have hne : '\n' ∉ e := by
      intro hc
      -- `e` starts and ends with other characters, so that the newline is inside of `e1`
      have e2 : Trimmed e1 e ∨ '\n' ∈ e1 := by
        left
        obtain ⟨x, v, v', g1, g2, g3, g4, g5⟩ := trimmed_exists e1
        have : Trimmed text x := ⟨w1 ++ v, v' ++ w1', by rw [ht, g1]; simp, by
          intro c hc; rcases List.mem_append.1 hc with hc | hc
          · exact hw1 c hc
          · exact g2 c hc, by
          intro c hc; rcases List.mem_append.1 hc with hc | hc
          · exact g3 c hc
          · exact hw1' c hc, g4, g5⟩
        cases trimmed_unique this ⟨w, w', h1, h2, h3, h4, h5⟩
        exact ⟨v, v', g1, g2, g3, g4, g5⟩
      rcases e2 with ⟨v, v', g1, -⟩ | e2
      · exact hn (by rw [g1]; simp [hc])
      · exact hn e2
    have hnm : NoMore isSpace (e ++ w') := by
      intro c hc
      cases e with
      | nil => exact absurd rfl he
      | cons d ds => exact h4 c (by simpa using hc)
    by_cases hb : e.getLast? = some '\\' ∧ (w' = [] ∨ w' = ['\n'])
    · obtain ⟨hb, hw'⟩ := hb
      obtain ⟨b, rfl⟩ := List.getLast?_eq_some_iff.1 hb
      have hf' : FirstWord l kw (w ++ (b ++ (['\\'] ++ w'))) := by rw [h1] at hf; simpa using hf
      obtain ⟨m, m1, m2, m3, m4⟩ := condRe_cend hk hf' h2
        ⟨fun h => hne (by simp [h]), by simpa using hnm, .inr ⟨rfl, hw'⟩⟩ (by simp)
      refine ⟨m, m1, m2, ?_⟩
      rw [m3, m4]
      cases b with
      | nil =>
        refine .inl ⟨⟨w, h2, ?_⟩, fun ls => rfl⟩
        rcases hw' with rfl | rfl
        · left; simpa using h1
        · right; simpa using h1
      | cons d ds =>
        refine .inr ⟨?_, (d :: ds) ++ ['\\'], ⟨w, w', h1, h2, h3, h4, h5⟩, fun ls => by simp [expression]⟩
        intro hl
        have ht' := lone_trimmed hl
        have := trimmed_unique ht' ⟨w, w', h1, h2, h3, h4, h5⟩
        simp at this
    · have hf' : FirstWord l kw (w ++ (e ++ (w' ++ []))) := by rw [h1] at hf; simpa using hf
      obtain ⟨m, m1, m2, m3, m4⟩ := condRe_cend hk hf' h2
        ⟨hne, by simpa using hnm, .inl ⟨List.all_eq_true.2 h3, rfl, h5, fun h h' => hb ⟨h', h⟩⟩⟩ (by simp [he])
      refine ⟨m, m1, m2, ?_⟩
      rw [m3, m4]
      have hfin : w' ≠ ['\\'] := by
        rintro rfl
        have := h3 '\\' (by simp)
        revert this; decide
      have hemp : e.isEmpty = false := by cases e <;> simp_all
      refine .inr ⟨?_, e, ⟨w, w', h1, h2, h3, h4, h5⟩, fun ls => by simp [expression, hfin, hemp]⟩
      rintro ⟨v, hv, hv'⟩
      apply hb
      rcases hv' with hv' | hv'
      · have ht' : Trimmed text ['\\'] := ⟨v, [], by simp [hv'], hv, by simp, by decide, by decide⟩
        cases trimmed_unique ht' ⟨w, w', h1, h2, h3, h4, h5⟩
        refine ⟨rfl, .inl ?_⟩
        have hx : v ++ '\\' :: [] = w ++ '\\' :: w' := by
          rw [← hv']; simpa using h1
        have := (spaces_lead_unique hx (List.all_eq_true.2 hv) (List.all_eq_true.2 h2)
          (by intro c hc; simp at hc; subst hc; decide) (by intro c hc; simp at hc; subst hc; decide)).2
        simpa using this
      · have ht' : Trimmed text ['\\'] := ⟨v, ['\n'], by simp [hv'], hv, by decide, by decide, by decide⟩
        cases trimmed_unique ht' ⟨w, w', h1, h2, h3, h4, h5⟩
        refine ⟨rfl, .inr ?_⟩
        have hx : v ++ '\\' :: ['\n'] = w ++ '\\' :: w' := by
          rw [← hv']; simpa using h1
        have := (spaces_lead_unique hx (List.all_eq_true.2 hv) (List.all_eq_true.2 h2)
          (by intro c hc; simp at hc; subst hc; decide) (by intro c hc; simp at hc; subst hc; decide)).2
        simp at this
        exact this.symm

theorem continuation_of {acc res : Str} {ls : List Str} (h : Joined acc ls res) (more : List Str) :
    continuation acc (ls ++ more) = (res, ls.length) := by
  induction h with
  | done hl => exact continuation_stop hl _
  | @more acc l ls res _ ih =>
    have : endsWith (acc ++ ['\\']) ['\\'] = true := by rw [endsWith_one]; simp
    simp only [List.cons_append, continuation, this, if_true, List.dropLast_concat, ih]
    rfl

/-- the expression of a condition line -/
theorem condRe_expression {l kw text e : Str} {cont : List Str} (hk : kw ∈ keywords)
    (hf : ConditionLine l kw text) (ht : ConditionText text cont e) :
    ∃ m, rmatch condRe l = some m ∧ m.get .kwd = some kw ∧
      ∀ more, expression (m.get .expr) (m.get .fin) (cont ++ more) = (e, cont.length) := by
  obtain ⟨m, m1, m2, m3⟩ := condRe_line hk hf
  refine ⟨m, m1, m2, fun more => ?_⟩
  cases ht with
  | lone hl =>
    rcases m3 with ⟨_, m3⟩ | ⟨hl', _⟩
    · rw [m3]; rfl
    · exact absurd hl hl'
  | text hl htr hj =>
    rcases m3 with ⟨hl', _⟩ | ⟨_, e', he', m3⟩
    · exact absurd hl' hl
    · cases trimmed_unique htr he'
      rw [m3, continuation_of hj]

theorem condRe_noCondition {l : Str} (h : NoCondition l) : rmatch condRe l = none := by
  cases hm : rmatch condRe l with
  | none => rfl
  | some m =>
    obtain ⟨kw, hk, text, hf, _⟩ := condRe_oneLine hm
    exact absurd hf (h kw hk text)

end Conditions
end Specfile
