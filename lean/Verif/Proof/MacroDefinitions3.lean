import Verif.Proof.MacroDefinitions2
/-
The first match of the regex of a definition on a line that has the form of one.
-/
namespace Specfile
open Py Regex Spec
namespace MacroDefinitions

/-- the part of the regex from the keyword on -/
def tailRe [Uni] : Re Nat :=
  .grp 4 (lit (s% "global") ∣∣ lit (s% "define")) ⬝ .grp 5 (plus isSpace) ⬝
    .grp 6 (plus isWord ⬝ opt (ch '(' ⬝ starL dot ⬝ ch ')')) ⬝ .grp 7 (plus isSpace) ⬝
    .grp 8 (starL dot) ⬝ .grp 9 (star isSpace ∣∣ ch '\\') ⬝ .eos

theorem word_not_space [Uni] {c : Char} (h : isWord c = true) : isSpace c = false := by
  unfold isWord at h
  rw [Bool.or_eq_true] at h
  rcases h with h | h
  · exact Uni.alnum_not_space c h
  · simp at h; subst h; decide

theorem noMore_append {p : Char → Bool} {a b : Str} (ha : a ≠ []) (h : NoMore p a) :
    NoMore p (a ++ b) := by
  cases a with
  | nil => exact absurd rfl ha
  | cons c cs => intro d hd; exact h d (by simpa using hd)

theorem noMore_of_all {p q : Char → Bool} {a : Str} (ha : a ≠ []) (h : a.all q = true)
    (hpq : ∀ c, q c = true → p c = false) (b : Str) : NoMore p (a ++ b) := by
  cases a with
  | nil => exact absurd rfl ha
  | cons c cs =>
    intro d hd
    simp at hd h
    exact hpq d (by rw [← hd]; exact h.1)

theorem space_not_word [Uni] {c : Char} (h : isSpace c = true) : isWord c = false := by
  cases hw : isWord c with
  | false => rfl
  | true => rw [word_not_space hw] at h; simp at h

/-- a macro name with optional arguments in parentheses -/
def NameText [Uni] (name : Str) : Prop :=
  ∃ w a, name = w ++ a ∧ w ≠ [] ∧ w.all isWord = true ∧
    (a = [] ∨ ∃ x, a = '(' :: (x ++ [')']) ∧ x.all dot = true ∧ ')' ∉ x)

/-- the first line of a body `b`, followed by the end of the line `e` -/
def EndText (b e : Str) : Prop :=
  b.all dot = true ∧ NoMore isSpace (b ++ e) ∧
  ((e.all isSpace = true ∧ '\n' ∉ e ∧ (∀ c ∈ b.getLast?, isSpace c = false) ∧
      (e = [] → b.getLast? ≠ some '\\')) ∨ e = ['\\'])

theorem space_not_backslash {w : Str} (h : w.all isSpace = true) : '\\' ∉ w := by
  intro hm
  rw [List.all_eq_true] at h
  have := h _ hm
  revert this; decide

/-- the end of the line -/
theorem end_head {κ : Type} [DecidableEq κ] {k8 k9 : κ} {b e pre : Str} {caps : List (κ × Str)} (h : EndText b e) :
    ∃ pre', (run (.grp k8 (starL dot) ⬝ .grp k9 (star isSpace ∣∣ ch '\\') ⬝ .eos)
      ⟨pre, b ++ e, caps⟩).head? = some ⟨pre', [], (k9, e) :: (k8, b) :: caps⟩ := by
  obtain ⟨hb, hnm, he⟩ := h
  have hfail : ∀ w' w'', b = w' ++ w'' → w'' ≠ [] → ∀ st : St κ, st.rest = w'' ++ e →
      run (.grp k9 (star isSpace ∣∣ ch '\\') ⬝ .eos) st = [] := by
    intro w' w'' hbw hne st hst
    rw [run_eq_nil_iff]
    intro t ht
    simp only [mem_cat, mem_grp, mem_alt, star, mem_rep', mem_ch, mem_eos] at ht
    obtain ⟨_, ⟨v, x, hv, hx, rfl⟩, _, h4⟩ := ht
    simp only at h4
    have hw''last : ∃ z zs, w'' = zs ++ [z] := by
      obtain ⟨z, hz⟩ := List.getLast?_eq_some_iff.1 (List.getLast?_eq_some_getLast hne)
      exact ⟨_, z, hz⟩
    obtain ⟨z, zs, hz⟩ := hw''last
    have hdz : dot z = true := by
      rw [List.all_eq_true] at hb
      exact hb z (by rw [hbw, hz]; simp)
    -- what remains is not just a newline, because there is none
    have hrest : v.rest = [] ∨ (v.rest = ['\n'] ∧ e = ['\n']) ∨ v.rest = ['\n'] := by
      rcases h4 with h | h
      · exact .inl h
      · exact .inr (.inr h)
    rcases hv with ⟨y, r, h1, h2, _, rfl⟩ | ⟨r, h1, rfl⟩
    · simp only at h4
      rw [hst] at h1
      rcases he with ⟨e1, e2, e3, e4⟩ | e1
      · -- whitespace covers the last character of `b`
        have hzs : z ∈ y ∨ z = '\n' := by
          rcases h4 with h4 | h4
          · left; rw [h4, List.append_nil] at h1; rw [← h1, hz]; simp
          · rw [h4] at h1
            have : z ∈ y ++ ['\n'] := by rw [← h1, hz]; simp
            simpa using this
        rcases hzs with hzs | hzs
        · have := e3 z (by rw [hbw, hz]; simp)
          rw [List.all_eq_true] at h2
          rw [h2 z hzs] at this
          simp at this
        · subst hzs; simp [dot] at hdz
      · rw [e1] at h1
        rcases h4 with h4 | h4
        · rw [h4, List.append_nil] at h1
          exact space_not_backslash h2 (by rw [← h1]; simp)
        · rw [h4] at h1
          have := List.append_inj_right' h1 rfl
          simp at this
    · simp only at h4
      rw [hst] at h1
      rcases he with ⟨e1, e2, e3, e4⟩ | e1
      · rcases h4 with h4 | h4
        · rw [h4, hz] at h1
          cases zs with
          | nil =>
            simp at h1
            obtain ⟨rfl, h1⟩ := h1
            exact e4 h1 (by rw [hbw, hz]; simp)
          | cons a as => simp at h1
        · rw [h4, hz] at h1
          have hmem : '\n' ∈ zs ++ [z] ++ e := by rw [h1]; simp
          simp only [List.mem_append, List.mem_singleton] at hmem
          rcases hmem with (hm | hm) | hm
          · have hb' := List.all_eq_true.1 hb '\n' (by rw [hbw, hz]; simp [hm])
            simp [dot] at hb'
          · subst hm; simp [dot] at hdz
          · exact e2 hm
      · rw [e1] at h1
        rcases h4 with h4 | h4
        · have := congrArg List.length h1
          simp [h4, hz] at this
        · rw [h4] at h1
          have hmem : '\n' ∈ w'' ++ ['\\'] := by rw [h1]; simp
          simp only [List.mem_append, List.mem_singleton] at hmem
          rcases hmem with hm | hm
          · have hb' := List.all_eq_true.1 hb '\n' (by rw [hbw]; simp [hm])
            simp [dot] at hb'
          · simp at hm
  refine ⟨e.reverse ++ (b.reverse ++ pre),
    head_grp_lazy (w := b) (r' := e) rfl hb (Nat.zero_le _) ?_ ?_⟩
  rotate_left
  · intro w' w'' hbw hne _
    exact hfail w' w'' hbw hne _ rfl
  · simp only
    rw [run_grp_cat]
    rcases he with ⟨e1, e2, e3, e4⟩ | e1
    · rw [run_alt, List.flatMap_append]
      apply head_append_left
      apply head_greedy (w := e) (r' := []) (by simp) e1 (Nat.zero_le _) (by simp [NoMore])
      simp [run]
    · subst e1
      rw [run_alt, List.flatMap_append]
      have : (run (star isSpace) (⟨b.reverse ++ pre, ['\\'], (k8, b) :: caps⟩ : St κ)) =
          [⟨b.reverse ++ pre, ['\\'], (k8, b) :: caps⟩] := by
        simp [run, star, splits, St.adv, show isSpace '\\' = false from by decide]
      rw [this]
      simp [run, ch]

/-- from the keyword on -/
theorem tail_head [Uni] {kw w5 name w7 b e pre : Str} {caps : List (Nat × Str)}
    (hkw : kw = s% "global" ∨ kw = s% "define") (h5 : w5.all isSpace = true) (n5 : w5 ≠ [])
    (hname : NameText name) (h7 : w7.all isSpace = true) (n7 : w7 ≠ []) (he : EndText b e) :
    ∃ pre', (run tailRe ⟨pre, kw ++ (w5 ++ (name ++ (w7 ++ (b ++ e)))), caps⟩).head? =
      some ⟨pre', [], (9, e) :: (8, b) :: (7, w7) :: (6, name) :: (5, w5) :: (4, kw) :: caps⟩ := by
  have len1 : ∀ {l : Str}, l ≠ [] → 1 ≤ l.length := by
    intro l hl; exact List.length_pos_iff.2 hl
  obtain ⟨w, a, rfl, hw0, hw, ha⟩ := hname
  obtain ⟨pre', hend⟩ := end_head (pre := w7.reverse ++ ((w ++ a).reverse ++ (w5.reverse ++ (kw.reverse ++ pre))))
    (caps := (7, w7) :: (6, w ++ a) :: (5, w5) :: (4, kw) :: caps) he
  refine ⟨pre', ?_⟩
  unfold tailRe
  -- keyword
  have hk : run (.grp 4 (lit (s% "global") ∣∣ lit (s% "define"))) (⟨pre, kw ++ (w5 ++ (w ++ a ++ (w7 ++ (b ++ e)))), caps⟩ : St Nat) =
      [⟨kw.reverse ++ pre, w5 ++ (w ++ a ++ (w7 ++ (b ++ e))), (4, kw) :: caps⟩] := by
    rw [run_grp_alt]
    rcases hkw with h | h
    · subst h
      rw [run_grp_lit rfl, run_grp_lit_nil]
      · rfl
      · simp
    · subst h
      rw [run_grp_lit_nil, run_grp_lit (a := s% "define") rfl]
      · rfl
      · simp
  rw [run_cat, hk, List.flatMap_singleton]
  refine head_grp_greedy (w := w5) (r' := w ++ a ++ (w7 ++ (b ++ e))) rfl h5 (len1 n5)
    (by rw [List.append_assoc]; exact noMore_of_all hw0 hw (fun c => word_not_space) _) ?_
  -- name
  rw [run_grp_cat, run_cat, List.flatMap_assoc]
  refine head_greedy (w := w) (r' := a ++ (w7 ++ (b ++ e))) (by simp) hw (len1 hw0) ?_ ?_
  · rcases ha with rfl | ⟨x, rfl, _⟩
    · rw [List.nil_append]; exact noMore_of_all n7 h7 (fun c => space_not_word) _
    · intro c hc
      simp at hc; subst hc
      unfold isWord
      rw [Uni.alnum_ascii _ (by decide)]; decide
  · have hnext : (run (.grp 7 (plus isSpace) ⬝ .grp 8 (starL dot) ⬝ .grp 9 (star isSpace ∣∣ ch '\\') ⬝ .eos)
        (⟨(w ++ a).reverse ++ (w5.reverse ++ (kw.reverse ++ pre)), w7 ++ (b ++ e),
          (6, w ++ a) :: (5, w5) :: (4, kw) :: caps⟩ : St Nat)).head? =
        some ⟨pre', [], (9, e) :: (8, b) :: (7, w7) :: (6, w ++ a) :: (5, w5) :: (4, kw) :: caps⟩ :=
      head_grp_greedy (w := w7) (r' := b ++ e) rfl h7 (len1 n7) he.2.1 hend
    simp only [opt, run_alt, List.flatMap_append, run_eps, List.flatMap_singleton]
    rcases ha with rfl | ⟨x, rfl, hx, hxp⟩
    · rw [run_ch_cat_nil]
      · simp only [List.flatMap_nil, List.nil_append]
        have el : (w ++ [] ++ (w7 ++ (b ++ e))).take ((w ++ [] ++ (w7 ++ (b ++ e))).length - ([] ++ (w7 ++ (b ++ e))).length) = w ++ [] := by
          simp
        simp only [List.nil_append] at el
        rw [el]
        simpa using hnext
      · cases w7 with
        | nil => exact absurd rfl n7
        | cons c cs =>
          simp at h7 ⊢
          rintro rfl
          revert h7; simp [show isSpace '(' = false from by decide]
    · apply head_append_left
      rw [run_ch_cat '(' _ _ (x ++ [')'] ++ (w7 ++ (b ++ e))) (by simp), run_cat, List.flatMap_assoc]
      refine head_rep_lazy (w := x) (r' := ')' :: (w7 ++ (b ++ e))) (by simp) hx (Nat.zero_le _) ?_ ?_
      · simp only [St.adv]
        rw [show run (ch ')' : Re Nat) ⟨x.reverse ++ '(' :: (w.reverse ++ (w5.reverse ++ (kw.reverse ++ pre))), ')' :: (w7 ++ (b ++ e)), (5, w5) :: (4, kw) :: caps⟩ =
          [⟨')' :: (x.reverse ++ '(' :: (w.reverse ++ (w5.reverse ++ (kw.reverse ++ pre)))), w7 ++ (b ++ e), (5, w5) :: (4, kw) :: caps⟩] by simp [run, ch]]
        rw [List.flatMap_singleton]
        have el : (w ++ '(' :: (x ++ [')']) ++ (w7 ++ (b ++ e))).take ((w ++ '(' :: (x ++ [')']) ++ (w7 ++ (b ++ e))).length - (w7 ++ (b ++ e)).length) = w ++ '(' :: (x ++ [')']) := by
          rw [List.length_append, Nat.add_sub_cancel, List.take_left]
        simp only [el]
        simpa using hnext
      · intro w' w'' hxw hne _
        simp only [St.adv]
        cases w'' with
        | nil => exact absurd rfl hne
        | cons c cs =>
          have : c ≠ ')' := by
            rintro rfl; apply hxp; rw [hxw]; simp
          simp [run, ch, this]

end MacroDefinitions
end Specfile
