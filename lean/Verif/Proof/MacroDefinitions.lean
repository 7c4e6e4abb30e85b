import Verif.Model.MacroDefinitions
import Verif.Regex.More
/-
Helper lemmas about macro definitions.
-/
namespace Specfile
open Py Regex
namespace MacroDefinitions

/-- what the regex of a definition says about a line -/
structure LineParts [Uni] (t : St Nat) where
  g1 : Str
  dnl : Str
  g3 : Str
  g4 : Str
  g5 : Str
  g6 : Str
  g7 : Str
  g8 : Str
  g9 : Str
  r : Str
  r_eq : r = [] ∨ r = ['\n']
  get1 : t.get 1 = some g1
  get2 : (dnl = [] ∧ t.get 2 = none) ∨ (dnl = s% "%dnl" ∧ t.get 2 = some dnl)
  get3 : t.get 3 = some g3
  get4 : t.get 4 = some g4
  get5 : t.get 5 = some g5
  get6 : t.get 6 = some g6
  get7 : t.get 7 = some g7
  get8 : t.get 8 = some g8
  get9 : t.get 9 = some g9
  sp1 : g1.all isSpace = true
  shape3 : (dnl ≠ [] ∧ ∃ p, g3 = p ++ ['%'] ∧ p.all dot = true) ∨
    (dnl = [] ∧ (g3 = ['%'] ∨ g3 = ['#'] ∨ ∃ p, g3 = '#' :: (p ++ ['%']) ∧ p.all dot = true))
  kw : g4 = s% "global" ∨ g4 = s% "define"
  sp5 : g5.all isSpace = true
  ne5 : g5 ≠ []
  name6 : ∃ w a, g6 = w ++ a ∧ w ≠ [] ∧ w.all isWord = true ∧
    (a = [] ∨ ∃ x, a = '(' :: (x ++ [')']) ∧ x.all dot = true)
  sp7 : g7.all isSpace = true
  ne7 : g7 ≠ []
  dot8 : g8.all dot = true
  end9 : g9.all isSpace = true ∨ g9 = ['\\']

theorem ne_nil_of_len {α} {l : List α} (h : 1 ≤ l.length) : l ≠ [] := by
  rintro rfl; simp at h

theorem mdRe_inv [Uni] {line : Str} {t : St Nat} (h : rmatch mdRe line = some t) :
    ∃ p : LineParts t, line = p.g1 ++ p.dnl ++ p.g3 ++ p.g4 ++ p.g5 ++ p.g6 ++ p.g7 ++ p.g8 ++ p.g9 ++ p.r := by
  have h := mem_of_rmatch h
  unfold mdRe at h
  simp only [mem_cat, mem_bos, star, plus, starL, mem_grp_rep, mem_opt] at h
  obtain ⟨_, ⟨rfl, _⟩, _, ⟨w1, r1, h1, s1, _, rfl⟩, u2, h2, h⟩ := h
  simp only [init] at h1
  -- group 2
  have hd : ∃ dnl r2, r1 = dnl ++ r2 ∧ (dnl = [] ∧ u2 = ⟨w1.reverse, r1, [(1, w1)]⟩ ∨
      dnl = s% "%dnl" ∧ u2 = ⟨dnl.reverse ++ w1.reverse, r2, [(2, dnl), (1, w1)]⟩) := by
    rcases h2 with h2 | h2
    · rw [mem_grp] at h2
      obtain ⟨v, w, hv, hw, rfl⟩ := h2
      rw [mem_lit] at hv
      obtain ⟨r, e, rfl⟩ := hv
      simp only [init, List.append_nil] at e hw ⊢
      have : w = s% "%dnl" := List.append_cancel_right (hw.symm.trans e)
      subst this
      exact ⟨_, r, e, .inr ⟨rfl, rfl⟩⟩
    · subst h2
      exact ⟨[], r1, rfl, .inl ⟨rfl, by simp [init]⟩⟩
  clear h2
  obtain ⟨dnl, r2, e2, h2⟩ := hd
  obtain ⟨u3, h3, u4, h4, _, ⟨w5, r5, h5, s5, n5, rfl⟩, u6, h6, _, ⟨w7, r7, h7, s7, n7, rfl⟩,
    _, ⟨w8, r8, h8, s8, _, rfl⟩, u9, h9, h10⟩ := h
  simp only at h8
  rw [mem_eos] at h10
  obtain ⟨rfl, h10⟩ := h10
  -- group 9
  rw [mem_grp] at h9
  obtain ⟨v9, w9, h9, e9, rfl⟩ := h9
  simp only at e9 h10
  have hend : (w9.all isSpace = true ∨ w9 = ['\\']) ∧ v9.caps = (8, w8) :: (7, w7) :: u6.caps := by
    rw [mem_alt, mem_rep', mem_ch] at h9
    rcases h9 with ⟨w, r, a1, a2, _, rfl⟩ | ⟨r, a1, rfl⟩
    · simp only at a1 e9
      have : w9 = w := List.append_cancel_right (e9.symm.trans a1)
      subst this
      exact ⟨.inl a2, rfl⟩
    · simp only at a1 e9
      have : w9 = ['\\'] := List.append_cancel_right (e9.symm.trans a1)
      exact ⟨.inr this, rfl⟩
  obtain ⟨hend, caps9⟩ := hend
  -- group 6
  rw [mem_grp] at h6
  obtain ⟨v6, w6, h6, e6, rfl⟩ := h6
  simp only at e6 h7 caps9
  have hname : (∃ w a, w6 = w ++ a ∧ w ≠ [] ∧ w.all isWord = true ∧
      (a = [] ∨ ∃ x, a = '(' :: (x ++ [')']) ∧ x.all dot = true)) ∧
      v6.caps = (5, w5) :: u4.caps := by
    simp only [mem_cat, mem_rep', mem_opt, mem_ch] at h6
    obtain ⟨_, ⟨w, r, a1, a2, a3, rfl⟩, a4⟩ := h6
    simp only at a1 a4
    rcases a4 with ⟨_, ⟨r', b1, rfl⟩, _, ⟨x, r'', b2, b3, _, rfl⟩, r''', b4, rfl⟩ | rfl
    · simp only at b1 b2 b4 e6
      refine ⟨⟨w, '(' :: (x ++ [')']), ?_, ne_nil_of_len a3, a2, .inr ⟨x, rfl, b3⟩⟩, rfl⟩
      apply List.append_cancel_right (bs := r''')
      rw [← e6, a1, b1, b2, b4]; simp
    · simp only at e6
      refine ⟨⟨w, [], ?_, ne_nil_of_len a3, a2, .inl rfl⟩, rfl⟩
      apply List.append_cancel_right (bs := r)
      rw [← e6, a1]; simp
  obtain ⟨hname, caps6⟩ := hname
  -- group 4
  rw [mem_grp] at h4
  obtain ⟨v4, w4, h4, e4, rfl⟩ := h4
  simp only at e4 h5 caps6
  have hkw : (w4 = s% "global" ∨ w4 = s% "define") ∧ v4.caps = u3.caps := by
    rw [mem_alt, mem_lit, mem_lit] at h4
    rcases h4 with ⟨r, a1, rfl⟩ | ⟨r, a1, rfl⟩
    · exact ⟨.inl (List.append_cancel_right (e4.symm.trans a1)), rfl⟩
    · exact ⟨.inr (List.append_cancel_right (e4.symm.trans a1)), rfl⟩
  obtain ⟨hkw, caps4⟩ := hkw
  -- group 3
  rw [mem_grp] at h3
  obtain ⟨v3, w3, h3, e3, rfl⟩ := h3
  simp only at e3 e4 caps4
  have hsc : ((dnl ≠ [] ∧ ∃ p, w3 = p ++ ['%'] ∧ p.all dot = true) ∨
    (dnl = [] ∧ (w3 = ['%'] ∨ w3 = ['#'] ∨ ∃ p, w3 = '#' :: (p ++ ['%']) ∧ p.all dot = true))) ∧
      v3.caps = u2.caps := by
    simp only [run] at h3
    rcases h2 with ⟨rfl, rfl⟩ | ⟨rfl, rfl⟩
    · rw [if_neg (by simp [St.get])] at h3
      rw [List.mem_append] at h3
      simp only at e3
      rcases h3 with h3 | h3
      · rw [mem_ch] at h3
        obtain ⟨r, a1, rfl⟩ := h3
        simp only at a1 e3
        exact ⟨.inr ⟨rfl, .inl (List.append_cancel_right (e3.symm.trans a1))⟩, rfl⟩
      · have h3' : v3 ∈ run (ch '#' ⬝ opt (.rep dot 0 false ⬝ ch '%')) ⟨w1.reverse, r1, [(1, w1)]⟩ := h3
        simp only [mem_cat, mem_opt, mem_rep', mem_ch] at h3'
        obtain ⟨_, ⟨r, a1, rfl⟩, h3'⟩ := h3'
        simp only at a1 h3'
        rcases h3' with ⟨_, ⟨p, r', b1, b2, _, rfl⟩, r'', b3, rfl⟩ | rfl
        · simp only at b1 b3 e3
          refine ⟨.inr ⟨rfl, .inr (.inr ⟨p, ?_, b2⟩)⟩, rfl⟩
          apply List.append_cancel_right (bs := r'')
          rw [← e3, a1, b1, b3]; simp
        · simp only at e3
          exact ⟨.inr ⟨rfl, .inr (.inl (List.append_cancel_right (e3.symm.trans a1)))⟩, rfl⟩
    · rw [if_pos (by simp [St.get])] at h3
      have h3' : v3 ∈ run (.rep dot 0 false ⬝ ch '%') (⟨(s% "%dnl").reverse ++ w1.reverse, r2, [(2, s% "%dnl"), (1, w1)]⟩ : St Nat) := h3
      simp only [mem_cat, mem_rep', mem_ch] at h3'
      obtain ⟨_, ⟨p, r', b1, b2, _, rfl⟩, r'', b3, rfl⟩ := h3'
      simp only at b1 b3 e3
      refine ⟨.inl ⟨by simp, p, ?_, b2⟩, rfl⟩
      apply List.append_cancel_right (bs := r'')
      rw [← e3, b1, b3]; simp
  obtain ⟨hsc, caps3⟩ := hsc
  have u2rest : r1 = dnl ++ u2.rest := by
    rcases h2 with ⟨rfl, rfl⟩ | ⟨rfl, rfl⟩
    · simp
    · exact e2
  have u2caps : u2.caps = (if dnl = [] then [] else [(2, dnl)]) ++ [(1, w1)] := by
    rcases h2 with ⟨rfl, rfl⟩ | ⟨rfl, rfl⟩ <;> simp
  have hdnl : dnl = [] ∨ dnl = s% "%dnl" := by
    rcases h2 with ⟨rfl, rfl⟩ | ⟨rfl, rfl⟩ <;> simp
  refine ⟨⟨w1, dnl, w3, w4, w5, w6, w7, w8, w9, v9.rest, h10, ?_, ?_, ?_, ?_, ?_, ?_, ?_, ?_, ?_,
    s1, hsc, hkw, s5, ne_nil_of_len n5, hname, s7, ne_nil_of_len n7, s8, hend⟩, ?_⟩
  rotate_right
  · rw [h1, u2rest, e3, e4, h5, e6, h7, h8, e9]; simp
  all_goals simp only [St.get, caps9, caps6, caps4, caps3, u2caps]
  all_goals rcases hdnl with hd | hd <;> simp [hd]

/-! ### trailing whitespace of the body -/

theorem splitTrailing_spec (body : Str) :
    (splitTrailing body).2.all inlineSpace = true ∧
    (body = (splitTrailing body).1 ++ (splitTrailing body).2 ∨
     (body = (splitTrailing body).1 ++ (splitTrailing body).2 ++ ['\n'] ∧
      (splitTrailing body).2 ≠ [])) := by
  unfold splitTrailing
  split
  · simp
  · rename_i f hf
    have := searchFrom_some hf
    obtain ⟨h1, w, h2, h3, h4⟩ := this
    simp only [plus, mem_cat, mem_grp_rep, mem_eos] at h4
    obtain ⟨_, ⟨v, r, h5, h6, h7, rfl⟩, h8, h9⟩ := h4
    simp only at h5 h9
    have e : f.st.get 1 = some v := by rw [h8]; simp [St.get]
    simp only [e, Option.getD_some]
    refine ⟨h6, ?_⟩
    have e2 : body = f.before ++ v ++ r := by
      rw [List.append_assoc, ← h5, h2, h3]; simp
    rcases h9 with rfl | rfl
    · left; simpa using e2
    · right; exact ⟨e2, ne_nil_of_len h7⟩

/-! ### reading further lines of the body -/

theorem takeBody_spec (body : Str) (ls : List (Str × Bool)) :
    (takeBody body ls).2 ≤ ls.length ∧
    (takeBody body ls).1 = joinC '\n' (body :: (ls.take (takeBody body ls).2).map (·.1)) := by
  induction ls generalizing body with
  | nil => simp [takeBody]
  | cons l ls ih =>
    simp only [takeBody]
    split
    · obtain ⟨h1, h2⟩ := ih (body ++ '\n' :: l.1)
      refine ⟨by simpa using h1, ?_⟩
      simp only [h2, List.take_succ_cons, List.map_cons]
      rw [joinC_cons (a := body) (h := by simp)]
      cases h : List.map (fun x => x.1) (List.take (takeBody (body ++ '\n' :: l.1) ls).2 ls) with
      | nil => simp
      | cons a as => simp [joinC]
    · simp

/-- the body is complete unless the lines ran out -/
theorem takeBody_complete (body : Str) (ls : List (Str × Bool))
    (h : (takeBody body ls).2 < ls.length) : open_ (takeBody body ls).1 = false := by
  induction ls generalizing body with
  | nil => simp at h
  | cons l ls ih =>
    simp only [takeBody] at h ⊢
    split
    · rename_i ho
      rw [if_pos ho] at h
      exact ih _ (by simpa using h)
    · rename_i ho
      simpa using ho

/-- every proper part of it is open -/
theorem takeBody_open (body : Str) (ls : List (Str × Bool)) (k : Nat)
    (h : k < (takeBody body ls).2) :
    open_ (joinC '\n' (body :: (ls.take k).map (·.1))) = true := by
  induction ls generalizing body k with
  | nil => simp [takeBody] at h
  | cons l ls ih =>
    simp only [takeBody] at h
    split at h
    · rename_i ho
      cases k with
      | zero => simpa using ho
      | succ k =>
        have := ih (body ++ '\n' :: l.1) k (by simpa using h)
        simp only [List.take_succ_cons, List.map_cons]
        rw [joinC_cons (a := body) (h := by simp)]
        cases h : List.map (fun x => x.1) (List.take k ls) with
        | nil => rw [h] at this; simpa using this
        | cons a as =>
          rw [h] at this
          simpa [joinC] using this
    · simp at h

/-! ### brackets -/

open Utils in
theorem countStep_mono {b p b' p' : Nat} (h1 : b ≤ b') (h2 : p ≤ p') (c : Char) :
    (countStep b p c).1 ≤ (countStep b' p' c).1 ∧ (countStep b p c).2 ≤ (countStep b' p' c).2 := by
  unfold countStep
  repeat' split
  all_goals simp_all
  all_goals omega

open Utils in
theorem countFrom_mono (s : Str) {b p b' p' : Nat} (h1 : b ≤ b') (h2 : p ≤ p') :
    (countFrom b p s).1 ≤ (countFrom b' p' s).1 ∧ (countFrom b p s).2 ≤ (countFrom b' p' s).2 := by
  fun_induction countFrom b p s generalizing b' p' with
  | case1 b p => exact ⟨h1, h2⟩
  | case2 b p c => simp only [countFrom]; exact countStep_mono h1 h2 c
  | case3 b p c d cs hc ih => simp only [countFrom, hc, if_true]; exact ih h1 h2
  | case4 b p c d cs hc hp hd ih =>
    simp only [countFrom, hc, hp, hd, if_true]; exact ih (by omega) h2
  | case5 b p c d cs hc hp hd hd' ih =>
    simp only [countFrom, hc, hp, hd, hd', if_true]; exact ih h1 (by omega)
  | case6 b p c d cs hc hp hd hd' ih =>
    simp only [countFrom, hc, hp, hd, hd', if_true]; exact ih h1 h2
  | case7 b p c d cs hc hp ih =>
    simp only [countFrom, hc, hp]
    have := countStep_mono h1 h2 c
    exact ih this.1 this.2

open Utils in
/-- scanning can be interrupted after an ordinary character -/
theorem countFrom_append (x y : Str) (b p : Nat)
    (h : ∀ c ∈ x.getLast?, c ≠ '\\' ∧ c ≠ '%') :
    countFrom b p (x ++ y) = countFrom (countFrom b p x).1 (countFrom b p x).2 y := by
  fun_induction countFrom b p x with
  | case1 b p => rfl
  | case2 b p c =>
    have := h c (by simp)
    cases y with
    | nil => simp [countFrom]
    | cons d ds => simp [countFrom, this.1, this.2]
  | case3 b p c d cs hc ih =>
    simp only [List.cons_append, countFrom, hc, if_true]
    apply ih
    intro e he
    apply h
    cases cs with
    | nil => simp at he
    | cons a as => simpa using he
  | case4 b p c d cs hc hp hd ih =>
    simp only [List.cons_append, countFrom, hc, hp, hd, if_true]
    apply ih
    intro e he
    apply h
    cases cs with
    | nil => simp at he
    | cons a as => simpa using he
  | case5 b p c d cs hc hp hd hd' ih =>
    simp only [List.cons_append, countFrom, hc, hp, hd, hd', if_true]
    apply ih
    intro e he
    apply h
    cases cs with
    | nil => simp at he
    | cons a as => simpa using he
  | case6 b p c d cs hc hp hd hd' ih =>
    simp only [List.cons_append, countFrom, hc, hp, hd, hd', if_true]
    apply ih
    intro e he
    apply h
    cases cs with
    | nil => simp at he
    | cons a as => simpa using he
  | case7 b p c d cs hc hp ih =>
    simp only [List.cons_append, countFrom, hc, hp]
    apply ih
    intro e he
    apply h
    simpa using he

open Utils in
theorem countStep_space (b p : Nat) {c : Char} (h : isSpace c = true) : countStep b p c = (b, p) := by
  have h1 : c ≠ '{' := by rintro rfl; revert h; decide
  have h2 : c ≠ '}' := by rintro rfl; revert h; decide
  have h3 : c ≠ '(' := by rintro rfl; revert h; decide
  have h4 : c ≠ ')' := by rintro rfl; revert h; decide
  simp [countStep, h1, h2, h3, h4]

open Utils in
/-- one more whitespace character at the end changes nothing -/
theorem countFrom_space (x : Str) (b p : Nat) {w : Char} (h : isSpace w = true) :
    countFrom b p (x ++ [w]) = countFrom b p x := by
  have h1 : w ≠ '{' := by rintro rfl; revert h; decide
  have h3 : w ≠ '(' := by rintro rfl; revert h; decide
  fun_induction countFrom b p x with
  | case1 b p => simp [countFrom, countStep_space b p h]
  | case2 b p c =>
    by_cases hc : c = '\\'
    · subst hc; simp [countFrom, countStep]
    · by_cases hp : c = '%'
      · subst hp; simp [countFrom, countStep, h1, h3]
      · simp [countFrom, hc, hp, countStep_space _ _ h]
  | case3 b p c d cs hc ih => simpa only [List.cons_append, countFrom, hc, if_true] using ih
  | case4 b p c d cs hc hp hd ih =>
    simpa only [List.cons_append, countFrom, hc, hp, hd, if_true, Bool.false_eq_true, if_false] using ih
  | case5 b p c d cs hc hp hd hd' ih =>
    simpa only [List.cons_append, countFrom, hc, hp, hd, hd', if_true, Bool.false_eq_true, if_false] using ih
  | case6 b p c d cs hc hp hd hd' ih =>
    simpa only [List.cons_append, countFrom, hc, hp, hd, hd', if_true, Bool.false_eq_true, if_false] using ih
  | case7 b p c d cs hc hp ih =>
    simpa only [List.cons_append, countFrom, hc, hp, Bool.false_eq_true, if_false] using ih

theorem countBrackets_spaces (x w : Str) (h : w.all isSpace = true) :
    Utils.countBrackets (x ++ w) = Utils.countBrackets x := by
  unfold Utils.countBrackets
  induction w generalizing x with
  | nil => simp
  | cons c cs ih =>
    simp only [List.all_cons, Bool.and_eq_true] at h
    have := ih (x ++ [c]) h.2
    rw [List.append_assoc, List.singleton_append] at this
    rw [this, countFrom_space _ _ _ h.1]

/-- a bracket left open at the end of a text stays open when something is put before the text -/
theorem countBrackets_suffix (x y : Str) (h : ∀ c ∈ x.getLast?, c ≠ '\\' ∧ c ≠ '%') :
    (Utils.countBrackets y).1 ≤ (Utils.countBrackets (x ++ y)).1 ∧
    (Utils.countBrackets y).2 ≤ (Utils.countBrackets (x ++ y)).2 := by
  unfold Utils.countBrackets
  rw [countFrom_append _ _ _ _ h]
  exact countFrom_mono _ (Nat.zero_le _) (Nat.zero_le _)

end MacroDefinitions
end Specfile
