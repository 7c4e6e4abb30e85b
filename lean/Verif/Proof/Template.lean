import Verif.Model.ConstructRegex
import Verif.Spec.Template
import Verif.Regex.More
import Verif.Py.Num
/-
Helper lemmas for C73: the pieces of values, templates.
-/
namespace Specfile.Template
open Py Regex Spec

/-! ### templates -/

theorem escape_append (a b : Str) : escape (a ++ b) = escape a ++ escape b := by
  induction a with
  | nil => rfl
  | cons c a ih => simp only [List.cons_append, escape]; split <;> simp [ih]

theorem substitution_shorter {d : Str → Option Str} {r v r' : Str} (h : substitution d r = .ok (v, r')) :
    r'.length < r.length := by
  have hdw : ∀ (l : Str), (l.dropWhile idChar).length ≤ l.length := fun l => (List.dropWhile_suffix _).length_le
  unfold substitution at h
  split at h
  · cases h; simp
  · split at h
    · rename_i c r0 _
      split at h
      · rename_i r1 he
        split at h
        · cases h
          have := hdw r0
          rw [he] at this
          simp at this ⊢; omega
        · cases h
      · cases h
    · cases h
  · split at h
    · rename_i c r0 _ _ _
      split at h
      · cases h
        have := hdw r0
        simp; omega
      · cases h
    · cases h
  · cases h

theorem substituteF_fuel {d : Str → Option Str} : ∀ {n k : Nat} {t : Str}, t.length < n → t.length < k →
    substituteF d n t = substituteF d k t := by
  intro n
  induction n with
  | zero => intro k t h; omega
  | succ n ih =>
    intro k t h1 h2
    cases k with
    | zero => omega
    | succ k =>
      cases t with
      | nil => rfl
      | cons c r =>
        simp only [List.length_cons] at h1 h2
        simp only [substituteF]
        split
        · cases hs : substitution d r with
          | error e => rfl
          | ok x =>
            obtain ⟨v, r'⟩ := x
            have := substitution_shorter hs
            simp only
            rw [ih (k := k) (by omega) (by omega)]
        · rw [ih (k := k) (by omega) (by omega)]

theorem substitute_nil (d : Str → Option Str) : substitute d [] = .ok [] := rfl

theorem substitute_char {d : Str → Option Str} {c : Char} (h : c ≠ '$') (t : Str) :
    substitute d (c :: t) = (substitute d t).map (c :: ·) := by
  simp only [substitute, List.length_cons]
  rw [substituteF.eq_def]
  simp only [if_neg h]

theorem substitute_dollar {d : Str → Option Str} {r v r' : Str} (h : substitution d r = .ok (v, r')) :
    substitute d ('$' :: r) = (substitute d r').map (v ++ ·) := by
  simp only [substitute, List.length_cons]
  rw [substituteF.eq_def]
  simp only [if_pos trivial, h]
  have := substitution_shorter h
  rw [substituteF_fuel (k := r'.length + 1) (by omega) (by omega)]

theorem except_map_map {ε α β γ : Type} (f : α → β) (g : β → γ) (x : Except ε α) :
    (x.map f).map g = x.map (g ∘ f) := by cases x <;> rfl

theorem substitute_escape {d : Str → Option Str} (a t : Str) :
    substitute d (escape a ++ t) = (substitute d t).map (a ++ ·) := by
  induction a with
  | nil => simp only [escape, List.nil_append]; cases substitute d t <;> rfl
  | cons c a ih =>
    simp only [escape]
    split
    · rename_i hc
      subst hc
      simp only [List.cons_append]
      rw [substitute_dollar (v := ['$']) (r' := escape a ++ t) rfl, ih, except_map_map]
      rfl
    · rename_i hc
      simp only [List.cons_append]
      rw [substitute_char hc, ih, except_map_map]
      rfl

theorem substitute_all_escaped {d : Str → Option Str} (a : Str) : substitute d (escape a) = .ok a := by
  have := substitute_escape (d := d) a []
  simpa [substitute_nil, Except.map] using this

theorem idChar_digit {c : Char} (h : isAsciiDigit c = true) : idChar c = true := by
  simp [idChar, h]

theorem takeWhile_all_append {p : Char → Bool} {a : Str} {c : Char} {b : Str} (ha : ∀ x ∈ a, p x = true)
    (hc : p c = false) : (a ++ c :: b).takeWhile p = a ∧ (a ++ c :: b).dropWhile p = c :: b := by
  induction a with
  | nil => simp [hc]
  | cons x a ih =>
    have h1 := ha x (by simp)
    have h2 := ih (fun y hy => ha y (by simp [hy]))
    simp [h1, h2]

theorem subName_chars (n : Nat) : ∃ r, subName n = 's' :: r ∧ ∀ c ∈ r, idChar c = true := by
  refine ⟨s% "ub_" ++ natStr n, rfl, ?_⟩
  intro c hc
  rw [List.mem_append] at hc
  rcases hc with h | h
  · have : c = 'u' ∨ c = 'b' ∨ c = '_' := by simpa using h
    rcases this with rfl | rfl | rfl <;> decide
  · exact idChar_digit (natStr_digits n c h)

theorem substitute_sub {d : Str → Option Str} {n : Nat} {v : Str} (h : d (subName n) = some v) (t : Str) :
    substitute d (s% "${" ++ (subName n ++ ('}' :: t))) = (substitute d t).map (v ++ ·) := by
  obtain ⟨r, hr, hc⟩ := subName_chars n
  have hw := takeWhile_all_append (b := t) hc (c := '}') (by decide)
  have : s% "${" ++ (subName n ++ ('}' :: t)) = '$' :: '{' :: 's' :: (r ++ '}' :: t) := by rw [hr]; rfl
  rw [this]
  refine substitute_dollar ?_
  have hid : idStart 's' = true := by decide
  simp only [substitution, hid, if_true, hw.1, hw.2]
  rw [← hr, h]

theorem subName_injective {m n : Nat} (h : subName m = subName n) : m = n := by
  unfold subName at h
  exact natStr_injective (List.append_cancel_left h)

/-! ### literals -/

theorem mem_varRe [Uni] {before after : Bool} {s : Str} {t : St Nat} (h : t ∈ run (varRe before after) (init s)) :
    Cut before after s ((t.get 1).getD []) ((t.get 2).getD []) ((t.get 3).getD []) := by
  unfold varRe at h
  simp only [mem_cat, mem_bos, mem_eos] at h
  obtain ⟨_, ⟨rfl, -⟩, u1, h1, u2, h2, u3, h3, rfl, h4⟩ := h
  rw [mem_grp] at h2
  obtain ⟨u, w, hu, hw, rfl⟩ := h2
  rw [star, mem_rep] at hu
  obtain ⟨m, r, e1, hm, -, rfl⟩ := hu
  have hwm : w = m := by
    have := hw.symm.trans e1
    simp only [St.adv] at this
    exact List.append_cancel_right this
  subst hwm
  have hline : '\n' ∉ w := fun hh => by
    have := List.all_eq_true.mp hm _ hh
    simp [dot] at this
  have key1 : ∃ p, s = p ++ u1.rest ∧ u1.caps = (if before then [(1, p)] else []) ∧
      (if before then ∃ u c, p = u ++ [c] ∧ (∀ x ∈ u, isWord x = true) ∧ isWord c = false else p = []) := by
    cases before with
    | false =>
      simp only [Bool.false_eq_true, if_false, mem_eps] at h1 ⊢
      subst h1
      exact ⟨[], rfl, rfl, rfl⟩
    | true =>
      simp only [if_true, mem_grp, mem_cat] at h1 ⊢
      obtain ⟨u, p, ⟨x, hx, hc⟩, hp, rfl⟩ := h1
      rw [star, mem_rep] at hx
      obtain ⟨a, b, ea, ha, -, rfl⟩ := hx
      rw [mem_cls] at hc
      obtain ⟨c, cs, ec, hnw, rfl⟩ := hc
      simp only [St.adv, init] at *
      subst ec
      refine ⟨p, hp, rfl, a, c, ?_, List.all_eq_true.mp ha, by simpa [nonWord] using hnw⟩
      rw [ea] at hp
      have : a ++ [c] ++ cs = p ++ cs := by simpa using hp
      exact (List.append_cancel_right this).symm
  obtain ⟨p, ep, cp, fp⟩ := key1
  have key2 : ∃ q, r = q ++ t.rest ∧ t.caps = (if after then [(3, q)] else []) ++ ((2, w) :: u1.caps) ∧
      (if after then ∃ c u, q = c :: u ∧ (∀ x ∈ u, isWord x = true) ∧ isWord c = false else q = []) := by
    cases after with
    | false =>
      simp only [Bool.false_eq_true, if_false, mem_eps] at h3 ⊢
      subst h3
      exact ⟨[], rfl, rfl, rfl⟩
    | true =>
      simp only [if_true, mem_grp, mem_cat] at h3 ⊢
      obtain ⟨u, q, ⟨x, hx, hc⟩, hq, rfl⟩ := h3
      rw [mem_cls] at hx
      obtain ⟨c, cs, ec, hnw, rfl⟩ := hx
      rw [star, mem_rep] at hc
      obtain ⟨a, b, ea, ha, -, rfl⟩ := hc
      simp only [St.adv] at *
      subst ea
      refine ⟨q, hq, rfl, c, a, ?_, List.all_eq_true.mp ha, by simpa [nonWord] using hnw⟩
      rw [ec] at hq
      have : (c :: a) ++ b = q ++ b := by simpa using hq
      exact (List.append_cancel_right this).symm
  obtain ⟨q, eq, cq, fq⟩ := key2
  have g1 : (t.get 1).getD [] = p := by
    unfold St.get
    rw [cq, cp]
    cases before with
    | true => cases after <;> simp
    | false => simp only [Bool.false_eq_true, if_false] at fp; subst fp; cases after <;> simp
  have g2 : (t.get 2).getD [] = w := by
    unfold St.get
    rw [cq, cp]
    cases before <;> cases after <;> simp
  have g3 : (t.get 3).getD [] = q := by
    unfold St.get
    rw [cq, cp]
    cases after with
    | true => simp
    | false => simp only [Bool.false_eq_true, if_false] at fq; subst fq; cases before <;> simp
  rw [g1, g2, g3]
  refine ⟨?_, hline, fp, fq⟩
  rcases h4 with h4 | h4
  · left; rw [ep, e1, eq, h4]; simp
  · right; rw [ep, e1, eq, h4]; simp

theorem varRe_of_cut [Uni] {before after : Bool} {s p m q : Str} (h : Cut before after s p m q) :
    ∃ t, t ∈ run (varRe before after) (init s) := by
  obtain ⟨ht, hl, hf, hq⟩ := h
  have ⟨z, hz, ez⟩ : ∃ z, (z = [] ∨ z = ['\n']) ∧ s = p ++ (m ++ (q ++ z)) := by
    rcases ht with h | h
    · exact ⟨[], .inl rfl, by simp [h]⟩
    · exact ⟨['\n'], .inr rfl, by simp [h]⟩
  have hm : m.all dot = true := by
    rw [List.all_eq_true]
    intro x hx
    simp only [dot, bne_iff_ne]
    rintro rfl
    exact hl hx
  have s1 : ∃ t1 : St Nat, t1 ∈ run (if before then .grp 1 (star isWord ⬝ .cls nonWord) else .eps) (init s) ∧
      t1.rest = m ++ (q ++ z) := by
    cases before with
    | false =>
      simp only [Bool.false_eq_true, if_false] at hf ⊢
      subst hf
      exact ⟨init s, by simp, ez⟩
    | true =>
      simp only [if_true] at hf ⊢
      obtain ⟨u, c, rfl, hu, hc⟩ := hf
      refine ⟨⟨c :: ((u.reverse) ++ []), m ++ (q ++ z), [(1, u ++ [c])]⟩, ?_, rfl⟩
      rw [mem_grp]
      refine ⟨⟨c :: ((u.reverse) ++ []), m ++ (q ++ z), []⟩, u ++ [c], ?_, ez, rfl⟩
      rw [mem_cat]
      refine ⟨(init s).adv u (c :: (m ++ (q ++ z))), ?_, ?_⟩
      · rw [star, mem_rep]
        exact ⟨u, _, by simp [init, ez], List.all_eq_true.mpr hu, by simp, rfl⟩
      · rw [mem_cls]
        exact ⟨c, _, rfl, by simp [nonWord, hc], rfl⟩
  obtain ⟨t1, m1, r1⟩ := s1
  have s3 : ∀ t2 : St Nat, t2.rest = q ++ z →
      ∃ t3 : St Nat, t3 ∈ run (if after then .grp 3 (.cls nonWord ⬝ star isWord) else .eps) t2 ∧ t3.rest = z := by
    intro t2 e2
    cases after with
    | false =>
      simp only [Bool.false_eq_true, if_false] at hq ⊢
      subst hq
      exact ⟨t2, by simp, e2⟩
    | true =>
      simp only [if_true] at hq ⊢
      obtain ⟨c, u, rfl, hu, hc⟩ := hq
      refine ⟨⟨u.reverse ++ (c :: t2.pre), z, (3, c :: u) :: t2.caps⟩, ?_, rfl⟩
      rw [mem_grp]
      refine ⟨⟨u.reverse ++ (c :: t2.pre), z, t2.caps⟩, c :: u, ?_, e2, rfl⟩
      rw [mem_cat]
      refine ⟨⟨c :: t2.pre, u ++ z, t2.caps⟩, ?_, ?_⟩
      · rw [mem_cls]
        exact ⟨c, _, e2, by simp [nonWord, hc], rfl⟩
      · rw [star, mem_rep]
        exact ⟨u, z, rfl, List.all_eq_true.mpr hu, by simp, rfl⟩
  obtain ⟨t3, m3, r3⟩ := s3 ⟨m.reverse ++ t1.pre, q ++ z, (2, m) :: t1.caps⟩ rfl
  refine ⟨t3, ?_⟩
  unfold varRe
  rw [mem_cat]
  refine ⟨init s, mem_bos.mpr ⟨rfl, rfl⟩, ?_⟩
  rw [mem_cat]
  refine ⟨t1, m1, ?_⟩
  rw [mem_cat]
  refine ⟨_, ?_, mem_cat.mpr ⟨t3, m3, mem_eos.mpr ⟨rfl, by rw [r3]; exact hz⟩⟩⟩
  rw [mem_grp]
  refine ⟨⟨m.reverse ++ t1.pre, q ++ z, t1.caps⟩, m, ?_, r1, rfl⟩
  rw [star, mem_rep]
  exact ⟨m, _, r1, hm, by simp, rfl⟩

/-- in a single line the cut is unique -/
theorem cut_unique [Uni] {before after : Bool} {s p m q p' m' q' : Str} (hs : '\n' ∉ s)
    (h : Cut before after s p m q) (h' : Cut before after s p' m' q') : p = p' ∧ m = m' ∧ q = q' := by
  have e1 : s = p ++ (m ++ q) := by
    rcases h.text with e | e
    · exact e
    · rw [e] at hs; simp at hs
  have e2 : s = p' ++ (m' ++ q') := by
    rcases h'.text with e | e
    · exact e
    · rw [e] at hs; simp at hs
  have hp : p = p' := by
    have f1 := h.first
    have f2 := h'.first
    cases before with
    | false => simp at f1 f2; rw [f1, f2]
    | true =>
      simp only [if_true] at f1 f2
      obtain ⟨u, c, rfl, hu, hc⟩ := f1
      obtain ⟨u', c', rfl, hu', hc'⟩ := f2
      have w1 := takeWhile_all_append (b := m ++ q) hu hc
      have w2 := takeWhile_all_append (b := m' ++ q') hu' hc'
      have : u ++ c :: (m ++ q) = u' ++ c' :: (m' ++ q') := by
        have := e1.symm.trans e2
        simpa using this
      rw [this] at w1
      have a := w1.1.symm.trans w2.1
      have b := w1.2.symm.trans w2.2
      simp only [List.cons.injEq] at b
      rw [a, b.1]
  subst hp
  have e : m ++ q = m' ++ q' := List.append_cancel_left (e1.symm.trans e2)
  have hq : q = q' := by
    have f1 := h.last
    have f2 := h'.last
    cases after with
    | false => simp at f1 f2; rw [f1, f2]
    | true =>
      simp only [if_true] at f1 f2
      obtain ⟨c, u, rfl, hu, hc⟩ := f1
      obtain ⟨c', u', rfl, hu', hc'⟩ := f2
      have w1 := takeWhile_all_append (a := u.reverse) (b := m.reverse) (by simpa using hu) hc
      have w2 := takeWhile_all_append (a := u'.reverse) (b := m'.reverse) (by simpa using hu') hc'
      have : u.reverse ++ c :: m.reverse = u'.reverse ++ c' :: m'.reverse := by
        have := congrArg List.reverse e
        simpa using this
      rw [this] at w1
      have a := w1.1.symm.trans w2.1
      have b := w1.2.symm.trans w2.2
      simp only [List.cons.injEq] at b
      rw [List.reverse_inj.mp a, b.1]
  subst hq
  exact ⟨rfl, List.append_cancel_right e, rfl⟩

end Specfile.Template
