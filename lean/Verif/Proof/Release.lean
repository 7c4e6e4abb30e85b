import Verif.Model.Release
import Verif.Spec.Release
import Verif.Regex.More
import Verif.Proof.MacroDefinitions4
/-
Splitting a raw release.
-/
namespace Specfile.Release
open Py Regex Spec

theorem decimal_ne [Uni] {c d : Char} (h : Uni.isDecimal c = true) (hd : isAscii d = true)
    (hn : isAsciiDigit d = false) : c ≠ d := by
  rintro rfl
  rw [Uni.decimal_ascii _ hd, hn] at h
  cases h

theorem decimal_not_space [Uni] {c : Char} (h : Uni.isDecimal c = true) : isSpace c = false :=
  Uni.alnum_not_space _ (Uni.numeric_alnum _ (Uni.decimal_numeric _ h))

/-- the dist tag as matched by the group -/
def distIn : Re Nat :=
  ch '%' ⬝ opt (.grp 2 (ch '{' ⬝ opt (ch '?'))) ⬝ lit (s% "dist") ⬝ .ifgrp 2 (ch '}') .eps

theorem mem_distIn {pre rest : Str} {t : St Nat} (h : t ∈ run distIn ⟨pre, rest, []⟩) :
    ∃ d, d ∈ distForms ∧ rest = d ++ t.rest ∧ t.get 4 = none := by
  unfold distIn at h
  rw [mem_cat] at h
  obtain ⟨u, hu, h⟩ := h
  rw [mem_ch] at hu
  obtain ⟨cs, rfl, rfl⟩ := hu
  rw [mem_cat] at h
  obtain ⟨u, hu, h⟩ := h
  rw [mem_opt] at hu
  rw [mem_cat] at h
  obtain ⟨v, hv, h⟩ := h
  rw [mem_lit] at hv
  obtain ⟨r, hr, rfl⟩ := hv
  rcases hu with hu | rfl
  · rw [mem_grp] at hu
    obtain ⟨v, w, hv, hw, rfl⟩ := hu
    rw [mem_cat] at hv
    obtain ⟨x, hx, hv⟩ := hv
    rw [mem_ch] at hx
    obtain ⟨cs', h1, rfl⟩ := hx
    rw [mem_opt] at hv
    simp only [run, get_cons, Option.isSome_some, if_true] at h
    rw [mem_ch] at h
    obtain ⟨cs'', h2, rfl⟩ := h
    simp only at h1 h2 hr hw
    rcases hv with hv | rfl
    · rw [mem_ch] at hv
      obtain ⟨cs3, h3, rfl⟩ := hv
      simp only at h3 hr
      refine ⟨s% "%{?dist}", by simp [distForms], ?_, ?_⟩
      · simp [h1, h3, hr, h2]
      · simp [St.get]
    · simp only at hr
      refine ⟨s% "%{dist}", by simp [distForms], ?_, ?_⟩
      · simp [h1, hr, h2]
      · simp [St.get]
  · simp only at hr
    simp [run, St.get] at h
    subst h
    exact ⟨s% "%dist", by simp [distForms], by simp [hr], by simp [St.get]⟩

theorem distIn_exists {pre rest d : Str} (h : d ∈ distForms) :
    ∃ p c, (⟨p, rest, c⟩ : St Nat) ∈ run distIn ⟨pre, d ++ rest, []⟩ := by
  simp only [distForms, List.mem_cons, List.not_mem_nil, or_false] at h
  rcases h with rfl | rfl | rfl
  · refine ⟨(s% "%dist").reverse ++ pre, [], ?_⟩
    unfold distIn
    refine mem_cat.2 ⟨⟨'%' :: pre, s% "dist" ++ rest, []⟩, mem_ch.2 ⟨_, rfl, rfl⟩, ?_⟩
    refine mem_cat.2 ⟨_, mem_opt.2 (Or.inr rfl), ?_⟩
    refine mem_cat.2 ⟨_, mem_lit.2 ⟨rest, rfl, rfl⟩, ?_⟩
    simp [run, St.get]
  · refine ⟨(s% "%{dist}").reverse ++ pre, [(2, ['{'])], ?_⟩
    unfold distIn
    refine mem_cat.2 ⟨⟨'%' :: pre, s% "{dist}" ++ rest, []⟩, mem_ch.2 ⟨_, rfl, rfl⟩, ?_⟩
    refine mem_cat.2 ⟨⟨'{' :: '%' :: pre, s% "dist}" ++ rest, [(2, ['{'])]⟩, mem_opt.2 (Or.inl ?_), ?_⟩
    · refine mem_grp.2 ⟨⟨'{' :: '%' :: pre, s% "dist}" ++ rest, []⟩, ['{'], ?_, rfl, rfl⟩
      refine mem_cat.2 ⟨_, mem_ch.2 ⟨_, rfl, rfl⟩, mem_opt.2 (Or.inr rfl)⟩
    refine mem_cat.2 ⟨_, mem_lit.2 ⟨s% "}" ++ rest, rfl, rfl⟩, ?_⟩
    simp [run, St.get, ch]
  · refine ⟨(s% "%{?dist}").reverse ++ pre, [(2, ['{', '?'])], ?_⟩
    unfold distIn
    refine mem_cat.2 ⟨⟨'%' :: pre, s% "{?dist}" ++ rest, []⟩, mem_ch.2 ⟨_, rfl, rfl⟩, ?_⟩
    refine mem_cat.2 ⟨⟨'?' :: '{' :: '%' :: pre, s% "dist}" ++ rest, [(2, ['{', '?'])]⟩, mem_opt.2 (Or.inl ?_), ?_⟩
    · refine mem_grp.2 ⟨⟨'?' :: '{' :: '%' :: pre, s% "dist}" ++ rest, []⟩, ['{', '?'], ?_, rfl, rfl⟩
      refine mem_cat.2 ⟨_, mem_ch.2 ⟨_, rfl, rfl⟩, mem_opt.2 (Or.inl (mem_ch.2 ⟨_, rfl, rfl⟩))⟩
    refine mem_cat.2 ⟨_, mem_lit.2 ⟨s% "}" ++ rest, rfl, rfl⟩, ?_⟩
    simp [run, St.get, ch]

theorem mem_finalNewline {s : Str} : s ∈ finalNewline ↔ s = [] ∨ s = ['\n'] := by
  simp [finalNewline]

theorem digits_iff [Uni] {w : Str} : Digits w ↔ w.all Uni.isDecimal = true ∧ 1 ≤ w.length := by
  unfold Digits
  cases w <;> simp

theorem get_of_caps {κ : Type} [DecidableEq κ] {s t : St κ} {k : κ} (h : s.caps = t.caps) : s.get k = t.get k := by
  unfold St.get; rw [h]

/-- what a match of the expression means -/
theorem mem_distRe [Uni] {pre rest : Str} {t : St Nat} (h : t ∈ run distRe ⟨pre, rest, []⟩) :
    ∃ d minor, d ∈ distForms ∧ (∀ ds ∈ minor, Digits ds) ∧ t.rest ∈ finalNewline ∧
      rest = d ++ (minorText minor ++ t.rest) ∧ t.get 1 = some d ∧ t.get 4 = minor := by
  unfold distRe at h
  rw [mem_cat] at h
  obtain ⟨u, hu, h⟩ := h
  rw [mem_grp] at hu
  obtain ⟨v, w, hv, hw, rfl⟩ := hu
  obtain ⟨d, hd, e, hg⟩ := mem_distIn hv
  have hwd : w = d := List.append_cancel_right (hw.symm.trans e)
  subst hwd
  rw [mem_cat] at h
  obtain ⟨x, hx, h⟩ := h
  rw [mem_eos] at h
  obtain ⟨rfl, hnl⟩ := h
  rw [mem_opt] at hx
  rcases hx with hx | rfl
  · rw [mem_grp] at hx
    obtain ⟨y, w2, hy, hw2, rfl⟩ := hx
    rw [mem_cat] at hy
    obtain ⟨z, hz, hy⟩ := hy
    rw [mem_ch] at hz
    obtain ⟨cs, hc, rfl⟩ := hz
    unfold plus at hy
    rw [mem_grp_rep] at hy
    obtain ⟨ds, r, h1, h2, h3, rfl⟩ := hy
    simp only at hc h1 hw2 hnl ⊢
    refine ⟨w, some ds, hd, ?_, mem_finalNewline.2 hnl, ?_, ?_, ?_⟩
    · intro x hx; cases hx; exact digits_iff.2 ⟨h2, h3⟩
    · rw [e, hc, h1]; rfl
    · simp [St.get]
    · simp [St.get]
  · refine ⟨w, none, hd, by simp, mem_finalNewline.2 hnl, by simpa [minorText] using hw, ?_, ?_⟩
    · simp [St.get]
    · rw [get_cons_ne (by decide), get_of_caps (t := v) rfl, hg]

theorem distRe_exists [Uni] {pre d nl : Str} {minor : Option Str} (hd : d ∈ distForms)
    (hm : ∀ ds ∈ minor, Digits ds) (hn : nl ∈ finalNewline) :
    ∃ t, t ∈ run distRe ⟨pre, d ++ (minorText minor ++ nl), []⟩ := by
  obtain ⟨p, c, h⟩ := distIn_exists (pre := pre) (rest := minorText minor ++ nl) hd
  rw [mem_finalNewline] at hn
  unfold distRe
  cases minor with
  | none =>
    exact ⟨_, mem_cat.2 ⟨_, mem_grp.2 ⟨_, d, h, rfl, rfl⟩, mem_cat.2 ⟨_, mem_opt.2 (Or.inr rfl), mem_eos.2 ⟨rfl, hn⟩⟩⟩⟩
  | some ds =>
    obtain ⟨h1, h2⟩ := digits_iff.1 (hm ds rfl)
    refine ⟨_, mem_cat.2 ⟨_, mem_grp.2 ⟨_, d, h, rfl, rfl⟩, mem_cat.2 ⟨_, mem_opt.2 (Or.inl
      (mem_grp.2 ⟨⟨ds.reverse ++ ('.' :: p), nl, (4, ds) :: ((1, d) :: c)⟩, '.' :: ds, ?_, ?_, rfl⟩)), mem_eos.2 ⟨rfl, hn⟩⟩⟩⟩
    · exact mem_cat.2 ⟨_, mem_ch.2 ⟨_, rfl, rfl⟩, mem_grp_rep.2 ⟨ds, nl, rfl, h1, h2, rfl⟩⟩
    · rfl

/-- nothing behind the dist tag is a percent sign -/
theorem tail_no_percent [Uni] {minor : Option Str} {nl : Str} (hm : ∀ ds ∈ minor, Digits ds)
    (hn : nl ∈ finalNewline) : '%' ∉ minorText minor ++ nl := by
  intro h
  rw [mem_finalNewline] at hn
  rw [List.mem_append] at h
  rcases h with h | h
  · cases minor with
    | none => simp [minorText] at h
    | some ds =>
      simp only [minorText, List.mem_cons] at h
      rcases h with h | h
      · exact absurd h (by decide)
      · have := List.all_eq_true.1 (hm ds rfl).2 '%' h
        exact decimal_ne this (by decide) (by decide) rfl
  · rcases hn with rfl | rfl
    · simp at h
    · exact absurd h (by decide)

theorem distForm_cons {d : Str} (h : d ∈ distForms) : ∃ e, d = '%' :: e ∧ '%' ∉ e := by
  simp only [distForms, List.mem_cons, List.not_mem_nil, or_false] at h
  rcases h with rfl | rfl | rfl <;> exact ⟨_, rfl, by decide⟩

/-- a list has one last occurrence of a value -/
theorem last_unique {α : Type} {c : α} {a b a' b' : List α} (h : a ++ c :: b = a' ++ c :: b')
    (h1 : c ∉ b) (h2 : c ∉ b') : a = a' ∧ b = b' := by
  rw [List.append_eq_append_iff] at h
  rcases h with ⟨x, rfl, e⟩ | ⟨x, rfl, e⟩
  · cases x with
    | nil => simp at e; simp [e]
    | cons y x => simp only [List.cons_append, List.cons.injEq] at e; exact absurd (by simp [e.2]) h1
  · cases x with
    | nil => simp at e; simp [e]
    | cons y x => simp only [List.cons_append, List.cons.injEq] at e; exact absurd (by simp [e.2]) h2

theorem tail_unique [Uni] {m m' : Option Str} {nl nl' : Str} (hm : ∀ ds ∈ m, Digits ds)
    (hm' : ∀ ds ∈ m', Digits ds) (hn : nl ∈ finalNewline) (hn' : nl' ∈ finalNewline)
    (h : minorText m ++ nl = minorText m' ++ nl') : m = m' ∧ nl = nl' := by
  have key : ∀ {ds : Str} {r r' : Str}, Digits ds → r ∈ finalNewline → r' ∈ finalNewline →
      '.' :: (ds ++ r) = r' → False := by
    intro ds r r' _ _ hr' e
    rw [mem_finalNewline] at hr'
    rcases hr' with rfl | rfl
    · cases e
    · simp at e
  have nln : ∀ {ds : Str}, Digits ds → '\n' ∉ ds := fun hd hc =>
    decimal_ne (List.all_eq_true.1 hd.2 _ hc) (by decide) (by decide) rfl
  cases m with
  | none =>
    cases m' with
    | none => exact ⟨rfl, by simpa [minorText] using h⟩
    | some ds => exact (key (hm' ds rfl) hn' hn (by simpa [minorText] using h.symm)).elim
  | some ds =>
    cases m' with
    | none => exact (key (hm ds rfl) hn hn' (by simpa [minorText] using h)).elim
    | some ds' =>
      simp only [minorText, List.cons_append, List.cons.injEq, true_and] at h
      rw [mem_finalNewline] at hn hn'
      have n1 := nln (hm ds rfl)
      have n2 := nln (hm' ds' rfl)
      rcases hn with rfl | rfl <;> rcases hn' with rfl | rfl
      · simpa using h
      · simp at h; subst h; simp at n1
      · simp at h; subst h; simp at n2
      · simpa using h

theorem distForm_prefix {d d' t t' : Str} (hd : d ∈ distForms) (hd' : d' ∈ distForms)
    (h : d ++ t = d' ++ t') : d = d' ∧ t = t' := by
  simp only [distForms, List.mem_cons, List.not_mem_nil, or_false] at hd hd'
  rcases hd with rfl | rfl | rfl <;> rcases hd' with rfl | rfl | rfl <;> simp at h <;> simp [h]

/-- a raw release can be taken apart in at most one way -/
theorem distRelease_unique [Uni] {raw r d r' d' : Str} {m m' : Option Str} (h : DistRelease raw r d m)
    (h' : DistRelease raw r' d' m') : r = r' ∧ d = d' ∧ m = m' := by
  obtain ⟨hd, hm, nl, hn, rfl⟩ := h
  obtain ⟨hd', hm', nl', hn', e⟩ := h'
  obtain ⟨x, hx, hxp⟩ := distForm_cons hd
  obtain ⟨x', hx', hxp'⟩ := distForm_cons hd'
  have p1 := tail_no_percent hm hn
  have p2 := tail_no_percent hm' hn'
  have := last_unique (c := '%') (a := r) (b := x ++ (minorText m ++ nl)) (a' := r')
    (b' := x' ++ (minorText m' ++ nl')) (by rw [hx, hx'] at e; simpa using e)
    (by rw [List.mem_append]; exact fun h => h.elim hxp p1)
    (by rw [List.mem_append]; exact fun h => h.elim hxp' p2)
  obtain ⟨rfl, e2⟩ := this
  have e3 := List.append_cancel_left e
  obtain ⟨rfl, e4⟩ := distForm_prefix hd hd' e3
  exact ⟨rfl, rfl, (tail_unique hm hm' hn hn' e4).1⟩

theorem splitRaw_dist [Uni] {raw r d : Str} {m : Option Str} (h : DistRelease raw r d m) :
    splitRaw raw = (r, some d, m.map decVal) := by
  have h0 := h
  obtain ⟨hd, hm, nl, hn, rfl⟩ := h
  unfold splitRaw search
  obtain ⟨t, ht⟩ := distRe_exists (pre := r.reverse) hd hm hn
  obtain ⟨t', ht'⟩ : ∃ t', (run distRe ⟨r.reverse, d ++ (minorText m ++ nl), []⟩).head? = some t' := by
    cases hh : run distRe (⟨r.reverse, d ++ (minorText m ++ nl), []⟩ : St Nat) with
    | nil => rw [hh] at ht; simp at ht
    | cons a l => exact ⟨a, rfl⟩
  have := MacroDefinitions.searchFrom_first (r := distRe) (w := r) (rest := d ++ (minorText m ++ nl))
    (pre := []) (t := t') ?_ (by simpa using ht')
  · rw [this]
    obtain ⟨d', m', hd', hm', hn', e', g1, g4⟩ := mem_distRe (List.mem_of_head? ht')
    obtain ⟨-, rfl, rfl⟩ := distRelease_unique h0 ⟨hd', hm', _, hn', by rw [e']⟩
    simp [g1, g4]
  · intro a b e hb
    rw [run_eq_nil_iff]
    intro u hu
    obtain ⟨d', m', hd', hm', hn', e', -, -⟩ := mem_distRe hu
    have := (distRelease_unique h0 (r' := a) ⟨hd', hm', _, hn', by rw [← e', e]; simp⟩).1
    rw [e] at this
    simp [hb] at this

theorem splitRaw_none [Uni] {raw : Str} (h : ¬ HasDist raw) : splitRaw raw = (raw, none, none) := by
  unfold splitRaw search
  rw [MacroDefinitions.searchFrom_none]
  intro a b e
  rw [run_eq_nil_iff]
  intro u hu
  obtain ⟨d', m', hd', hm', hn', e', -, -⟩ := mem_distRe hu
  exact h ⟨a, d', m', hd', hm', _, hn', by rw [e, e']⟩

theorem updated_dist [Uni] {raw r d : Str} {m : Option Str} (h : DistRelease raw r d m) (R : Str) :
    updated raw R = R ++ d := by
  unfold updated
  rw [splitRaw_dist h]
  rfl

theorem updated_none [Uni] {raw : Str} (h : ¬ HasDist raw) (R : Str) : updated raw R = R := by
  unfold updated
  rw [splitRaw_none h]
  simp

end Specfile.Release
