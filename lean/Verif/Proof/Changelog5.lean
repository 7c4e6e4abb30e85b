import Verif.Proof.Changelog4
import Verif.Proof.MacroDefinitions4
/-
Timestamps in the headers of changelog entries.
-/
namespace Regex
open Py

variable {κ : Type} [DecidableEq κ]

/-- The texts that an expression matches, for expressions without groups and assertions. -/
def Lang (r : Re κ) (P : Str → Prop) : Prop := ∀ s t : St κ, t ∈ run r s ↔
  ∃ x y, s.rest = x ++ y ∧ P x ∧ t = ⟨x.reverse ++ s.pre, y, s.caps⟩

theorem Lang.cat {a b : Re κ} {P Q : Str → Prop} (ha : Lang a P) (hb : Lang b Q) :
    Lang (a ⬝ b) (fun x => ∃ u v, P u ∧ Q v ∧ x = u ++ v) := by
  intro s t
  rw [mem_cat]
  constructor
  · rintro ⟨u, h1, h2⟩
    obtain ⟨x, y, e, hp, rfl⟩ := (ha s u).1 h1
    obtain ⟨x', y', e', hq, rfl⟩ := (hb _ t).1 h2
    simp only at e'
    exact ⟨x ++ x', y', by simp [e, e'], ⟨x, x', hp, hq, rfl⟩, by simp⟩
  · rintro ⟨_, y, e, ⟨u, v, hp, hq, rfl⟩, rfl⟩
    exact ⟨_, (ha s _).2 ⟨u, v ++ y, by simp [e], hp, rfl⟩, (hb _ _).2 ⟨v, y, rfl, hq, by simp⟩⟩

theorem Lang.alt {a b : Re κ} {P Q : Str → Prop} (ha : Lang a P) (hb : Lang b Q) :
    Lang (a ∣∣ b) (fun x => P x ∨ Q x) := by
  intro s t
  rw [mem_alt, ha s t, hb s t]
  constructor
  · rintro (⟨x, y, e, h, rfl⟩ | ⟨x, y, e, h, rfl⟩)
    · exact ⟨x, y, e, .inl h, rfl⟩
    · exact ⟨x, y, e, .inr h, rfl⟩
  · rintro ⟨x, y, e, h | h, rfl⟩
    · exact .inl ⟨x, y, e, h, rfl⟩
    · exact .inr ⟨x, y, e, h, rfl⟩

theorem lang_eps : Lang (.eps : Re κ) (fun x => x = []) := by
  intro s t
  rw [mem_eps]
  constructor
  · rintro rfl; exact ⟨[], t.rest, rfl, rfl, rfl⟩
  · rintro ⟨x, y, e, rfl, rfl⟩; cases s; simp at e; simp [e]

theorem Lang.opt {a : Re κ} {P : Str → Prop} (ha : Lang a P) : Lang (Regex.opt a) (fun x => P x ∨ x = []) :=
  Lang.alt ha lang_eps

theorem lang_fail : Lang (.fail : Re κ) (fun _ => False) := by
  intro s t; simp

theorem lang_cls (p : Char → Bool) : Lang (.cls p : Re κ) (fun x => ∃ c, x = [c] ∧ p c = true) := by
  intro s t
  rw [mem_cls]
  constructor
  · rintro ⟨c, cs, e, h, rfl⟩; exact ⟨[c], cs, e, ⟨c, rfl, h⟩, rfl⟩
  · rintro ⟨_, y, e, ⟨c, rfl, h⟩, rfl⟩; exact ⟨c, y, e, h, rfl⟩

theorem lang_ch (c : Char) : Lang (ch c : Re κ) (fun x => x = [c]) := by
  intro s t
  rw [mem_ch]
  constructor
  · rintro ⟨cs, e, rfl⟩; exact ⟨[c], cs, e, rfl, rfl⟩
  · rintro ⟨_, y, e, rfl, rfl⟩; exact ⟨y, e, rfl⟩

theorem lang_lit (a : Str) : Lang (lit a : Re κ) (fun x => x = a) := by
  intro s t
  rw [mem_lit]
  constructor
  · rintro ⟨r, e, rfl⟩; exact ⟨a, r, e, rfl, rfl⟩
  · rintro ⟨_, y, e, rfl, rfl⟩; exact ⟨y, e, rfl⟩

theorem lang_rep (p : Char → Bool) (n : Nat) (g : Bool) :
    Lang (.rep p n g : Re κ) (fun x => (∀ c ∈ x, p c = true) ∧ n ≤ x.length) := by
  intro s t
  rw [mem_rep']
  constructor
  · rintro ⟨w, r, e, h1, h2, rfl⟩; exact ⟨w, r, e, ⟨List.all_eq_true.1 h1, h2⟩, rfl⟩
  · rintro ⟨w, r, e, ⟨h1, h2⟩, rfl⟩; exact ⟨w, r, e, List.all_eq_true.2 h1, h2, rfl⟩

theorem Lang.congr {a : Re κ} {P Q : Str → Prop} (ha : Lang a P) (h : ∀ x, P x ↔ Q x) : Lang a Q := by
  have : P = Q := funext fun x => propext (h x)
  rw [← this]; exact ha

/-- a search succeeds if the expression matches somewhere -/
theorem search_isSome {r : Re κ} {v : Str} : (search r v).isSome = true ↔
    ∃ a b, v = a ++ b ∧ ∃ t, t ∈ run r ⟨a.reverse, b, []⟩ := by
  constructor
  · intro h
    cases hs : search r v with
    | none => rw [hs] at h; simp at h
    | some f =>
      obtain ⟨h1, w, h2, _, h4⟩ := searchFrom_some hs
      exact ⟨w, _, h2, f.st, by simpa using h4⟩
  · rintro ⟨a, b, e, t, ht⟩
    cases hs : search r v with
    | some f => rfl
    | none =>
      exfalso
      have key : ∀ (rest pre : Str), searchFrom r pre rest = none → ∀ a b, rest = a ++ b →
          run r ⟨a.reverse ++ pre, b, []⟩ = [] := by
        intro rest
        induction rest with
        | nil =>
          intro pre h a b e
          unfold searchFrom at h
          split at h
          · simp at h
          · rename_i hh
            simp at e
            rw [List.head?_eq_none_iff] at hh
            simpa [e.1, e.2] using hh
        | cons c cs ih =>
          intro pre h a b e
          unfold searchFrom at h
          split at h
          · simp at h
          · rename_i hh
            rw [List.head?_eq_none_iff] at hh
            simp only at h
            cases a with
            | nil => simp at e; simpa [← e] using hh
            | cons d ds =>
              simp at e
              have := ih (c :: pre) h ds b e.2
              simpa [e.1] using this
      have := key v [] hs a b e
      simp only [List.append_nil] at this
      rw [this] at ht
      cases ht

end Regex

namespace Specfile.Changelog
open Py Spec Regex

theorem lang_alts (l : List Str) : Lang (alts l) (fun x => x ∈ l) := by
  induction l with
  | nil => exact lang_fail.congr (by simp)
  | cons a l ih => exact ((lang_lit a).alt ih).congr (by simp)

theorem lang_oneOf (l : List Char) : Lang (oneOf l) (fun x => ∃ c ∈ l, x = [c]) := by
  refine (lang_cls _).congr ?_
  intro x
  simp only [List.contains_iff_mem]
  constructor
  · rintro ⟨c, rfl, h⟩; exact ⟨c, h, rfl⟩
  · rintro ⟨c, h, rfl⟩; exact ⟨c, rfl, h⟩

variable [Uni]

theorem lang_digit : Lang digit (fun x => ∃ c, x = [c] ∧ Uni.isDecimal c = true) := lang_cls _

theorem lang_day : Lang ((opt (oneOf ['1', '2']) ⬝ digit) ∣∣ (ch '3' ⬝ oneOf ['0', '1'])) DayText := by
  refine (((lang_oneOf _).opt.cat lang_digit).alt ((lang_ch _).cat (lang_oneOf _))).congr ?_
  intro x
  unfold DayText
  constructor
  · rintro (⟨u, v, (⟨c, hc, rfl⟩ | rfl), ⟨d, rfl, hd⟩, rfl⟩ | ⟨u, v, rfl, ⟨c, hc, rfl⟩, rfl⟩)
    · exact .inr (.inl ⟨c, d, rfl, by simpa using hc, hd⟩)
    · exact .inl ⟨d, rfl, hd⟩
    · simp at hc
      rcases hc with rfl | rfl
      · exact .inr (.inr (.inl rfl))
      · exact .inr (.inr (.inr rfl))
  · rintro (⟨c, rfl, h⟩ | ⟨a, c, rfl, ha, h⟩ | rfl | rfl)
    · exact .inl ⟨[], [c], .inr rfl, ⟨c, rfl, h⟩, rfl⟩
    · exact .inl ⟨[a], [c], .inl ⟨a, by simpa using ha, rfl⟩, ⟨c, rfl, h⟩, rfl⟩
    · exact .inr ⟨['3'], ['0'], rfl, ⟨'0', by simp, rfl⟩, rfl⟩
    · exact .inr ⟨['3'], ['1'], rfl, ⟨'1', by simp, rfl⟩, rfl⟩

theorem lang_hour : Lang ((oneOf ['0', '1'] ⬝ digit) ∣∣ (ch '2' ⬝ oneOf ['0', '1', '2', '3'])) HourText := by
  refine (((lang_oneOf _).cat lang_digit).alt ((lang_ch _).cat (lang_oneOf _))).congr ?_
  intro x
  unfold HourText
  constructor
  · rintro (⟨u, v, ⟨c, hc, rfl⟩, ⟨d, rfl, hd⟩, rfl⟩ | ⟨u, v, rfl, ⟨c, hc, rfl⟩, rfl⟩)
    · exact .inl ⟨c, d, rfl, by simpa using hc, hd⟩
    · simp at hc
      rcases hc with rfl | rfl | rfl | rfl <;> simp
  · rintro (⟨a, c, rfl, ha, h⟩ | rfl | rfl | rfl | rfl)
    · exact .inl ⟨[a], [c], ⟨a, by simpa using ha, rfl⟩, ⟨c, rfl, h⟩, rfl⟩
    · exact .inr ⟨['2'], ['0'], rfl, ⟨_, by simp, rfl⟩, rfl⟩
    · exact .inr ⟨['2'], ['1'], rfl, ⟨_, by simp, rfl⟩, rfl⟩
    · exact .inr ⟨['2'], ['2'], rfl, ⟨_, by simp, rfl⟩, rfl⟩
    · exact .inr ⟨['2'], ['3'], rfl, ⟨_, by simp, rfl⟩, rfl⟩

/-- `extended_timestamp` says whether there is an extended timestamp somewhere in the header. -/
theorem extended_iff {h : Str} : extended h = true ↔ ∃ a x b, h = a ++ (x ++ b) ∧ ExtendedStamp x := by
  unfold extended
  rw [search_isSome]
  have lr := (lang_alts weekdays).cat ((lang_ch ' ').cat ((lang_alts months).cat ((lang_rep (· == ' ') 1 true).cat
    (lang_day.cat ((lang_ch ' ').cat (lang_hour.cat ((lang_ch ':').cat
    ((lang_oneOf ['0', '1', '2', '3', '4', '5']).cat (lang_digit.cat ((lang_ch ':').cat
    ((lang_oneOf ['0', '1', '2', '3', '4', '5']).cat (lang_digit.cat ((lang_ch ' ').cat
    ((lang_rep nonSpace 1 true).cat ((lang_ch ' ').cat
    (lang_digit.cat (lang_digit.cat (lang_digit.cat lang_digit))))))))))))))))))
  constructor
  · rintro ⟨a, b, e, t, ht⟩
    obtain ⟨x, y, ex, hx, _⟩ := (lr _ _).1 ht
    simp only at ex
    refine ⟨a, x, y, by rw [e, ex], ?_⟩
    obtain ⟨wd, _, hwd, hx, rfl⟩ := hx
    obtain ⟨_, _, rfl, hx, rfl⟩ := hx
    obtain ⟨mo, _, hmo, hx, rfl⟩ := hx
    obtain ⟨sp, _, ⟨hsp1, hsp2⟩, hx, rfl⟩ := hx
    obtain ⟨day, _, hday, hx, rfl⟩ := hx
    obtain ⟨_, _, rfl, hx, rfl⟩ := hx
    obtain ⟨hh, _, hhh, hx, rfl⟩ := hx
    obtain ⟨_, _, rfl, hx, rfl⟩ := hx
    obtain ⟨_, _, ⟨m1, hm1, rfl⟩, hx, rfl⟩ := hx
    obtain ⟨_, _, ⟨m2, rfl, hm2⟩, hx, rfl⟩ := hx
    obtain ⟨_, _, rfl, hx, rfl⟩ := hx
    obtain ⟨_, _, ⟨s1, hs1, rfl⟩, hx, rfl⟩ := hx
    obtain ⟨_, _, ⟨s2, rfl, hs2⟩, hx, rfl⟩ := hx
    obtain ⟨_, _, rfl, hx, rfl⟩ := hx
    obtain ⟨tz, _, ⟨htz1, htz2⟩, hx, rfl⟩ := hx
    obtain ⟨_, _, rfl, hx, rfl⟩ := hx
    obtain ⟨_, _, ⟨y1, rfl, hy1⟩, hx, rfl⟩ := hx
    obtain ⟨_, _, ⟨y2, rfl, hy2⟩, hx, rfl⟩ := hx
    obtain ⟨_, _, ⟨y3, rfl, hy3⟩, ⟨y4, rfl, hy4⟩, rfl⟩ := hx
    refine ⟨wd, mo, sp, day, hh, [m1, m2], [s1, s2], tz, [y1, y2, y3, y4], hwd, hmo, ?_, ?_, hday, hhh,
      ⟨m1, m2, rfl, by simpa using hm1, hm2⟩, ⟨s1, s2, rfl, by simpa using hs1, hs2⟩, ⟨?_, ?_⟩, rfl, ?_, by simp⟩
    · rintro rfl; simp at hsp2
    · intro c hc; simpa using hsp1 c hc
    · rintro rfl; simp at htz2
    · intro c hc; simpa [nonSpace] using htz1 c hc
    · intro c hc; simp at hc; rcases hc with rfl | rfl | rfl | rfl <;> assumption
  · rintro ⟨a, x, b, e, hx⟩
    refine ⟨a, x ++ b, e, ⟨x.reverse ++ a.reverse, b, []⟩, (lr _ _).2 ⟨x, b, rfl, ?_, rfl⟩⟩
    obtain ⟨wd, mo, sp, day, hh, mm, ss, tz, yy, hwd, hmo, hsp1, hsp2, hday, hhh, ⟨m1, m2, rfl, hm1, hm2⟩,
      ⟨s1, s2, rfl, hs1, hs2⟩, ⟨htz1, htz2⟩, hyl, hy, rfl⟩ := hx
    match yy, hyl, hy with
    | [y1, y2, y3, y4], _, hy =>
      refine ⟨wd, _, hwd, ⟨_, _, rfl, ⟨mo, _, hmo, ⟨sp, _, ⟨?_, ?_⟩, ⟨day, _, hday, ⟨_, _, rfl, ⟨hh, _, hhh,
      ⟨_, _, rfl, ⟨_, _, ⟨m1, ?_, rfl⟩, ⟨_, _, ⟨m2, rfl, hm2⟩, ⟨_, _, rfl, ⟨_, _, ⟨s1, ?_, rfl⟩, ⟨_, _, ⟨s2, rfl, hs2⟩,
      ⟨_, _, rfl, ⟨tz, _, ⟨?_, ?_⟩, ⟨_, _, rfl, ⟨_, _, ⟨y1, rfl, hy _ (by simp)⟩, ⟨_, _, ⟨y2, rfl, hy _ (by simp)⟩,
      ⟨_, _, ⟨y3, rfl, hy _ (by simp)⟩, ⟨y4, rfl, hy _ (by simp)⟩, rfl⟩, rfl⟩, rfl⟩, rfl⟩, rfl⟩, rfl⟩, rfl⟩, rfl⟩, rfl⟩, rfl⟩, rfl⟩, rfl⟩, rfl⟩, rfl⟩, rfl⟩, rfl⟩, rfl⟩, rfl⟩, rfl⟩
      · intro c hc; simp [hsp2 c hc]
      · cases sp with
        | nil => exact absurd rfl hsp1
        | cons => simp
      · simpa using hm1
      · simpa using hs1
      · intro c hc; simp [nonSpace, htz2 c hc]
      · cases tz with
        | nil => exact absurd rfl htz1
        | cons => simp

/-! ### padding -/

def prefixRe : Re Nat := alts weekdays ⬝ ch ' ' ⬝ alts months ⬝ ch ' '

def dayRe : Re Nat :=
  (opt (.grp 2 (ch '0')) ⬝ digit) ∣∣ (oneOf ['1', '2'] ⬝ digit) ∣∣ (ch '3' ⬝ oneOf ['0', '1'])

theorem run_padding (s : St Nat) : run paddingRe s = (run prefixRe s).flatMap
    (run (.grp 1 (star (· == ' ')) ⬝ dayRe)) := by
  unfold paddingRe prefixRe dayRe
  simp only [run_cat, List.flatMap_assoc]
  rfl

/-- weekday and month with their blanks -/
def Pfx (x : Str) : Prop := ∃ wd mo, wd ∈ stampWeekdays ∧ mo ∈ stampMonths ∧ x = wd ++ (' ' :: (mo ++ [' ']))

omit [Uni] in
theorem pfx_length {x : Str} (h : Pfx x) : x.length = 8 := by
  obtain ⟨wd, mo, h1, h2, rfl⟩ := h
  have a : ∀ w ∈ stampWeekdays, w.length = 3 := by decide
  have b : ∀ w ∈ stampMonths, w.length = 3 := by decide
  simp [a wd h1, b mo h2]

omit [Uni] in
theorem lang_prefix : Lang prefixRe Pfx := by
  refine ((lang_alts _).cat ((lang_ch _).cat ((lang_alts _).cat (lang_ch _)))).congr ?_
  intro x
  constructor
  · rintro ⟨wd, _, h1, ⟨_, _, rfl, ⟨mo, _, h2, rfl, rfl⟩, rfl⟩, rfl⟩
    exact ⟨wd, mo, h1, h2, rfl⟩
  · rintro ⟨wd, mo, h1, h2, rfl⟩
    exact ⟨wd, _, h1, ⟨_, _, rfl, ⟨mo, _, h2, rfl, rfl⟩, rfl⟩, rfl⟩

theorem decimal_not_space {c : Char} (h : Uni.isDecimal c = true) : isSpace c = false :=
  Uni.alnum_not_space _ (Uni.numeric_alnum _ (Uni.decimal_numeric _ h))

theorem decimal_digit {c : Char} (h : c ∈ ['0', '1', '2', '3']) : Uni.isDecimal c = true := by
  apply isDecimal_of_asciiDigit
  simp at h
  rcases h with rfl | rfl | rfl | rfl <;> decide

/-- padding read from a match -/
def padOf (t : St Nat) : Str := (t.get 1).getD [] ++ (t.get 2).getD []

omit [Uni] in
theorem mem_opt_grp {s u : St Nat} (h : u ∈ run (opt (.grp 2 (ch '0'))) s) :
    u = s ∨ ∃ r, s.rest = '0' :: r ∧ u = ⟨'0' :: s.pre, r, (2, ['0']) :: s.caps⟩ := by
  rw [mem_opt] at h
  rcases h with h | rfl
  · right
    rw [mem_grp] at h
    obtain ⟨v, w, hv, e, rfl⟩ := h
    rw [mem_ch] at hv
    obtain ⟨cs, e2, rfl⟩ := hv
    refine ⟨cs, e2, ?_⟩
    simp only at e
    rw [e2] at e
    have : w = ['0'] := by
      have : ['0'] ++ cs = w ++ cs := e
      exact (List.append_cancel_right this).symm
    rw [this]
  · exact .inl rfl

/-- the day must start with a digit -/
theorem mem_day {s t : St Nat} (h : t ∈ run dayRe s) : ∃ d r, s.rest = d :: r ∧ Uni.isDecimal d = true := by
  unfold dayRe at h
  rw [mem_alt, mem_alt] at h
  rcases h with h | h | h
  · rw [mem_cat] at h
    obtain ⟨u, h1, h2⟩ := h
    obtain ⟨x, y, e, ⟨c, rfl, hc⟩, _⟩ := (lang_digit u t).1 h2
    rcases mem_opt_grp h1 with rfl | ⟨r, e2, rfl⟩
    · exact ⟨c, y, e, hc⟩
    · exact ⟨'0', r, e2, decimal_digit (by simp)⟩
  · obtain ⟨x, y, e, ⟨_, _, ⟨c, hc, rfl⟩, _, rfl⟩, _⟩ := ((lang_oneOf _).cat lang_digit s t).1 h
    exact ⟨c, _, e, decimal_digit (by simp at hc ⊢; rcases hc with rfl | rfl <;> simp)⟩
  · obtain ⟨x, y, e, ⟨_, _, rfl, _, rfl⟩, _⟩ := ((lang_ch _).cat (lang_oneOf _) s t).1 h
    exact ⟨'3', _, e, decimal_digit (by simp)⟩

theorem head_day {s : St Nat} {d : Char} {r : Str} (hr : s.rest = d :: r) (hd : Uni.isDecimal d = true)
    (h2 : s.get 2 = none) : ∃ t, (run dayRe s).head? = some t ∧ t.get 1 = s.get 1 ∧
      t.get 2 = if d = '0' ∧ ∃ c, r.head? = some c ∧ Uni.isDecimal c = true then some ['0'] else none := by
  unfold dayRe
  rw [run_alt, run_opt_cat]
  have hdig : (run digit s).head? = some ⟨d :: s.pre, r, s.caps⟩ := by
    simp [digit, run, hr, hd]
  have hg : run (.grp 2 (ch '0') ⬝ digit) s = if d = '0' then
      run digit ⟨'0' :: s.pre, r, (2, ['0']) :: s.caps⟩ else [] := by
    rw [run_grp_cat]
    simp only [ch, run, hr]
    by_cases h0 : d = '0'
    · subst h0
      simp
    · simp [h0]
  rw [hg]
  by_cases hz : d = '0' ∧ ∃ c, r.head? = some c ∧ Uni.isDecimal c = true
  · rw [if_pos hz.1]
    obtain ⟨rfl, c, hc, hcd⟩ := hz
    cases r with
    | nil => simp at hc
    | cons c' r' =>
      simp at hc
      subst hc
      refine ⟨⟨c' :: '0' :: s.pre, r', (2, ['0']) :: s.caps⟩, ?_, ?_, ?_⟩
      · simp [digit, run, hcd]
      · rw [get_cons_ne (by decide)]; rfl
      · rw [get_cons, if_pos ⟨rfl, c', rfl, hcd⟩]
  · rw [if_neg hz]
    have hn : (if d = '0' then run digit ⟨'0' :: s.pre, r, (2, ['0']) :: s.caps⟩ else []) = ([] : List (St Nat)) := by
      split
      · rename_i h0
        cases r with
        | nil => rfl
        | cons c r' =>
          have : Uni.isDecimal c = false := by
            cases hcd : Uni.isDecimal c with
            | false => rfl
            | true => exact absurd ⟨h0, c, rfl, hcd⟩ hz
          simp [digit, run, this]
      · rfl
    rw [hn, List.nil_append]
    exact ⟨_, head_append_left hdig, rfl, h2⟩

theorem padding_at {a x p : Str} (h : PaddedAt x p) :
    ∃ t, (run paddingRe ⟨a.reverse, x, []⟩).head? = some t ∧ padOf t = p := by
  obtain ⟨wd, mo, sp, d, r, hwd, hmo, hsp, hd, ex, hp⟩ := h
  have hP : Pfx (wd ++ (' ' :: (mo ++ [' ']))) := ⟨wd, mo, hwd, hmo, rfl⟩
  have hres : ∀ u : St Nat, u.rest = sp ++ d :: r → u.caps = [] →
      ((run (.grp 1 (star (· == ' ')) ⬝ dayRe) u).head?.bind (fun t => some (padOf t))) = some p := by
    intro u hu hc
    obtain ⟨t, ht, g1, g2⟩ := head_day (s := ⟨sp.reverse ++ u.pre, d :: r, (1, sp) :: u.caps⟩) rfl hd (by
      rw [hc]; rfl)
    have := head_grp_greedy (k := 1) (p := (· == ' ')) (n := 0) (X := dayRe) (s := u) (w := sp) (r' := d :: r)
      (t := t) hu (by rw [List.all_eq_true]; intro c hc; simp [hsp c hc]) (Nat.zero_le _) (by
        intro c hc
        simp at hc
        subst hc
        rw [beq_eq_false_iff_ne]
        rintro rfl
        exact absurd (decimal_not_space hd) (by decide)) ht
    rw [show star (· == ' ') = (.rep (· == ' ') 0 true : Re Nat) from rfl, this]
    simp only [Option.bind_some, padOf, g1, g2, get_cons]
    congr 1
    rcases hp with ⟨rfl, h⟩ | ⟨rfl, h⟩
    · rw [if_pos h]; rfl
    · rw [if_neg h]; simp
  have hall : ∀ u ∈ run prefixRe (⟨a.reverse, x, []⟩ : St Nat), u.rest = sp ++ d :: r ∧ u.caps = [] := by
    intro u hu
    obtain ⟨x', y', e, hx', rfl⟩ := (lang_prefix _ _).1 hu
    simp only at e
    refine ⟨?_, rfl⟩
    rw [ex] at e
    have e' : (wd ++ (' ' :: (mo ++ [' ']))) ++ (sp ++ d :: r) = x' ++ y' := by rw [← e]; simp
    exact (List.append_inj e' (by rw [pfx_length hP, pfx_length hx'])).2.symm
  have hne : (⟨(wd ++ (' ' :: (mo ++ [' ']))).reverse ++ a.reverse, sp ++ d :: r, []⟩ : St Nat) ∈
      run prefixRe ⟨a.reverse, x, []⟩ := (lang_prefix _ _).2 ⟨_, _, by simp [ex], hP, rfl⟩
  have := head_agree (l := run prefixRe (⟨a.reverse, x, []⟩ : St Nat))
    (f := run (.grp 1 (star (· == ' ')) ⬝ dayRe)) (g := fun t => some (padOf t)) (e := some p)
    (fun u hu => .inr (hres u (hall u hu).1 (hall u hu).2))
    ⟨_, hne, by
      intro hn
      have := hres _ (hall _ hne).1 (hall _ hne).2
      rw [hn] at this
      simp at this⟩
  rw [run_padding]
  rw [Option.bind_eq_some_iff] at this
  obtain ⟨t, ht, hp⟩ := this
  exact ⟨t, ht, by simpa using hp⟩

theorem padding_at_nil {a x : Str} (h : ∀ p, ¬ PaddedAt x p) : run paddingRe (⟨a.reverse, x, []⟩ : St Nat) = [] := by
  rw [run_eq_nil_iff]
  intro t ht
  rw [run_padding, List.mem_flatMap] at ht
  obtain ⟨u, hu, ht⟩ := ht
  obtain ⟨x', y', e, ⟨wd, mo, h1, h2, rfl⟩, rfl⟩ := (lang_prefix _ _).1 hu
  rw [mem_cat] at ht
  obtain ⟨v, hv, ht⟩ := ht
  rw [star, mem_grp_rep] at hv
  obtain ⟨sp, r, e2, hsp, _, rfl⟩ := hv
  obtain ⟨d, r', e3, hd⟩ := mem_day ht
  simp only at e e2 e3
  have ex : x = wd ++ (' ' :: (mo ++ (' ' :: (sp ++ d :: r')))) := by rw [e, e2, e3]; simp
  have hs : ∀ c ∈ sp, c = ' ' := by intro c hc; simpa using List.all_eq_true.1 hsp c hc
  by_cases hz : d = '0' ∧ ∃ c, r'.head? = some c ∧ Uni.isDecimal c = true
  · exact h _ ⟨wd, mo, sp, d, r', h1, h2, hs, hd, ex, .inl ⟨rfl, hz⟩⟩
  · exact h _ ⟨wd, mo, sp, d, r', h1, h2, hs, hd, ex, .inr ⟨rfl, hz⟩⟩

theorem padding_of {h p : Str} (hp : PaddingOf h p) : padding h = p := by
  rcases hp with ⟨a, x, e, hx, hfirst⟩ | ⟨rfl, hn⟩
  · obtain ⟨t, ht, hp⟩ := padding_at (a := a) hx
    unfold padding search
    rw [e, MacroDefinitions.searchFrom_first (t := t) ?_ (by simpa using ht)]
    · exact hp
    · intro a' b' e' hb
      rw [List.append_nil]
      apply padding_at_nil
      apply hfirst a' (b' ++ x) (by rw [e, e']; simp)
      rw [e']
      cases b' with
      | nil => exact absurd rfl hb
      | cons => simp
  · unfold padding search
    rw [MacroDefinitions.searchFrom_none]
    intro a b e
    rw [List.append_nil]
    exact padding_at_nil (hn a b e)

/-- the first position with a property -/
theorem paddingOf_exists (h : Str) : ∃ p, PaddingOf h p := by
  by_cases hex : ∃ n, ∃ a x p, h = a ++ x ∧ a.length = n ∧ PaddedAt x p
  · have key : ∀ n, (∃ a x p, h = a ++ x ∧ a.length = n ∧ PaddedAt x p) →
        ∃ m, (∃ a x p, h = a ++ x ∧ a.length = m ∧ PaddedAt x p) ∧
          ∀ k < m, ¬ ∃ a x p, h = a ++ x ∧ a.length = k ∧ PaddedAt x p := by
      intro n
      induction n using Nat.strongRecOn with
      | _ n ih =>
        intro hn
        by_cases hk : ∃ k < n, ∃ a x p, h = a ++ x ∧ a.length = k ∧ PaddedAt x p
        · obtain ⟨k, hk, h'⟩ := hk; exact ih k hk h'
        · exact ⟨n, hn, fun k hk' h' => hk ⟨k, hk', h'⟩⟩
    obtain ⟨n, hn⟩ := hex
    obtain ⟨m, ⟨a, x, p, e, hl, hp⟩, hmin⟩ := key n hn
    refine ⟨p, .inl ⟨a, x, e, hp, ?_⟩⟩
    intro a' x' e' hlt q hq
    exact hmin a'.length (by omega) ⟨a', x', q, e', rfl, hq⟩
  · exact ⟨[], .inr ⟨rfl, fun a x e q hq => hex ⟨a.length, a, x, q, e, rfl, hq⟩⟩⟩

/-- `day_of_month_padding` is the padding of the first date in the header. -/
theorem padding_iff {h p : Str} : padding h = p ↔ PaddingOf h p := by
  constructor
  · rintro rfl
    obtain ⟨q, hq⟩ := paddingOf_exists h
    rw [padding_of hq]
    exact hq
  · exact padding_of

end Specfile.Changelog
