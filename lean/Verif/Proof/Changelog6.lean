import Verif.Proof.Changelog5
/-
Assembled changelog entries.
-/
namespace Specfile.Changelog
open Py Spec Regex

theorem longestFrom_spec (a : Str) (l : List Str) : ∃ p q, a :: l = p ++ longestFrom a l :: q ∧
    (∀ x ∈ p, x.length < (longestFrom a l).length) ∧ (∀ x ∈ q, x.length ≤ (longestFrom a l).length) := by
  induction l generalizing a with
  | nil => exact ⟨[], [], rfl, by simp, by simp⟩
  | cons b l ih =>
    unfold longestFrom
    split
    · rename_i hlt
      obtain ⟨p, q, e, h1, h2⟩ := ih b
      refine ⟨a :: p, q, by rw [e]; rfl, ?_, h2⟩
      intro x hx
      rcases List.mem_cons.1 hx with rfl | hx
      · cases p with
        | nil => simp at e; rw [← e.1]; exact hlt
        | cons y p =>
          simp at e
          have := h1 y (by simp)
          rw [← e.1] at this
          omega
      · exact h1 x hx
    · rename_i hlt
      obtain ⟨p, q, e, h1, h2⟩ := ih a
      cases p with
      | nil =>
        simp at e
        rw [← e.1] at h2 ⊢
        refine ⟨[], b :: l, rfl, by simp, ?_⟩
        intro x hx
        rcases List.mem_cons.1 hx with rfl | hx
        · omega
        · exact h2 x (by rw [← e.2]; exact hx)
      | cons y p =>
        simp only [List.cons_append, List.cons.injEq] at e
        have hy := h1 y (by simp)
        rw [← e.1] at hy
        refine ⟨a :: b :: p, q, by rw [List.cons_append, List.cons_append, ← e.2], ?_, h2⟩
        · intro x hx
          rcases List.mem_cons.1 hx with rfl | hx
          · exact hy
          · rcases List.mem_cons.1 hx with rfl | hx
            · omega
            · exact h1 x (by simp [hx])

/-- the first one of the longest -/
theorem longest_spec {l : List Str} (h : l ≠ []) : ∃ a b, l = a ++ longest l :: b ∧
    (∀ x ∈ a, x.length < (longest l).length) ∧ (∀ x ∈ b, x.length ≤ (longest l).length) := by
  cases l with
  | nil => exact absurd rfl h
  | cons a l => exact longestFrom_spec a l

/-- blanks, then possibly a zero -/
def PadText (p : Str) : Prop := ∃ sp, (∀ c ∈ sp, c = ' ') ∧ (p = sp ∨ p = sp ++ ['0'])

def dayCheck (n : Nat) : Bool :=
  match natStr n with
  | [] => false
  | [d] => isAsciiDigit d && d != '0' && decide (n < 10)
  | [d, c] => isAsciiDigit d && d != '0' && decide (10 ≤ n) && isAsciiDigit c &&
      (d == '1' || d == '2' || (d == '3' && (c == '0' || c == '1')))
  | _ => false

theorem natStr_day : ∀ n, n < 32 → 1 ≤ n → ∃ d r, natStr n = d :: r ∧ isAsciiDigit d = true ∧ d ≠ '0' ∧
    (n < 10 → r = []) ∧ (10 ≤ n → ∃ c, r = [c] ∧ isAsciiDigit c = true ∧ (d = '1' ∨ d = '2' ∨ (d = '3' ∧ (c = '0' ∨ c = '1')))) := by
  intro n h1 h2
  have key := (by decide +kernel : ∀ n < 32, 1 ≤ n → dayCheck n = true) n h1 h2
  unfold dayCheck at key
  split at key
  · cases key
  · rename_i d e
    simp at key
    exact ⟨d, [], e, key.1.1, key.1.2, fun _ => rfl, fun h => by omega⟩
  · rename_i d c e
    simp at key
    obtain ⟨⟨⟨⟨a, b⟩, h10⟩, hc⟩, hd⟩ := key
    exact ⟨d, [c], e, a, b, fun h => by omega, fun _ => ⟨c, rfl, hc, or_assoc.1 hd⟩⟩
  · cases key

theorem weekday_mem {n : Nat} (h : n < 7) : weekdays.getD n [] ∈ stampWeekdays := by
  revert n; decide
theorem month_mem {n : Nat} (h : n < 12) : months.getD n [] ∈ stampMonths := by
  revert n; decide

variable [Uni]

theorem stamp_start {x : Str} {p : Str} (h : PaddedAt x p) : ∃ c, x.head? = some c ∧ isAsciiUpper c = true := by
  obtain ⟨wd, mo, sp, d, r, hwd, _, _, _, rfl, _⟩ := h
  have : ∀ w ∈ stampWeekdays, ∃ c, w.head? = some c ∧ isAsciiUpper c = true := by
    intro w hw
    have : ∀ w ∈ stampWeekdays, w.head?.any isAsciiUpper = true := by decide
    have := this w hw
    cases hh : w.head? with
    | none => rw [hh] at this; simp at this
    | some c => rw [hh] at this; exact ⟨c, rfl, by simpa using this⟩
  obtain ⟨c, hc, hu⟩ := this wd hwd
  refine ⟨c, ?_, hu⟩
  cases wd with
  | nil => simp at hc
  | cons => simpa using hc

/-- the day with its padding, as it is written -/
def dayText (pad : Str) (day : Nat) : Str :=
  if endsWith pad ['0'] then pad.dropLast ++ two day else pad ++ natStr day

omit [Uni] in
theorem dateStr_eq (t : Timestamp) (pad : Str) : dateStr t pad = s% "* " ++ (weekdays.getD t.weekday [] ++
    (' ' :: (months.getD t.month [] ++ (' ' :: dayText pad t.day)))) := by
  unfold dateStr dayText
  split <;> simp

omit [Uni] in
theorem endsWith_zero {sp : Str} (h : ∀ c ∈ sp, c = ' ') : endsWith sp ['0'] = false ∧ endsWith (sp ++ ['0']) ['0'] = true := by
  constructor
  · cases hs : endsWith sp ['0'] with
    | false => rfl
    | true =>
      unfold endsWith at hs
      rw [List.isSuffixOf_iff_suffix] at hs
      obtain ⟨a, e⟩ := hs
      have := h '0' (by rw [← e]; simp)
      exact absurd this (by decide)
  · unfold endsWith
    rw [List.isSuffixOf_iff_suffix]
    exact ⟨sp, rfl⟩

/-- what `day_of_month_padding` says about a written date -/
theorem padding_date {t : Timestamp} {sp pad rest : Str} (ht : GoodStamp t) (hsp : ∀ c ∈ sp, c = ' ')
    (hp : pad = sp ∨ pad = sp ++ ['0']) :
    padding (dateStr t pad ++ rest) = if pad = sp ++ ['0'] ∧ 10 ≤ t.day then sp else pad := by
  rw [padding_iff]
  left
  refine ⟨s% "* ", weekdays.getD t.weekday [] ++ (' ' :: (months.getD t.month [] ++ (' ' :: (dayText pad t.day ++ rest)))),
    by rw [dateStr_eq]; simp, ?_, ?_⟩
  · obtain ⟨d, r, en, hd, hd0, h1, h2⟩ := natStr_day t.day (by have := ht.day; omega) ht.day.1
    have hdec := isDecimal_of_asciiDigit hd
    rcases hp with rfl | rfl
    · have hne : ¬ (pad = pad ++ ['0'] ∧ 10 ≤ t.day) := by rintro ⟨h, _⟩; simp at h
      rw [if_neg hne]
      refine ⟨_, _, pad, d, r ++ rest, weekday_mem ht.weekday, month_mem ht.month, hsp, hdec, ?_, .inr ⟨rfl, ?_⟩⟩
      · unfold dayText
        rw [(endsWith_zero hsp).1, if_neg (by simp), en]
        simp
      · rintro ⟨h, _⟩; exact hd0 h
    · by_cases hday : 10 ≤ t.day
      · rw [if_pos ⟨rfl, hday⟩]
        refine ⟨_, _, sp, d, r ++ rest, weekday_mem ht.weekday, month_mem ht.month, hsp, hdec, ?_, .inr ⟨rfl, ?_⟩⟩
        · unfold dayText
          rw [(endsWith_zero hsp).2, if_pos rfl, List.dropLast_concat]
          unfold two
          rw [if_neg (by omega), en]
          simp
        · rintro ⟨h, _⟩; exact hd0 h
      · rw [if_neg (fun h => hday h.2)]
        refine ⟨_, _, sp, '0', d :: (r ++ rest), weekday_mem ht.weekday, month_mem ht.month, hsp,
          decimal_digit (by simp), ?_, .inl ⟨rfl, rfl, d, rfl, hdec⟩⟩
        unfold dayText
        rw [(endsWith_zero hsp).2, if_pos rfl, List.dropLast_concat]
        unfold two
        rw [if_pos (by omega), en]
        simp
  · intro a' x' e hl q hq
    obtain ⟨c, hc, hu⟩ := stamp_start hq
    have hl2 : a'.length < 2 := by simpa using hl
    match a', hl2 with
    | [], _ =>
      rw [dateStr_eq] at e
      simp at e
      rw [← e] at hc
      simp at hc
      rw [← hc] at hu
      exact absurd hu (by decide)
    | [x], _ =>
      rw [dateStr_eq] at e
      simp at e
      rw [← e.2] at hc
      simp at hc
      rw [← hc] at hu
      exact absurd hu (by decide)

def hourCheck (n : Nat) : Bool :=
  match two n with
  | [a, c] => ((a == '0' || a == '1') && isAsciiDigit c) || (a == '2' && (c == '0' || c == '1' || c == '2' || c == '3'))
  | _ => false

theorem hour_text : ∀ h, h < 24 → HourText (two h) := by
  intro h hh
  have key := (by decide +kernel : ∀ h < 24, hourCheck h = true) h hh
  unfold hourCheck at key
  split at key
  · rename_i a c e
    rw [e]
    simp at key
    rcases key with ⟨ha, hc⟩ | ⟨rfl, hc⟩
    · exact .inl ⟨a, c, rfl, ha, isDecimal_of_asciiDigit hc⟩
    · right; rcases hc with ((rfl | rfl) | rfl) | rfl <;> simp
  · cases key

def minuteCheck (n : Nat) : Bool :=
  match two n with
  | [a, c] => (a == '0' || a == '1' || a == '2' || a == '3' || a == '4' || a == '5') && isAsciiDigit c
  | _ => false

theorem minute_text : ∀ m, m < 60 → MinuteText (two m) := by
  intro h hh
  have key := (by decide +kernel : ∀ h < 60, minuteCheck h = true) h hh
  unfold minuteCheck at key
  split at key
  · rename_i a c e
    rw [e]
    simp at key
    refine ⟨a, c, rfl, ?_, isDecimal_of_asciiDigit key.2⟩
    rcases key.1 with ((((h | h) | h) | h) | h) | h <;> simp [h]
  · cases key

omit [Uni] in
theorem natStr_length_year {n : Nat} (h1 : 1000 ≤ n) (h2 : n ≤ 9999) : (natStr n).length = 4 := by
  obtain ⟨k, rfl⟩ : ∃ k, n = k + 3 := ⟨n - 3, by omega⟩
  unfold natStr
  rw [natStrF, if_neg (by omega), natStrF, if_neg (by omega), natStrF, if_neg (by omega), natStrF, if_pos (by omega)]
  rfl

/-- an extended timestamp is recognised unless the day is padded with a zero -/
theorem extended_stamp {t : Timestamp} {sp pad rest : Str} {h m s : Nat} {z : Str} (ht : GoodStamp t)
    (htime : t.time = some (h, m, s, z)) (hsp : ∀ c ∈ sp, c = ' ')
    (hp : pad = sp ∨ (pad = sp ++ ['0'] ∧ 10 ≤ t.day)) :
    extended (dateStr t pad ++ timeStr t.time ++ ' ' :: natStr t.year ++ rest) = true := by
  rw [extended_iff]
  obtain ⟨hh, hm, hs, hz⟩ := ht.time h m s z htime
  obtain ⟨d, r, en, hd, hd0, h1, h2⟩ := natStr_day t.day (by have := ht.day; omega) ht.day.1
  have hday : DayText (natStr t.day) := by
    rw [en]
    by_cases h10 : 10 ≤ t.day
    · obtain ⟨c, rfl, hc, hdc⟩ := h2 h10
      rcases hdc with rfl | rfl | ⟨rfl, rfl | rfl⟩
      · exact .inr (.inl ⟨'1', c, rfl, .inl rfl, isDecimal_of_asciiDigit hc⟩)
      · exact .inr (.inl ⟨'2', c, rfl, .inr rfl, isDecimal_of_asciiDigit hc⟩)
      · exact .inr (.inr (.inl rfl))
      · exact .inr (.inr (.inr rfl))
    · rw [h1 (by omega)]
      exact .inl ⟨d, rfl, isDecimal_of_asciiDigit hd⟩
  have hdt : dayText pad t.day = sp ++ natStr t.day := by
    unfold dayText
    rcases hp with rfl | ⟨rfl, h10⟩
    · rw [(endsWith_zero hsp).1, if_neg (by simp)]
    · rw [(endsWith_zero hsp).2, if_pos rfl, List.dropLast_concat]
      unfold two
      rw [if_neg (by omega)]
  refine ⟨s% "* ", _, rest, ?_, weekdays.getD t.weekday [], months.getD t.month [], ' ' :: sp, natStr t.day, two h, two m,
    two s, z, natStr t.year, weekday_mem ht.weekday, month_mem ht.month, by simp, ?_, hday, hour_text h hh, minute_text m hm,
    minute_text s hs, hz, natStr_length_year ht.year.1 ht.year.2, ?_, rfl⟩
  · rw [dateStr_eq, hdt, htime]
    simp [timeStr]
  · intro c hc
    rcases List.mem_cons.1 hc with rfl | hc
    · rfl
    · exact hsp c hc
  · intro c hc
    exact List.all_eq_true.1 (natStr_decimal t.year) c hc

end Specfile.Changelog
