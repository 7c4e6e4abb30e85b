import Verif.Proof.Release3
import Verif.Props.ValueParser
/-
Properties of releases: C35, C36 and C51.
-/
namespace Specfile.Props
open Py Spec Release ValueParser

/-! ### C35 -/

/-- A raw release is split into release, dist tag and minor bump exactly as its text says; there is only one
way to read it. -/
theorem C35_split_dist [Uni] (raw r d : Str) (n : Option Nat) :
    splitRaw raw = (r, some d, n) ↔ ∃ minor, DistRelease raw r d minor ∧ n = minor.map decVal := by
  constructor
  · intro h
    by_cases hd : HasDist raw
    · obtain ⟨r', d', m', hd⟩ := hd
      rw [splitRaw_dist hd] at h
      simp only [Prod.mk.injEq, Option.some.injEq] at h
      obtain ⟨rfl, rfl, rfl⟩ := h
      exact ⟨m', hd, rfl⟩
    · rw [splitRaw_none hd] at h
      simp at h
  · rintro ⟨m, hd, rfl⟩
    exact splitRaw_dist hd

/-- A raw release without a dist tag at its end is the release itself. -/
theorem C35_split_plain [Uni] (raw : Str) : splitRaw raw = (raw, none, none) ↔ ¬ HasDist raw := by
  refine ⟨?_, splitRaw_none⟩
  rintro h ⟨r, d, m, hd⟩
  rw [splitRaw_dist hd] at h
  simp at h

/-- When the raw release has a dist tag, setting any release keeps that tag, drops the minor bump and reads
back. -/
theorem C35_set_keeps_dist [Uni] {raw r d : Str} {minor : Option Str} (h : DistRelease raw r d minor) (R : Str) :
    updated raw R = R ++ d ∧ splitRaw (updated raw R) = (R, some d, none) := by
  rw [updated_dist h]
  refine ⟨rfl, splitRaw_dist (m := none) ⟨h.1, by simp, [], by simp [finalNewline], by simp [minorText]⟩⟩

/-- Without a dist tag, a release that has none either is stored as it is and reads back. -/
theorem C35_set_plain [Uni] {raw R : Str} (h : ¬ HasDist raw) (hR : ¬ HasDist R) :
    updated raw R = R ∧ splitRaw (updated raw R) = (R, none, none) := by
  rw [updated_none h]
  exact ⟨rfl, splitRaw_none hR⟩

/-- In both cases the release reads back. -/
theorem C35_reads_back [Uni] {raw R : Str} (hR : ¬ HasDist R) : (splitRaw (updated raw R)).1 = R := by
  by_cases h : HasDist raw
  · obtain ⟨r, d, m, h⟩ := h
    rw [(C35_set_keeps_dist h R).2]
  · rw [(C35_set_plain h hR).2]

section
attribute [local instance] asciiUni
example : DistRelease (s% "0.3.rc1%{?dist}.12") (s% "0.3.rc1") (s% "%{?dist}") (some (s% "12")) :=
  ⟨by decide, by intro ds h; cases h; exact ⟨by decide, by decide⟩, [], by decide, by decide⟩
example : splitRaw (s% "0.3.rc1%{?dist}.12") = (s% "0.3.rc1", some (s% "%{?dist}"), some 12) := by decide +kernel
example : updated (s% "0.3.rc1%{?dist}.12") (s% "4") = s% "4%{?dist}" := by decide +kernel
example : updated (s% "3%dist") (s% "4%{dist}") = s% "4%{dist}%dist" := by decide +kernel
example : splitRaw (s% "3%{dist") = (s% "3%{dist", none, none) := by decide +kernel
/-- A dist tag in the new release is not read back when the old one had none. -/
theorem C35_own_dist_violation : ∃ (u : Uni) (raw R : Str), (@splitRaw u (@updated u raw R)).1 ≠ R :=
  ⟨asciiUni, s% "1", s% "2%{?dist}", by decide +kernel⟩
end

/-! ### C36 -/

/-- Bumping is exactly what the specification says: the leading number, else the trailing one, else `.1`. -/
theorem C36_bump [Uni] (s s' : Str) : bump s = s' ↔ Bumped s s' := bump_iff

/-- Exactly one whole number is incremented and everything else is kept up to a final line feed, or `.1` is
appended. -/
theorem C36_one_number_partial [Uni] (s : Str) : bump s = s ++ s% ".1" ∨
    ∃ a ds b nl, nl ∈ finalNewline ∧ s = a ++ (ds ++ (b ++ nl)) ∧ Digits ds ∧
      (∀ c ∈ a.getLast?, Uni.isDecimal c = false) ∧ (∀ c ∈ b.head?, Uni.isDecimal c = false) ∧
      bump s = a ++ (natStr (decVal ds + 1) ++ b) := by
  have h := bump_iff.1 (rfl : bump s = bump s)
  generalize bump s = s' at h
  cases h with
  | append _ _ => exact Or.inl rfl
  | @leading f p ds post h hb =>
    right
    obtain ⟨nl, hn, e⟩ := h.text
    refine ⟨f ++ p, ds, post, nl, hn, by rw [e]; simp, h.digits, ?_, h.whole, by simp⟩
    intro c hc
    rw [List.getLast?_append] at hc
    rcases h.pre with rfl | rfl
    · rcases h.func with rfl | ⟨w, rfl, hw, hs⟩
      · simp at hc
      · simp only [List.getLast?_nil, Option.none_or, List.getLast?_append] at hc
        rcases List.eq_nil_or_concat w with rfl | ⟨q, z, rfl⟩
        · exact absurd rfl hw
        · simp at hc
          subst hc
          have := List.all_eq_true.1 hs z (by simp)
          cases hz : Uni.isDecimal z with
          | false => rfl
          | true => rw [decimal_not_space hz] at this; cases this
    · simp at hc
      subst hc
      rw [Uni.decimal_ascii _ (by decide)]; decide
  | @trailing a ds _ h =>
    right
    obtain ⟨-, -, hd, nl, hn, e⟩ := h
    refine ⟨a ++ ['.'], ds, [], nl, hn, by rw [e]; simp, hd, ?_, by simp, by simp⟩
    intro c hc
    simp at hc
    subst hc
    rw [Uni.decimal_ascii _ (by decide)]; decide

/-- The leading number is incremented again by the next bump. -/
theorem C36_again [Uni] {s f p ds post : Str} (h : Leading s f p ds post) (hb : MayBumpLeading p post) :
    bump (bump s) = f ++ (p ++ (natStr (decVal ds + 2) ++ post)) := by
  rw [bump_leading h hb]
  have hd : Digits (natStr (decVal ds + 1)) := ⟨natStr_ne_nil _, natStr_decimal _⟩
  have : Leading (f ++ (p ++ (natStr (decVal ds + 1) ++ post))) f p (natStr (decVal ds + 1)) post := by
    refine ⟨⟨[], by simp [finalNewline], by simp⟩, h.func, h.pre, hd, h.whole, ?_, h.line⟩
    rintro - ⟨c, t, e, -⟩
    have hv := decVal_natStr (decVal ds + 1)
    obtain ⟨x, y, ex, hx⟩ := digits_cons hd
    have hall := natStr_digits (decVal ds + 1)
    rw [ex] at e hall hv
    simp only [List.cons_append, List.cons.injEq] at e
    obtain ⟨rfl, e⟩ := e
    cases y with
    | nil => simp [decVal, Uni.decimalVal_ascii '0' (by decide)] at hv
    | cons z y =>
      simp only [List.cons_append, List.cons.injEq] at e
      have := hall z (by simp)
      rw [e.1] at this
      exact absurd this (by decide)
  rw [bump_leading this hb, decVal_natStr]

section
attribute [local instance] asciiUni
example : Leading (s% "%release_func 9.el8") (s% "%release_func ") [] (s% "9") (s% ".el8") :=
  ⟨⟨[], by decide, by decide⟩, Or.inr ⟨[' '], by decide, by decide, by decide⟩, Or.inl rfl,
    ⟨by decide, by decide⟩, by decide, by rintro - ⟨c, t, e, -⟩; simp at e, by decide⟩
example : MayBumpLeading [] (s% ".el8") := Or.inr (by decide)
example : bump (s% "%release_func 9.el8") = s% "%release_func 10.el8" := by decide +kernel
example : bump (s% "0.9.rc1") = s% "0.10.rc1" := by decide +kernel
example : bump (s% "9.beta.3%{?dist}") = s% "9.beta.3%{?dist}.1" := by decide +kernel
example : bump (s% "9.beta.3") = s% "9.beta.4" := by decide +kernel
example : bump (s% "0.%{x}") = s% "1.%{x}" := by decide +kernel
example : bump (s% "%{rel}.099") = s% "%{rel}.100" := by decide +kernel
/-- Everything else unchanged is wrong for a value ending in a line feed. -/
theorem C36_newline_violation : ∃ (u : Uni) (s : Str), s.getLast? = some '\n' ∧ '\n' ∉ @bump u s :=
  ⟨asciiUni, s% "1\n", by decide, by decide +kernel⟩
end

/-! ### C51 -/

/-- %autorelease is found iff the raw release can be parsed and one of its nodes refers to the macro at any
depth of conditional expansions. -/
theorem C51_autorelease [Uni] (raw : Str) : hasAutorelease raw = .ok true ↔
    ∃ ns, parse raw = .ok ns ∧ ∃ n ∈ ns, Refers (s% "autorelease") n := by
  unfold hasAutorelease
  cases parse raw with
  | error e => simp
  | ok ns => simp only [Except.ok.injEq, flatten_refers, exists_eq_left']

/-- It is not found iff the raw release can be parsed and no node refers to the macro. -/
theorem C51_no_autorelease [Uni] (raw : Str) : hasAutorelease raw = .ok false ↔
    ∃ ns, parse raw = .ok ns ∧ ¬ ∃ n ∈ ns, Refers (s% "autorelease") n := by
  unfold hasAutorelease
  cases parse raw with
  | error e => simp
  | ok ns =>
    simp only [Except.ok.injEq, exists_eq_left', ← flatten_refers (name := s% "autorelease") ns]
    simp

/-- For any value written as an unambiguous sequence of nodes the answer depends on these nodes alone. -/
theorem C51_autorelease_text_partial [Uni] {ns : List Node} (h : GoodNodes ns) :
    hasAutorelease (Node.strs ns) = .ok true ↔ ∃ n ∈ ns, Refers (s% "autorelease") n := by
  rw [C51_autorelease]
  constructor
  · rintro ⟨ns', h1, h2⟩
    rw [C09_print_parse h] at h1
    cases h1
    exact h2
  · exact fun h' => ⟨ns, C09_print_parse h, h'⟩

/-- The only errors are those of the parser. -/
theorem C51_autorelease_error [Uni] (raw : Str) (e : Err) : hasAutorelease raw = .error e ↔ parse raw = .error e := by
  unfold hasAutorelease
  cases parse raw <;> simp

/-- %autochangelog is found iff some line that is not a comment refers to it, provided that no line before it
breaks the scan. Lines with unterminated macros are skipped. -/
theorem C51_autochangelog [Uni] (ls : List Str) : containsAutochangelog ls = .ok true ↔
    ∃ a l b, ls = a ++ l :: b ∧ SeenIn (s% "autochangelog") l ∧ ∀ x ∈ a, ∀ e, ¬ Breaks x e := contains_true ls

/-- It is not found iff no line refers to it and no line breaks the scan. -/
theorem C51_no_autochangelog [Uni] (ls : List Str) : containsAutochangelog ls = .ok false ↔
    ∀ l ∈ ls, ¬ SeenIn (s% "autochangelog") l ∧ ∀ e, ¬ Breaks l e := contains_false ls

/-- An error comes from the first line that breaks the scan, and it is a `ValueError`. -/
theorem C51_autochangelog_error [Uni] (ls : List Str) (e : Err) : containsAutochangelog ls = .error e ↔
    e = .valueError ∧ ∃ a l b, ls = a ++ l :: b ∧ Breaks l .valueError ∧
      ∀ x ∈ a, ¬ SeenIn (s% "autochangelog") x ∧ ∀ e, ¬ Breaks x e := by
  rw [contains_error]
  constructor
  · rintro ⟨a, l, b, h1, h2, h3⟩
    have : e = .valueError := by
      rcases C09_parse_total l with ⟨ns, h⟩ | h | h
      · have := h2.2.1; rw [h] at this; cases this
      · have := h2.2.1; rw [h] at this; cases this; exact absurd rfl h2.2.2
      · have := h2.2.1; rw [h] at this; cases this; rfl
    subst this
    exact ⟨rfl, a, l, b, h1, h2, h3⟩
  · rintro ⟨rfl, h⟩
    exact h

/-- Adding comment lines anywhere does not change the answer. -/
theorem C51_comments_ignored [Uni] (a b : List Str) {l : Str} (h : CommentLine l) :
    containsAutochangelog (a ++ l :: b) = containsAutochangelog (a ++ b) := by
  induction a with
  | nil => simp [containsAutochangelog, commentLine_iff.2 h]
  | cons x a ih =>
    rw [List.cons_append, List.cons_append, containsAutochangelog, containsAutochangelog, ih]

section
attribute [local instance] asciiUni
example : ∃ n ∈ [Node.cond (s% "?") (s% "a") [.cond (s% "!?") (s% "b") [.encl [] (s% "autorelease") [s% "-b", s% "3"]]]],
    Refers (s% "autorelease") n := ⟨_, List.mem_singleton_self _, .inside _ _ (List.mem_singleton_self _) (.inside _ _ (List.mem_singleton_self _) (.enclosed _ _))⟩
example : hasAutorelease (s% "%{?a:%{!?b:%{autorelease -b 3}}}") = .ok true := by decide +kernel
example : hasAutorelease (s% "1%{?dist}.autorelease") = .ok false := by decide +kernel
example : containsAutochangelog [s% " # %autochangelog", s% "%{", s% "%{?x:%autochangelog}"] = .ok true := by
  decide +kernel
example : containsAutochangelog [s% " # %autochangelog", s% "%{", s% "autochangelog"] = .ok false := by
  decide +kernel
/-- An escaped percent sign behind a macro hides everything that follows, because of the offset error in the
parser. -/
theorem C51_escape_violation : ∃ u : Uni, @hasAutorelease u (s% "%{a}%%.%autorelease") = .ok false :=
  ⟨asciiUni, by decide +kernel⟩
/-- A changelog line with an empty reference makes the detection fail although %autochangelog is used. -/
theorem C51_empty_reference_violation : ∃ u : Uni,
    @containsAutochangelog u [s% "- drop %{}", s% "%autochangelog"] = .error .valueError :=
  ⟨asciiUni, by decide +kernel⟩
end

end Specfile.Props
