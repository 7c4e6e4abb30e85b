import Verif.Proof.Brackets
import Verif.Proof.ValueParserInv
import Verif.Props.ValueParser
/-
C46, C47, C48: small utilities.
-/
namespace Specfile.Props
open Py Spec Utils

/-! ### C46 -/

/-- C46 (full claim: prefix + body + suffix is the value). Missing: values with references
`%{name  arg}` whose arguments are not separated by single spaces. -/
theorem C46_split_conditional_partial [Uni] {v : Str} {r : Split} (hv : SingleSpacedRefs v)
    (h : splitConditional v = .ok r) : r.pfx ++ r.body ++ r.sfx = v := by
  unfold splitConditional at h
  split at h
  · simp at h; subst h; simp
  · simp at h
  · rename_i p n body hp
    simp at h; subst h
    have := C09_parse_print_partial hv hp
    rw [← this]
    simp [Node.strs, Node.str]
  · simp at h; subst h; simp

/-- C46, without hypothesis on the value: lossless up to whitespace. -/
theorem C46_split_conditional_mod_whitespace [Uni] {v : Str} {r : Split}
    (h : splitConditional v = .ok r) :
    (r.pfx ++ r.body ++ r.sfx).filter (fun c => !isSpace c) = v.filter (fun c => !isSpace c) := by
  unfold splitConditional at h
  split at h
  · simp at h; subst h; simp
  · simp at h
  · rename_i p n body hp
    simp at h; subst h
    have := C09_parse_print_mod_whitespace hp
    rw [← this]
    simp [Node.strs, Node.str]
  · simp at h; subst h; simp

/-- C46: a conditional expansion is really split, everything else is returned as it is: prefix and
suffix are either both empty (and the body is the value) or `%{…?…:` and `}`. -/
theorem C46_split_conditional_shape [Uni] {v : Str} {r : Split} (h : splitConditional v = .ok r) :
    (r.pfx = [] ∧ r.sfx = [] ∧ r.body = v) ∨
    (∃ p n, r.pfx = '%' :: '{' :: (p ++ n ++ [':']) ∧ r.sfx = ['}'] ∧
      ∃ b, ValueParser.parse v = .ok [.cond p n b] ∧ Node.strs b = r.body) := by
  unfold splitConditional at h
  split at h
  · simp at h; subst h; simp
  · simp at h
  · rename_i p n body hp
    simp at h; subst h
    exact .inr ⟨p, n, by simp, rfl, body, hp, rfl⟩
  · simp at h; subst h; simp

/-- C46: splitting a printed conditional expansion gives back its parts. -/
theorem C46_split_of_conditional [Uni] {p n : Str} {b : List Node}
    (h : GoodNodes [.cond p n b]) :
    splitConditional (Node.str (.cond p n b)) =
      .ok ⟨Node.strs b, '%' :: '{' :: (p ++ n ++ [':']), ['}']⟩ := by
  have := C09_print_parse h
  simp only [Node.strs, List.append_nil] at this
  unfold splitConditional
  rw [this]

theorem C46_split_conditional_violation : ∃ (u : Uni) (v : Str) (r : Split),
    @splitConditional u v = .ok r ∧ r.pfx ++ r.body ++ r.sfx ≠ v :=
  ⟨asciiUni, s% "%{?a:%{b  c}}", ⟨s% "%{b c}", s% "%{?a:", s% "}"⟩, rfl, by decide⟩

section
attribute [local instance] asciiUni
example : SingleSpacedRefs (s% "%{?with_x:Source1: %{x y}}") :=
  singleSpacedRefs_of_check (by decide +kernel)
example : splitConditional (s% "%{?with_x:Source1: %{x y}}") =
    .ok ⟨s% "Source1: %{x y}", s% "%{?with_x:", s% "}"⟩ := rfl
example : splitConditional (s% "a%{?x:b}") = .ok ⟨s% "a%{?x:b}", [], []⟩ := rfl
example : splitConditional (s% "%{?x:b") = .ok ⟨s% "%{?x:b", [], []⟩ := rfl
example : GoodNodes [.cond (s% "?") (s% "x") [.lit (s% "b c")]] := by
  simp only [GoodNodes, GoodNode, Follows]
  refine ⟨⟨by decide, by decide, ?_, by decide, ⟨by simp, by decide⟩, ?_⟩, trivial, trivial⟩
  · intro c hc; simp at hc; subst hc; decide
  · refine ⟨fun q hq => ?_, by decide⟩
    have h1 : q.count '}' = 0 := by
      rw [List.count_eq_zero]
      intro hm
      have := hq.subset hm
      revert this; decide
    omega
end

/-! ### C47 -/

/-- What RPM takes as the file name of a location: the location itself if it has no slash; otherwise
the text after the last slash, or, if that contains `=`, the text after the last `=`. -/
def IsFilename (location name : Str) : Prop :=
  ('/' ∉ location ∧ name = location) ∨
  ∃ dir file, location = dir ++ '/' :: file ∧ '/' ∉ file ∧
    (('=' ∉ file ∧ name = file) ∨ ∃ frag, file = frag ++ '=' :: name ∧ '=' ∉ name)

theorem afterLastSlash_none {s : Str} : afterLastSlash s = none ↔ '/' ∉ s := by
  induction s with
  | nil => simp [afterLastSlash]
  | cons c cs ih =>
    simp only [afterLastSlash]
    split
    · rename_i r hr
      simp only [reduceCtorEq, false_iff, Classical.not_not, List.mem_cons]
      right
      cases hm : afterLastSlash cs with
      | none => rw [hm] at hr; simp at hr
      | some _ =>
        rw [hm] at ih
        simpa using ih
    · rename_i hr
      rw [hr] at ih
      by_cases hc : c = '/'
      · simp [hc]
      · simp [hc, Ne.symm hc, ih.mp rfl]

theorem afterLastSlash_some {s r : Str} :
    afterLastSlash s = some r ↔ ∃ d, s = d ++ '/' :: r ∧ '/' ∉ r := by
  induction s with
  | nil => simp [afterLastSlash]
  | cons c cs ih =>
    simp only [afterLastSlash]
    split
    · rename_i r' hr
      rw [hr] at ih
      constructor
      · intro h
        obtain ⟨d, hd, h2⟩ := ih.mp h
        exact ⟨c :: d, by simp [hd], h2⟩
      · rintro ⟨d, hd, h2⟩
        apply ih.mpr
        cases d with
        | nil =>
          simp at hd
          have : afterLastSlash cs = none := afterLastSlash_none.mpr (by rw [hd.2]; exact h2)
          rw [this] at hr; simp at hr
        | cons x xs => simp at hd; exact ⟨xs, hd.2, h2⟩
    · rename_i hr
      have hn := afterLastSlash_none.mp hr
      by_cases hc : c = '/'
      · simp only [hc, beq_self_eq_true, if_true, Option.some.injEq]
        constructor
        · rintro rfl; exact ⟨[], rfl, hn⟩
        · rintro ⟨d, hd, h2⟩
          cases d with
          | nil => simpa using hd
          | cons x xs => simp at hd; exact absurd (by rw [hd.2]; simp) hn
      · simp only [beq_iff_eq, hc, if_false, reduceCtorEq, false_iff]
        rintro ⟨d, hd, h2⟩
        cases d with
        | nil => simp at hd; exact hc hd.1
        | cons x xs => simp at hd; exact absurd (by rw [hd.2]; simp) hn

theorem getLastD_splitC {c : Char} {s : Str} :
    (c ∉ s ∧ (splitC c s).getLastD [] = s) ∨
    ∃ a, s = a ++ c :: (splitC c s).getLastD [] ∧ c ∉ (splitC c s).getLastD [] := by
  induction s with
  | nil => left; simp [splitC, splitP]
  | cons x xs ih =>
    cases hx : (x == c) with
    | true =>
      simp only [beq_iff_eq] at hx
      subst hx
      right
      have e : splitC x (x :: xs) = [] :: splitC x xs := splitP_cons_pos (by simp) xs
      have e2 : ([] :: splitC x xs).getLastD [] = (splitC x xs).getLastD [] := by
        cases h : splitC x xs with
        | nil => exact absurd h (splitC_ne_nil x xs)
        | cons y ys => rfl
      rw [e, e2]
      rcases ih with ⟨h1, h2⟩ | ⟨a, h1, h2⟩
      · rw [h2]; exact ⟨[], rfl, h1⟩
      · exact ⟨x :: a, by simpa using h1, h2⟩
    | false =>
      simp only [beq_eq_false_iff_ne] at hx
      obtain ⟨l, ls, e1, e2⟩ := splitP_cons_neg (p := (· == c)) (c := x) (by simpa using hx) xs
      have e1' : splitC c xs = l :: ls := e1
      have e2' : splitC c (x :: xs) = (x :: l) :: ls := e2
      rw [e1'] at ih
      rw [e2']
      cases ls with
      | nil =>
        simp only [List.getLastD_cons, List.getLastD_nil] at ih ⊢
        rcases ih with ⟨h1, h2⟩ | ⟨a, h1, h2⟩
        · left; exact ⟨by simp [h1, Ne.symm hx], by rw [h2]⟩
        · exfalso
          have : l = xs := by
            have := joinC_splitC c xs
            rw [e1'] at this
            simpa [joinC] using this
          subst this
          have := congrArg List.length h1
          simp at this
          omega
      | cons y ys =>
        simp only [List.getLastD_cons] at ih ⊢
        rcases ih with ⟨h1, h2⟩ | ⟨a, h1, h2⟩
        · exfalso
          have := splitC_of_not_mem h1
          rw [e1'] at this
          simp at this
        · right; exact ⟨x :: a, by rw [List.cons_append, ← h1], h2⟩

/-- C47: the filename of a location is exactly what RPM's rule says. -/
theorem C47_filename (location name : Str) :
    filenameFromLocation location = name ↔ IsFilename location name := by
  have hfwd : IsFilename location (filenameFromLocation location) := by
    unfold filenameFromLocation
    split
    · rename_i h
      exact .inl ⟨afterLastSlash_none.mp h, rfl⟩
    · rename_i r h
      obtain ⟨d, hd, h2⟩ := afterLastSlash_some.mp h
      refine .inr ⟨d, r, hd, h2, ?_⟩
      exact (getLastD_splitC (c := '=') (s := r))
  have last_unique : ∀ {c : Char} {a b x y : Str}, a ++ c :: x = b ++ c :: y → c ∉ x → c ∉ y →
      x = y := by
    intro c a
    induction a with
    | nil =>
      intro b x y h hx hy
      cases b with
      | nil => simpa using h
      | cons z zs => simp at h; exact absurd (by rw [h.2]; simp) hx
    | cons w ws ih =>
      intro b x y h hx hy
      cases b with
      | nil => simp at h; exact absurd (by rw [← h.2]; simp) hy
      | cons z zs => simp at h; exact ih h.2 hx hy
  constructor
  · rintro rfl; exact hfwd
  · intro h
    rcases hfwd with ⟨h1, h2⟩ | ⟨d, f, h1, h2, h3⟩
    · rcases h with ⟨_, rfl⟩ | ⟨d, f, h3, _⟩
      · exact h2
      · exact absurd (by rw [h3]; simp) h1
    · rcases h with ⟨h4, _⟩ | ⟨d', f', h4, h5, h6⟩
      · exact absurd (by rw [h1]; simp) h4
      · have : f = f' := last_unique (h1.symm.trans h4) h2 h5
        subst this
        rcases h3 with ⟨h7, h8⟩ | ⟨g, h7, h8⟩
        · rcases h6 with ⟨_, rfl⟩ | ⟨g', h9, _⟩
          · exact h8
          · exact absurd (by rw [h9]; simp) h7
        · rcases h6 with ⟨h9, _⟩ | ⟨g', h9, h10⟩
          · exact absurd (by rw [h7]; simp) h9
          · exact last_unique (h7.symm.trans h9) h8 h10

/-- C47: the filename has no directory part and is the end of the location. -/
theorem C47_filename_no_slash (location : Str) :
    (filenameFromLocation location <:+ location) ∧
    ('/' ∈ filenameFromLocation location → False) ∧
    ('/' ∉ location → filenameFromLocation location = location) := by
  have h := (C47_filename location _).mp rfl
  refine ⟨?_, ?_, ?_⟩
  · rcases h with ⟨_, h⟩ | ⟨d, f, h1, h2, ⟨_, h3⟩ | ⟨g, h3, _⟩⟩
    · rw [h]; exact List.suffix_rfl
    · exact ⟨d ++ ['/'], by rw [h3]; simp [h1]⟩
    · exact ⟨d ++ '/' :: (g ++ ['=']), by conv => rhs; rw [h1, h3]
                                          simp⟩
  · intro hm
    rcases h with ⟨h1, h⟩ | ⟨d, f, h1, h2, ⟨_, h3⟩ | ⟨g, h3, _⟩⟩
    · rw [h] at hm; exact h1 hm
    · rw [h3] at hm; exact h2 hm
    · exact h2 (by rw [h3]; simp [hm])
  · intro hs
    exact (C47_filename location location).mpr (.inl ⟨hs, rfl⟩)

example : filenameFromLocation (s% "https://example.com/a.tar.gz#/b=c.tar.gz") = s% "c.tar.gz" := rfl
example : filenameFromLocation (s% "a=b") = s% "a=b" := rfl

/-! ### C48 -/

theorem curly : Kind '{' '}' := ⟨by decide, by decide, by decide, by decide, by decide⟩
theorem paren : Kind '(' ')' := ⟨by decide, by decide, by decide, by decide, by decide⟩

/-- C48: the two counts say exactly how many `%{` (and nested `{`), respectively `%(` (and nested
`(`), are left open. -/
theorem C48_count_brackets (s : Str) (b p : Nat) :
    countBrackets s = (b, p) ↔ LeavesOpen '{' '}' b s ∧ LeavesOpen '(' ')' p s := by
  unfold countBrackets
  rw [countFrom_eq, Prod.mk.injEq]
  constructor
  · rintro ⟨rfl, rfl⟩
    exact ⟨leavesOpen_cnt curly s (.closed .nil), leavesOpen_cnt paren s (.closed .nil)⟩
  · rintro ⟨h1, h2⟩
    exact ⟨cnt_leavesOpen curly h1, cnt_leavesOpen paren h2⟩

/-- C48: the count is zero iff every macro construct is closed. -/
theorem C48_zero_iff_closed (s : Str) :
    (countBrackets s).1 = 0 ↔ ∃ t, Closed '{' '}' t ∧ (s = t ∨ s = t ++ ['\\'] ∨ s = t ++ ['%']) := by
  obtain ⟨h1, h2⟩ := (C48_count_brackets s (countBrackets s).1 (countBrackets s).2).mp rfl
  constructor
  · intro h
    rw [h] at h1
    obtain ⟨t, ht, e⟩ := h1
    cases ht with
    | closed ht => exact ⟨t, ht, e⟩
  · rintro ⟨t, ht, e⟩
    have := ((C48_count_brackets s 0 _).mpr ⟨⟨t, .closed ht, e⟩, h2⟩)
    rw [this]

example : countBrackets (s% "%{a%{b {%(") = (3, 1) := rfl
example : LeavesOpen '{' '}' 1 (s% "x%{?a:{}\\}") :=
  ((C48_count_brackets _ _ _).mp (rfl : countBrackets (s% "x%{?a:{}\\}") = (1, 0))).1

end Specfile.Props
