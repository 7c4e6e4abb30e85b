import Verif.Proof.Format3
/-
Properties of the formatter of representations: C49.
-/
namespace Specfile.Props
open Py Spec Formatter

/-- Formatting keeps the meaning: Python reads the result as the tree that was formatted. Line breaks and other
whitespace are only inserted between brackets. Trees with `**` are excluded. -/
theorem C49_same_meaning_partial {e : Expr} (h : GoodExpr e) (threshold : Nat) :
    ∃ ps, format threshold e = .ok ps ∧ parsePython (tokens ps) = some e ∧ SpaceInside 0 ps := by
  obtain ⟨ps, hp⟩ := fmt_isOk (good_supported h) threshold 0 []
  obtain ⟨t, ht, hs⟩ := fmt_shows hp h
  refine ⟨ps, hp, ?_, ?_⟩
  · rw [ht]
    exact parsePython_shows hs h
  · have := fmt_space hp (d := 0) (by omega) (Or.inl rfl) (Neutral.nil _) [] trivial
    rwa [List.append_nil] at this

/-- The layout: an element that fits on the rest of its line is written on one line, otherwise there is one line
for every element of it, indented by four, with a comma at the end. -/
theorem C49_layout {e : Expr} (h : Supported e) (threshold : Nat) :
    ∃ ps, format threshold e = .ok ps ∧ text ps = layout threshold 0 [] e := by
  obtain ⟨ps, hp⟩ := fmt_isOk h threshold 0 []
  exact ⟨ps, hp, fmt_text hp⟩

/-- In particular an expression that is not too long stays on one line. -/
theorem C49_short {e : Expr} (h : Supported e) {threshold : Nat} (hl : (oneLineText e).length ≤ threshold) :
    ∃ ps, format threshold e = .ok ps ∧ text ps = oneLineText e := by
  obtain ⟨ps, hp, ht⟩ := C49_layout h threshold
  refine ⟨ps, hp, ?_⟩
  rw [ht, layout_short (by simpa [spaces] using hl)]
  rfl

/-- Anything else in the tree is rejected. -/
theorem C49_unsupported {e : Expr} (threshold : Nat) :
    (∃ err, format threshold e = .error err) ↔ ¬ Supported e := by
  constructor
  · rintro ⟨err, h⟩ hs
    obtain ⟨ps, hp⟩ := fmt_isOk hs threshold 0 []
    rw [format, hp] at h
    cases h
  · intro h
    exact ⟨_, fmt_err h threshold 0 []⟩

/-- The error is the one that the caller catches. -/
theorem C49_unsupported_error {e : Expr} {threshold : Nat} {err : Err} (h : format threshold e = .error err) :
    err = .specfileException := by
  have := fmt_err ((C49_unsupported threshold).1 ⟨err, h⟩) threshold 0 []
  rw [format, this] at h
  cases h
  rfl

section
/-- `Tag('a', ('b',), {'c': [1]}, x=2)` -/
private def sample : Expr :=
  .call (s% "Tag") (.cons .pos (.const (s% "'a'")) (.cons .pos (.tuple (.cons .pos (.const (s% "'b'")) .nil))
    (.cons .pos (.dict (.cons (.key (.const (s% "'c'"))) (.list (.cons .pos (.const (s% "1")) .nil)) .nil))
      (.cons (.kw (s% "x")) (.const (s% "2")) .nil))))

example : GoodExpr sample := by simp [sample, GoodExpr, GoodArgs, GoodSeq, GoodPairs, argsInOrder]
example : oneLineText sample = s% "Tag('a', ('b',), {'c': [1]}, x=2)" := by decide +kernel
example : (format 80 sample).map text = .ok (s% "Tag('a', ('b',), {'c': [1]}, x=2)") := by decide +kernel
example : (format 13 sample).map text =
    .ok (s% "Tag(\n    'a',\n    ('b',),\n    {\n        'c': [\n            1,\n        ],\n    },\n    x=2,\n)") := by decide +kernel
end

/-- `f(**{'a': 1})` becomes `f({'a': 1})`. -/
theorem C49_unpack_violation : ∃ e ps, format 80 e = .ok ps ∧
    parsePython [.name ['f'], .op '(', .op '*', .op '*', .op '{', .const (s% "'a'"), .op ':', .const ['1'], .op '}', .op ')']
      = some e ∧
    text ps = s% "f({'a': 1})" ∧ ∃ e', parsePython (tokens ps) = some e' ∧ e' ≠ e := by
  have h1 : parsePython [.name ['f'], .op '(', .op '*', .op '*', .op '{', .const (s% "'a'"), .op ':', .const ['1'],
      .op '}', .op ')'] =
      some (.call ['f'] (.cons .unpack (.dict (.cons (.key (.const (s% "'a'"))) (.const ['1']) .nil)) .nil)) := rfl
  have hs : Supported (.call ['f'] (.cons .unpack (.dict (.cons (.key (.const (s% "'a'"))) (.const ['1']) .nil)) .nil)) := by
    simp [Supported, SupportedItems, SupportedKey]
  obtain ⟨ps, hp, ht⟩ := C49_layout hs 80
  refine ⟨_, ps, hp, h1, ?_, ?_⟩
  · rw [ht]; decide +kernel
  · have e : ps = [.ws [], .tok (.name ['f']), op '(', .ws [], op '{', .ws [], .ws [], .tok (.const (s% "'a'")), op ':', .ws [' '],
        .tok (.const ['1']), op '}', op ')'] := by
      have : format 80 (.call ['f'] (.cons .unpack (.dict (.cons (.key (.const (s% "'a'"))) (.const ['1']) .nil)) .nil)) =
        .ok [.ws [], .tok (.name ['f']), op '(', .ws [], op '{', .ws [], .ws [], .tok (.const (s% "'a'")), op ':', .ws [' '],
        .tok (.const ['1']), op '}', op ')'] := by decide +kernel
      rw [hp] at this
      simpa using this
    subst e
    refine ⟨.call ['f'] (.cons .pos (.dict (.cons (.key (.const (s% "'a'"))) (.const ['1']) .nil)) .nil), rfl, ?_⟩
    simp

end Specfile.Props
