import Verif.Proof.Format7
import Verif.Props.Formatter
/-
Properties of the formatter of representations, continued: texts with objects that are no expressions. C49.
-/
namespace Specfile.Props
open Py Spec Formatter

/-- Formatting a text with objects such as `<TokenType.DEFAULT: 1>` gives a text that reads as the same expression with
the same objects at the same places, and it needs no more rounds than there are objects. No constant or object may
have a quote in front of `<`. -/
theorem C49_objects_partial {parse : Str → Parsed} {repr : Str → Str} {src : List Formatter.Piece} {e : Expr} (hq : QuotedBy repr)
    (hr : ReadBy parse repr src) (hlf : OnlyLF (text src)) (hl : (text src).getLast? ≠ some '\n')
    (hp : ∀ t ∈ tokens src, PlainTok t) (he : parsePython (tokens src) = some e) (hg : GoodExpr e) (threshold : Nat)
    {fuel : Nat} (hf : objectCount src ≤ fuel) :
    ∃ ps, formatExpression parse repr threshold fuel (text src) = .ok (text ps) ∧ parsePython (tokens ps) = some e ∧
      SpaceInside 0 ps :=
  formatExpression_objects hq hr hlf hl hp he hg threshold hf

/-- `repr()` of the objects of this library, which goes through `formatted`, is such a text. -/
theorem C49_repr_partial {parse : Str → Parsed} {repr : Str → Str} {src : List Formatter.Piece} {e : Expr} (hq : QuotedBy repr)
    (hr : ReadBy parse repr src) (hlf : OnlyLF (text src)) (hl : (text src).getLast? ≠ some '\n')
    (hp : ∀ t ∈ tokens src, PlainTok t) (he : parsePython (tokens src) = some e) (hg : GoodExpr e) (threshold : Nat)
    {fuel : Nat} (hf : objectCount src ≤ fuel) :
    ∃ ps, formatted parse repr threshold fuel (text src) = .ok (text ps) ∧ parsePython (tokens ps) = some e ∧
      SpaceInside 0 ps := by
  obtain ⟨ps, h1, h2, h3⟩ := C49_objects_partial hq hr hlf hl hp he hg threshold hf
  exact ⟨ps, by rw [formatted, h1], h2, h3⟩

/-- A text that is no expression for another reason than objects is not changed: Python complains about something that
is not `<`, or does not say where. -/
theorem C49_unchanged {parse : Str → Parsed} {repr : Str → Str} {s : Str} {lineno offset : Option Nat}
    (hp : parse s = .syntaxError lineno offset)
    (h : lineno = none ∨ offset = none ∨ ∃ l o line c, lineno = some (l + 1) ∧ offset = some (o + 1) ∧
      (splitlines s)[l]? = some line ∧ line[o]? = some c ∧ c ≠ '<') (threshold fuel : Nat) :
    formatted parse repr threshold (fuel + 1) s = .ok s := by
  have hs : substitute repr s lineno offset = .error .syntaxError := by
    rcases h with rfl | rfl | ⟨l, o, line, c, rfl, rfl, h1, h2, h3⟩
    · simp [substitute]
    · cases lineno with
      | none => simp [substitute]
      | some l => cases l <;> simp [substitute]
    · simp [substitute, h1, h2, h3]
  have : parseLoop parse repr (fuel + 1) s = .error .syntaxError := by
    rw [parseLoop, hp]
    simp only [hs]
  rw [formatted, formatExpression, this]

/-- An expression with nodes that are not supported is not changed either. -/
theorem C49_unsupported_unchanged {parse : Str → Parsed} {repr : Str → Str} {s : Str} {e : Expr} (hp : parse s = .tree e)
    (h : ¬ Supported e) (threshold fuel : Nat) : formatted parse repr threshold fuel s = .ok s := by
  have : parseLoop parse repr fuel s = .ok (e, []) := by rw [parseLoop, hp]
  rw [formatted, formatExpression, this]
  simp only
  rw [format, fmt_err h]

/-- The only exception that `repr()` raises is `IndexError`, and only if Python complains about a place beyond the end of
a line. -/
theorem C49_raises {parse : Str → Parsed} {repr : Str → Str} {s : Str} {threshold fuel : Nat} {err : Err}
    (h : formatted parse repr threshold fuel s = .error (.err err)) :
    err = .indexError ∧ ∃ s' l o, parse s' = .syntaxError (some (l + 1)) (some (o + 1)) ∧
      ∀ line, (splitlines s')[l]? = some line → line.length ≤ o := by
  have hx : formatExpression parse repr threshold fuel s = .error (.err err) ∧ err ≠ .specfileException := by
    unfold formatted at h
    split at h
    · cases h
    · cases h
    · rename_i h1 h2
      exact ⟨h, by rintro rfl; exact h2 h⟩
  obtain ⟨hx, hne⟩ := hx
  unfold formatExpression at hx
  split at hx
  · rename_i he
    cases hx
    rcases parseLoop_error he with h | h | ⟨h, h'⟩
    · cases h
    · cases h
    · cases h; exact ⟨rfl, h'⟩
  · split at hx
    · rename_i hf
      cases hx
      exact absurd (C49_unsupported_error hf) hne
    · cases hx

/-- And if Python does so, then it is raised. -/
theorem C49_raises_outside {parse : Str → Parsed} {repr : Str → Str} {s : Str} {l o : Nat}
    (hp : parse s = .syntaxError (some (l + 1)) (some (o + 1)))
    (h : ∀ line, (splitlines s)[l]? = some line → line.length ≤ o) (threshold fuel : Nat) :
    formatted parse repr threshold (fuel + 1) s = .error (.err .indexError) := by
  have hs : substitute repr s (some (l + 1)) (some (o + 1)) = .error (.err .indexError) := by
    simp only [substitute]
    split
    · rfl
    · rename_i line hl
      have := h line hl
      split
      · rfl
      · rename_i c hc
        have := (List.getElem?_eq_some_iff.1 hc).1
        omega
  have : parseLoop parse repr (fuel + 1) s = .error (.err .indexError) := by
    rw [parseLoop, hp]
    simp only [hs]
  rw [formatted, formatExpression, this]

/-- This happens: Python complains about the end of `1 +`. -/
theorem C49_index_violation {parse : Str → Parsed} {repr : Str → Str} (hp : parse (s% "1 +") = .syntaxError (some 1) (some 4))
    (threshold fuel : Nat) : formatted parse repr threshold (fuel + 1) (s% "1 +") = .error (.err .indexError) :=
  C49_raises_outside (l := 0) (o := 3) hp (by
    intro line h
    have : (splitlines (s% "1 +"))[0]? = some (s% "1 +") := rfl
    rw [this] at h; cases h; decide) threshold fuel

section
/-- quotes around a text -/
private def quote (v : Str) : Str := '\'' :: v ++ ['\'']

private theorem quotedBy_quote : QuotedBy quote := by
  intro v ho h1
  refine ⟨?_, ?_⟩
  · intro c hc
    simp only [quote, List.cons_append, List.mem_cons, List.mem_append, List.not_mem_nil, or_false] at hc
    rcases hc with rfl | hc | rfl
    · decide
    · exact h1 c hc
    · decide
  · rcases v with _ | ⟨c, v⟩
    · simp [isObject] at ho
    · simp [isObject] at ho
      exact ⟨'\'', v ++ ['\''], Or.inl rfl, by simp [quote, ho]⟩

/-- the pieces of `f(<A: 1>, 'x')` -/
private def pieces : List Formatter.Piece :=
  [.tok (.name ['f']), op '(', .tok (.const (s% "<A: 1>")), op ',', .ws [' '], .tok (.const (s% "'x'")), op ')']

/-- Python's parser for this text -/
private def python (s : Str) : Parsed :=
  if s = s% "f(<A: 1>, 'x')" then .syntaxError (some 1) (some 3)
  else .tree (.call ['f'] (.cons .pos (.const (s% "'<A: 1>'")) (.cons .pos (.const (s% "'x'")) .nil)))

private theorem enclosed_A : Enclosed (s% "<A: 1>") := by
  refine ⟨?_, by decide, by unfold OneLine; decide +kernel⟩
  intro a b h ha hb
  rcases a with _ | ⟨a1, _ | ⟨a2, _ | ⟨a3, _ | ⟨a4, _ | ⟨a5, _ | ⟨a6, a⟩⟩⟩⟩⟩⟩ <;> simp at h ha
  all_goals
    try obtain ⟨rfl, h⟩ := h
    try obtain ⟨rfl, h⟩ := h
    try obtain ⟨rfl, h⟩ := h
    try obtain ⟨rfl, h⟩ := h
    try obtain ⟨rfl, h⟩ := h
    try obtain ⟨rfl, h⟩ := h
    try simp_all

private theorem readBy_pieces : ReadBy python quote pieces := by
  refine ⟨?_, ?_⟩
  · intro a v b h ho
    rcases a with _ | ⟨a1, _ | ⟨a2, _ | ⟨a3, _ | ⟨a4, _ | ⟨a5, _ | ⟨a6, _ | ⟨a7, a⟩⟩⟩⟩⟩⟩⟩ <;> simp [pieces, op] at h
    · obtain ⟨rfl, rfl, rfl, rfl⟩ := h; rfl
    · obtain ⟨_, _, _, _, _, rfl, _⟩ := h; simp [isObject] at ho
  · intro e he
    have : parsePython (tokens (pieces.map (hide quote))) =
        some (.call ['f'] (.cons .pos (.const (s% "'<A: 1>'")) (.cons .pos (.const (s% "'x'")) .nil))) := rfl
    rw [this] at he
    cases he
    rfl

/-- the hypotheses of `C49_objects_partial` are met -/
example : ∃ ps, formatExpression python quote 80 1 (s% "f(<A: 1>, 'x')") = .ok (text ps) ∧
    parsePython (tokens ps) = some (.call ['f'] (.cons .pos (.const (s% "<A: 1>")) (.cons .pos (.const (s% "'x'")) .nil))) ∧
    SpaceInside 0 ps := by
  refine C49_objects_partial (src := pieces) quotedBy_quote readBy_pieces (by unfold OnlyLF; decide +kernel) (by decide +kernel) ?_ rfl ?_ 80
    (by decide +kernel)
  · intro t ht
    simp [pieces, tokens, op] at ht
    rcases ht with rfl | rfl | rfl | rfl | rfl | rfl
    · exact ⟨by decide, by decide, by decide⟩
    · trivial
    · refine ⟨?_, fun _ => enclosed_A⟩
      intro a q b h
      rcases a with _ | ⟨a1, a⟩ <;> simp at h
      have : '<' ∈ (s% "A: 1>") := by rw [h.2]; simp
      exact absurd this (by decide)
    · trivial
    · refine ⟨?_, fun h => by simp [isObject] at h⟩
      intro a q b h
      have : '<' ∈ (s% "'x'") := by rw [h]; simp
      exact absurd this (by decide)
    · trivial
  · simp [GoodExpr, GoodArgs, argsInOrder]

example : formatExpression python quote 80 1 (s% "f(<A: 1>, 'x')") = .ok (s% "f(<A: 1>, 'x')") := by decide +kernel
example : formatExpression python quote 9 1 (s% "f(<A: 1>, 'x')") = .ok (s% "f(\n    <A: 1>,\n    'x',\n)") := by decide +kernel

/-- A string that looks like the object changes places with it: `f('<A: 1>', <A: 1>)` becomes `f(<A: 1>, '<A: 1>')`. -/
theorem C49_objects_violation : ∃ (parse : Str → Parsed) (repr : Str → Str) (src : List Formatter.Piece) (e : Expr) (out : List Formatter.Piece),
    QuotedBy repr ∧ ReadBy parse repr src ∧ text src = s% "f('<A: 1>', <A: 1>)" ∧ parsePython (tokens src) = some e ∧
      formatted parse repr 80 1 (text src) = .ok (text out) ∧ text out = s% "f(<A: 1>, '<A: 1>')" ∧
      parsePython (tokens out) ≠ some e := by
  let src : List Formatter.Piece :=
    [.tok (.name ['f']), op '(', .tok (.const (s% "'<A: 1>'")), op ',', .ws [' '], .tok (.const (s% "<A: 1>")), op ')']
  let out : List Formatter.Piece :=
    [.tok (.name ['f']), op '(', .tok (.const (s% "<A: 1>")), op ',', .ws [' '], .tok (.const (s% "'<A: 1>'")), op ')']
  let parse : Str → Parsed := fun s =>
    if s = s% "f('<A: 1>', <A: 1>)" then .syntaxError (some 1) (some 13)
    else .tree (.call ['f'] (.cons .pos (.const (s% "'<A: 1>'")) (.cons .pos (.const (s% "'<A: 1>'")) .nil)))
  have h1 : parsePython (tokens src) = some (.call ['f'] (.cons .pos (.const (s% "'<A: 1>'")) (.cons .pos (.const (s% "<A: 1>")) .nil))) := rfl
  have h2 : parsePython (tokens out) = some (.call ['f'] (.cons .pos (.const (s% "<A: 1>")) (.cons .pos (.const (s% "'<A: 1>'")) .nil))) := rfl
  refine ⟨parse, quote, src, _, out, quotedBy_quote, ⟨?_, ?_⟩, rfl, h1, by decide +kernel, rfl, by rw [h2]; simp⟩
  · intro a v b h ho
    rcases a with _ | ⟨a1, _ | ⟨a2, _ | ⟨a3, _ | ⟨a4, _ | ⟨a5, _ | ⟨a6, _ | ⟨a7, a⟩⟩⟩⟩⟩⟩⟩ <;> simp [src, op] at h
    · obtain ⟨_, _, rfl, _⟩ := h; simp [isObject] at ho
    · obtain ⟨rfl, rfl, rfl, rfl, rfl, rfl, rfl⟩ := h; rfl
  · intro e he
    have : parsePython (tokens (src.map (hide quote))) =
        some (.call ['f'] (.cons .pos (.const (s% "'<A: 1>'")) (.cons .pos (.const (s% "'<A: 1>'")) .nil))) := rfl
    rw [this] at he
    cases he
    rfl
end

end Specfile.Props
