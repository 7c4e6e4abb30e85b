import Verif.Proof.Text
/-
Properties of loading and saving: C01 and C68.
-/
namespace Specfile.Props
open Py Spec Text

/-! ### C01 -/

/-- The text of a loaded spec file is the content of the file, if the file is not empty and its only line
separators are line feeds. -/
theorem C01_load_save_partial {file : Str} (h0 : file ≠ []) (h : OnlyLF file) :
    ∃ c, readLines file = .ok c ∧ text c = file ∧ save c = file := by
  obtain ⟨c, h1, h2⟩ := roundtrip_iff.2 ⟨h0, h⟩
  exact ⟨c, h1, h2, h2⟩

/-- These are the only such files. -/
theorem C01_exactly {file : Str} : (∃ c, readLines file = .ok c ∧ text c = file) ↔ file ≠ [] ∧ OnlyLF file :=
  roundtrip_iff

/-- Only the empty file cannot be loaded. -/
theorem C01_load_error (file : Str) (e : Err) : readLines file = .error e ↔ file = [] ∧ e = .indexError :=
  readLines_error

/-- The lines of a loaded file contain no line separators, and there is at least one. -/
theorem C01_lines {file : Str} {c : Content} (h : readLines file = .ok c) :
    c.lines ≠ [] ∧ ∀ l ∈ c.lines, OneLine l := by
  refine ⟨?_, readLines_oneLine h⟩
  rw [readLines_ok h]
  apply splitlines_ne_nil
  rw [Ne, universal_ne_nil]
  rintro rfl
  simp [readLines, universal] at h

/-- Whatever the line separators are, the loaded lines are the lines of the file, and the final newline is there
if the file ends in one of the separators that Python translates to a newline. -/
theorem C01_lines_of_file {file : Str} {c : Content} (h : readLines file = .ok c) :
    LinesOf file c.lines ∧ (c.newline = true ↔ file.getLast? = some '\n' ∨ file.getLast? = some '\r') := by
  have := readLines_ok h
  subst this
  exact ⟨by rw [splitlines_universal]; exact linesOf_splitlines file, by rw [← getLast_universal]; simp⟩

example : LinesOf (s% "a\r\nb\x0c\r") [s% "a", s% "b", []] :=
  .crlf (l := ['a']) (by intro c hc; revert hc c; decide) (.sep (l := ['b']) (by intro c hc; revert hc c; decide)
    (by decide) (by decide) (.sep (l := []) (by intro c hc; simp at hc) (by decide) (by decide) .nil))

/-- Whatever the line separators were, saving a loaded file twice gives the same text as saving it once, if
there is any. -/
theorem C01_second_time {file : Str} {c : Content} (h : readLines file = .ok c) (h0 : save c ≠ []) :
    ∃ c', readLines (save c) = .ok c' ∧ save c' = save c := by
  obtain ⟨c', h1, h2⟩ := roundtrip_iff.2 ⟨h0, text_onlyLF (readLines_oneLine h)⟩
  exact ⟨c', h1, h2⟩

/-- Reloading right after saving what was loaded changes nothing, for the files of `C01_load_save_partial`. -/
theorem C01_reload {file : Str} {c c' : Content} (h0 : file ≠ []) (h : OnlyLF file) (hr : readLines file = .ok c) :
    reload (save c) c' = (c, none) := by
  obtain ⟨d, h1, -, h2⟩ := C01_load_save_partial h0 h
  rw [hr] at h1
  cases h1
  rw [h2, reload, hr]

example : OnlyLF (s% "Name: a\n\n%description\nb") := by intro c h; revert h c; decide
example : readLines (s% "a\n\nb") = .ok ⟨[s% "a", [], s% "b"], false⟩ := by decide
example : readLines (s% "a\n\n") = .ok ⟨[s% "a", []], true⟩ := by decide
example : save ⟨[s% "a", []], true⟩ = s% "a\n\n" := by decide

/-- An empty file cannot be loaded. -/
theorem C01_empty_violation : readLines [] = .error .indexError := rfl

/-- Other line separators are replaced. -/
theorem C01_separator_violation : ∃ c, readLines (s% "a\r\nb\x0cc\n") = .ok c ∧ save c = s% "a\nb\nc\n" :=
  ⟨⟨[s% "a", s% "b", s% "c"], true⟩, by decide, by decide⟩

/-- A file consisting of a form feed is saved as an empty file, which cannot be loaded again. -/
theorem C01_lost_violation : ∃ c, readLines ['\x0c'] = .ok c ∧ save c = [] := ⟨⟨[[]], false⟩, by decide, by decide⟩

/-! ### C68 -/

/-- Lines without separators that have been saved are loaded again, with the same final newline, if there is at
least one line and the last one is not empty or followed by a newline. -/
theorem C68_save_load_partial {c : Content} (h : Stable c) : readLines (save c) = .ok c := (save_load h.1).2 h

/-- These are all such lines. -/
theorem C68_exactly {c : Content} (h : ∀ l ∈ c.lines, OneLine l) : readLines (save c) = .ok c ↔ Stable c :=
  save_load h

/-- What was loaded is stable, unless the file ends in a line separator other than a newline. -/
theorem C68_loaded {file : Str} {c : Content} (h0 : file ≠ []) (h : OnlyLF file) (hr : readLines file = .ok c) :
    Stable c := by
  obtain ⟨d, h1, -, h2⟩ := C01_load_save_partial h0 h
  rw [hr] at h1
  cases h1
  rw [← save_load (readLines_oneLine hr), h2, hr]

example : Stable ⟨[s% "Name: a", [], s% "%description"], false⟩ := by
  refine ⟨?_, by decide, by decide⟩
  intro l h c hc
  revert h hc l c
  decide
/-- Lines that were emptied, or that end in an empty line without a final newline, are not loaded again. -/
theorem C68_no_lines_violation : readLines (save ⟨[], true⟩) = .ok ⟨[[]], true⟩ ∧
    readLines (save ⟨[], false⟩) = .error .indexError ∧
    readLines (save ⟨[s% "a", []], false⟩) = .ok ⟨[s% "a"], true⟩ := by decide

end Specfile.Props
