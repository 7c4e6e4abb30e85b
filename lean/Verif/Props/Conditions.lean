import Verif.Proof.MacroDefinitions7
import Verif.Proof.Conditions5
import Verif.Props.Utils
/-
Properties of conditions (C11, C12, C13).
-/
namespace Specfile.Props
open Py Regex Spec
open Conditions (processConditions Oracle isExcluded flags)
open MacroDefinitions (parseLines excluded raw)

/-! ### an expansion oracle for examples -/

/-- leaves every text alone, except for expressions that are the number 0 or 1 -/
def sampleOracle : Oracle := fun _ s =>
  .ok (if s = s% "%{expr:1}" then s% "1" else if s = s% "%{expr:0}" then s% "0" else s)

/-- a line that the regex rejects is no condition line -/
theorem plain_of_none {l : Str} (h : rmatch Conditions.condRe l = none) : NoCondition l := by
  intro kw hk text hf
  obtain ⟨m, hm, _⟩ := Conditions.condRe_line hk hf
  rw [h] at hm; cases hm

/-- the line without whitespace in front is the keyword and the text -/
theorem conditionLine_of (kw text : Str) (h : '\n' ∉ text) (hs : ∀ c ∈ text.head?, isSpace c = true) :
    ConditionLine (kw ++ text) kw text :=
  ⟨⟨[], rfl, by simp, hs⟩, [], text, [], by simp, by simp, by simp, h⟩

/-- a text with a character that is neither whitespace nor a backslash -/
theorem not_lone {text : Str} {c : Char} (h : c ∈ text) (hc : isSpace c = false) (hb : c ≠ '\\') : ¬ Lone text := by
  rintro ⟨w, hw, hv⟩
  have hn : c ≠ '\n' := by rintro rfl; exact absurd hc (by decide)
  have : c ∈ w := by
    rcases hv with hv | hv <;> rw [hv] at h <;> simp [hb, hn] at h <;> exact h
  rw [hw c this] at hc
  cases hc

/-! ### C11 -/

/-- C11: the result lists the input lines in order. -/
theorem C11_lines_kept [Uni] (ex : Oracle) (exc : List Conditions.Range) (lines : List Str)
    (r : List (Str × Bool)) (h : processConditions ex exc lines = .ok r) : r.map (·.1) = lines :=
  Conditions.loop_lines ex exc 0 [] [true] lines h

/-- C11: lines that were processed are balanced: every `%elif`, `%else` and `%endif` belongs to an open condition. -/
theorem C11_balanced [Uni] (ex : Oracle) (exc : List Conditions.Range) (lines : List Str)
    (r : List (Str × Bool)) (h : processConditions ex exc lines = .ok r) :
    BalancedLines ex (fun i => isExcluded exc i = true) 0 0 lines := by
  have := Conditions.loop_decided (ex := ex) (exc := exc) (fun _ => Iff.rfl) _ lines rfl 0 true []
  rw [show Conditions.loop ex exc 0 [] [true] lines = .ok r from h] at this
  exact this

/-- C11: a failure is either the failure of an expansion, or the lines are not balanced. -/
theorem C11_failures [Uni] (ex : Oracle) (exc : List Conditions.Range) (lines : List Str) (e : Err)
    (h : processConditions ex exc lines = .error e) :
    (∃ i s, ex i s = .error e) ∨
    (e = .indexError ∧ ¬ BalancedLines ex (fun i => isExcluded exc i = true) 0 0 lines) := by
  have := Conditions.loop_decided (ex := ex) (exc := exc) (fun _ => Iff.rfl) _ lines rfl 0 true []
  rw [show Conditions.loop ex exc 0 [] [true] lines = .error e from h] at this
  exact this

/-- C11: if expansions succeed, processing succeeds exactly for balanced lines (conditions may be left open at the end);
lines that continue a condition are not looked at. -/
theorem C11_succeeds_iff_balanced [Uni] (ex : Oracle) (exc : List Conditions.Range) (lines : List Str)
    (hex : ∀ i s e, ex i s ≠ .error e) :
    (∃ r, processConditions ex exc lines = .ok r) ↔
      BalancedLines ex (fun i => isExcluded exc i = true) 0 0 lines := by
  constructor
  · rintro ⟨r, h⟩; exact C11_balanced ex exc lines r h
  · intro hb
    cases h : processConditions ex exc lines with
    | ok r => exact ⟨r, rfl⟩
    | error e =>
      rcases C11_failures ex exc lines e h with ⟨i, s, h⟩ | ⟨-, h⟩
      · exact absurd h (hex _ _ _)
      · exact absurd hb h

section
attribute [local instance] asciiUni

example : processConditions sampleOracle [] [s% "%if 0", s% "a", s% "%else", s% "b", s% "%endif"] =
    .ok [(s% "%if 0", true), (s% "a", false), (s% "%else", true), (s% "b", true), (s% "%endif", true)] := rfl

example : processConditions sampleOracle [] [s% "%if 1", s% "%endif", s% "%else"] = .error .indexError := rfl

/-- a condition that continues, on a line that would be a condition otherwise; a backslash on its own does not continue -/
example : processConditions sampleOracle [] [s% "%if 1 \\", s% "%endif", s% "a", s% "%endif"] =
    .ok [(s% "%if 1 \\", true), (s% "%endif", true), (s% "a", false), (s% "%endif", true)] := rfl
example : processConditions sampleOracle [] [s% "%if \\", s% "%endif", s% "a", s% "%endif"] = .error .indexError := rfl

/-- the lines of the first case are balanced -/
example : BalancedLines sampleOracle (fun i => isExcluded [] i = true) 0 0
    [s% "%if 1 \\", s% "%endif", s% "a", s% "%endif"] := C11_balanced _ _ _ _ rfl
/-- and so by the definition -/
example : BalancedLines sampleOracle (fun i => isExcluded [] i = true) 0 0 [s% "%if 1 \\", s% "%endif", s% "%endif"] := by
  refine .open_ (kw := s% "%if") (text := s% " 1 \\") (n := 1) (by simp [isExcluded]) (.inl rfl) (by decide)
    ⟨⟨[], rfl, by simp, by decide⟩, s% " ", s% "1 \\", [], rfl, by decide, by simp, by decide⟩
    (.text (e := s% "1 \\") ?_ ⟨s% " ", [], rfl, by decide, by simp, by decide, by decide⟩
      (.next (text := s% "1 ") (.nothing (by decide)))) ?_
  · rintro ⟨w, hw, h⟩
    have : '1' ∈ w := by
      have h1 : '1' ∈ s% " 1 \\" := by decide
      rcases h with h | h <;> rw [h] at h1 <;> simpa using h1
    have := hw _ this
    revert this; decide
  · exact .close (text := []) (by simp [isExcluded]) (.inl rfl)
      ⟨⟨[], rfl, by simp, by decide⟩, [], [], [], rfl, by simp, by simp, by simp⟩ .done

end

/-! ### C12 -/

/-- C12: for lines that form complete conditions in each of which at most one branch follows the one
that is taken, every line is reported valid exactly if RPM would use it. The full claim would allow any
number of branches (`lenient = true`); see `C12_violation`. -/
theorem C12_validity_partial [Uni] (ex : Oracle) (exc : List Conditions.Range) (lines : List Str)
    (fs : List Bool)
    (h : Blocks ex (fun i => isExcluded exc i = true) false .body 0 true lines fs) :
    processConditions ex exc lines = .ok (lines.zip fs) ∧ lines.length = fs.length := by
  have := Conditions.blocks_loop (exc := exc) (fun _ => Iff.rfl) h
  refine ⟨?_, this.1⟩
  have h2 := this.2 [] []
  rw [List.append_nil] at h2
  rw [processConditions, h2]
  simp [Conditions.loop, Conditions.pre]

section
attribute [local instance] asciiUni

/-- nested conditions -/
def nestedLines : List Str :=
  [s% "%if 0", s% "%if 1", s% "a", s% "%endif", s% "%elif 1", s% "b", s% "%else", s% "c", s% "%endif"]

theorem sample_expr (b : Bool) : Holds (sampleOracle 0) (s% "%if") (if b then s% "1" else s% "0") b := by
  cases b
  · exact .expr (.inl rfl) (ExprValue.number (r := s% "0") (i := 0) (by decide) rfl)
  · exact .expr (.inl rfl) (ExprValue.number (r := s% "1") (i := 1) (by decide) rfl)

theorem sample_elif (b : Bool) : Holds (sampleOracle 0) (s% "%elif") (if b then s% "1" else s% "0") b := by
  cases b
  · exact .expr (.inr rfl) (ExprValue.number (r := s% "0") (i := 0) (by decide) rfl)
  · exact .expr (.inr rfl) (ExprValue.number (r := s% "1") (i := 1) (by decide) rfl)

theorem no_body (i : Nat) : ¬ (isExcluded [] i = true) := by simp [isExcluded]

theorem text_1 : ConditionText (s% " 1") [] (s% "1") :=
  .text (e := s% "1") (res := s% "1") (not_lone (c := '1') (by decide) (by decide) (by decide))
    ⟨s% " ", [], rfl, by decide, by simp, by decide, by decide⟩ (.done (by decide))

theorem text_0 : ConditionText (s% " 0") [] (s% "0") :=
  .text (e := s% "0") (res := s% "0") (not_lone (c := '0') (by decide) (by decide) (by decide))
    ⟨s% " ", [], rfl, by decide, by simp, by decide, by decide⟩ (.done (by decide))

/-- a condition that continues on the next line, another one that continues on an empty line -/
example : ConditionText (s% " 1 \\") [s% "+ 1"] (s% "1 + 1") :=
  .text (e := s% "1 \\") (res := s% "1 + 1") (not_lone (c := '1') (by decide) (by decide) (by decide))
    ⟨s% " ", [], rfl, by decide, by simp, by decide, by decide⟩ (.more (text := s% "1 ") (.done (by decide)))
example : ConditionText (s% " \\ ") [[]] (s% "0") := by
  refine .text (e := s% "\\") (res := []) ?_ ⟨s% " ", s% " ", rfl, by decide, by decide, by decide, by decide⟩
    (.more (text := []) (.done (by decide)))
  rintro ⟨w, _, hv⟩
  rcases hv with hv | hv <;> have := congrArg List.getLast? hv <;> simp at this

theorem nested_blocks (lenient : Bool) : Blocks sampleOracle (fun i => isExcluded [] i = true) lenient .body 0 true
    nestedLines [true, false, false, false, true, true, true, false, true] := by
  refine .cond (line := s% "%if 0") (kw := s% "%if") (text := s% " 0") (cont := []) (e := s% "0") (t := false)
    (body := [s% "%if 1", s% "a", s% "%endif"]) (fb := [false, false, false])
    (rest := [s% "%elif 1", s% "b", s% "%else", s% "c", s% "%endif"]) (fr := [true, true, true, false, true])
    (ls := []) (fs := []) (no_body _) (.inl rfl) (by decide) (conditionLine_of (s% "%if") (s% " 0") (by decide) (by decide)) text_0
    (fun _ => sample_expr false) ?_ ?_ .done
  · refine .cond (line := s% "%if 1") (kw := s% "%if") (text := s% " 1") (cont := []) (e := s% "1") (t := true)
      (body := [s% "a"]) (fb := [false]) (rest := [s% "%endif"]) (fr := [false])
      (ls := []) (fs := []) (no_body _) (.inl rfl) (by decide) (conditionLine_of (s% "%if") (s% " 1") (by decide) (by decide)) text_1
      (fun _ => sample_expr true) ?_ ?_ .done
    · exact .plain (no_body _) (.inl rfl) (plain_of_none rfl) .done
    · exact .endif (text := []) (no_body _) (.inl rfl) (conditionLine_of (s% "%endif") ([]) (by decide) (by decide))
  · refine .elif (line := s% "%elif 1") (kw := s% "%elif") (text := s% " 1") (cont := []) (e := s% "1") (t := true)
      (body := [s% "b"]) (fb := [true]) (rest := [s% "%else", s% "c", s% "%endif"]) (fr := [true, false, true])
      (.inr (.inr rfl)) (no_body _) (.inl rfl) (by decide) (conditionLine_of (s% "%elif") (s% " 1") (by decide) (by decide)) text_1
      (fun _ _ => sample_elif true) ?_ ?_
    · exact .plain (no_body _) (.inl rfl) (plain_of_none rfl) .done
    · refine .else_ (line := s% "%else") (text := []) (body := [s% "c"]) (fb := [false])
        (rest := [s% "%endif"]) (fr := [true])
        (.inr (.inr rfl)) (no_body _) (.inl rfl) (conditionLine_of (s% "%else") ([]) (by decide) (by decide)) ?_ ?_
      · exact .plain (no_body _) (.inl rfl) (plain_of_none rfl) .done
      · exact .endif (text := []) (no_body _) (.inl rfl) (conditionLine_of (s% "%endif") ([]) (by decide) (by decide))

example : processConditions sampleOracle [] nestedLines =
    .ok (nestedLines.zip [true, false, false, false, true, true, true, false, true]) :=
  (C12_validity_partial _ _ _ _ (nested_blocks false)).1

/-- a branch whose condition continues on the next line -/
example : Blocks sampleOracle (fun i => isExcluded [] i = true) false .body 0 true
    [s% "%if 0", s% "%elif 1\\", s% "", s% "b", s% "%endif"] [true, true, true, true, true] := by
  refine .cond (line := s% "%if 0") (kw := s% "%if") (text := s% " 0") (cont := []) (e := s% "0") (t := false)
    (body := []) (fb := []) (rest := [s% "%elif 1\\", s% "", s% "b", s% "%endif"]) (fr := [true, true, true, true])
    (ls := []) (fs := []) (no_body _) (.inl rfl) (by decide) (conditionLine_of (s% "%if") (s% " 0") (by decide) (by decide)) text_0
    (fun _ => sample_expr false) .done ?_ .done
  refine .elif (line := s% "%elif 1\\") (kw := s% "%elif") (text := s% " 1\\") (cont := [[]]) (e := s% "1") (t := true)
    (body := [s% "b"]) (fb := [true]) (rest := [s% "%endif"]) (fr := [true])
    (.inr (.inr rfl)) (no_body _) (.inl rfl) (by decide) (conditionLine_of (s% "%elif") (s% " 1\\") (by decide) (by decide))
    ?_ (fun _ _ => sample_elif true) ?_ ?_
  · exact .text (e := s% "1\\") (res := s% "1") (not_lone (c := '1') (by decide) (by decide) (by decide))
      ⟨s% " ", [], rfl, by decide, by simp, by decide, by decide⟩ (.more (text := s% "1") (.done (by decide)))
  · exact .plain (no_body _) (.inl rfl) (plain_of_none rfl) .done
  · exact .endif (text := []) (no_body _) (.inl rfl) (conditionLine_of (s% "%endif") ([]) (by decide) (by decide))

/-- C12 does not hold when two branches follow the one that is taken: the second one is reported valid. -/
theorem C12_violation : ∃ (lines : List Str) (fs : List Bool),
    Blocks sampleOracle (fun i => isExcluded [] i = true) true .body 0 true lines fs ∧
    processConditions sampleOracle [] lines ≠ .ok (lines.zip fs) ∧
    ∃ r, processConditions sampleOracle [] lines = .ok r ∧ (s% "b", true) ∈ r ∧ (s% "b", false) ∈ lines.zip fs := by
  refine ⟨[s% "%if 1", s% "%elif 0", s% "%else", s% "b", s% "%endif"], [true, true, true, false, true], ?_, ?_, ?_⟩
  · refine .cond (line := s% "%if 1") (kw := s% "%if") (text := s% " 1") (cont := []) (e := s% "1") (t := true)
      (body := []) (fb := [])
      (rest := [s% "%elif 0", s% "%else", s% "b", s% "%endif"]) (fr := [true, true, false, true])
      (ls := []) (fs := []) (no_body _) (.inl rfl) (by decide) (conditionLine_of (s% "%if") (s% " 1") (by decide) (by decide)) text_1
      (fun _ => sample_expr true) .done ?_ .done
    refine .elif (line := s% "%elif 0") (kw := s% "%elif") (text := s% " 0") (cont := []) (e := s% "0") (t := false)
      (body := []) (fb := []) (rest := [s% "%else", s% "b", s% "%endif"]) (fr := [true, false, true])
      (.inl rfl) (no_body _) (.inl rfl) (by decide) (conditionLine_of (s% "%elif") (s% " 0") (by decide) (by decide)) text_0
      (fun _ _ => sample_elif false) .done ?_
    refine .else_ (line := s% "%else") (text := []) (body := [s% "b"]) (fb := [false])
        (rest := [s% "%endif"]) (fr := [true])
        (.inl rfl) (no_body _) (.inl rfl) (conditionLine_of (s% "%else") ([]) (by decide) (by decide)) ?_ ?_
    · exact .plain (no_body _) (.inl rfl) (plain_of_none rfl) .done
    · exact .endif (text := []) (no_body _) (.inl rfl) (conditionLine_of (s% "%endif") ([]) (by decide) (by decide))
  · intro h
    have h2 : processConditions sampleOracle []
        [s% "%if 1", s% "%elif 0", s% "%else", s% "b", s% "%endif"] =
      .ok [(s% "%if 1", true), (s% "%elif 0", true), (s% "%else", true), (s% "b", true), (s% "%endif", true)] := rfl
    rw [h2] at h
    revert h
    simp
  · exact ⟨_, rfl, by decide, by decide⟩

end

/-! ### C13 -/

/-- C13: the lines of a definition are the lines that are excluded from processing, provided that no
definition occurs twice (see `C13_violation`). -/
theorem C13_excluded_lines_partial (m : MacroDefinitions) (hm : Distinct m)
    (hw : ∀ d ∈ m.data, '\n' ∉ d.ws3) (i : Nat) : isExcluded (excluded m) i = true ↔ OwnLine m i :=
  (MacroDefinitions.isExcluded_iff hm hw i).symm

/-- C13: the text of the bodies of macro definitions has no influence on the validity of any line: if
two spec files differ in that text only, the flags are the same (or processing fails in the same way).
What is missing: definitions that occur twice, and condition lines whose continuation is a definition. -/
theorem C13_bodies_have_no_effect_partial [Uni] (ex : Oracle) (m m' : MacroDefinitions)
    (hd : Distinct m) (hd' : Distinct m')
    (hw : ∀ d ∈ m.data, '\n' ∉ d.ws3) (hw' : ∀ d ∈ m'.data, '\n' ∉ d.ws3)
    (hl : SameLayout m.data m'.data) (hr : m.remainder = m'.remainder)
    (hn : NotJoined ex (OwnLine m) 0 (raw m)) :
    flags (processConditions ex (excluded m) (raw m)) = flags (processConditions ex (excluded m') (raw m')) := by
  have h1 := MacroDefinitions.isExcluded_iff hd hw
  have h2 := MacroDefinitions.isExcluded_iff hd' hw'
  have he : ∀ i, isExcluded (excluded m') i = isExcluded (excluded m) i := by
    intro i
    rw [Bool.eq_iff_iff, ← h1, ← h2]
    exact ⟨MacroDefinitions.ownLine_of_sameLayout (MacroDefinitions.sameLayout_symm hl),
      MacroDefinitions.ownLine_of_sameLayout hl⟩
  unfold processConditions
  rw [MacroDefinitions.processConditions_congr_exc he]
  exact Conditions.loop_congr h1 [] [true] (MacroDefinitions.sameOutside_raw hl hr) hn

/-- C13: a line of a definition gets the validity of its surroundings and does not open or close
anything: with such lines in front, the flags of the rest are the same as without them. -/
theorem C13_body_lines_inherit [Uni] (ex : Oracle) (exc : List Conditions.Range) (body ls : List Str)
    (h : ∀ k, k < body.length → isExcluded exc k = true) (fs : List Bool)
    (hr : Blocks ex (fun i => isExcluded exc i = true) false .body body.length true ls fs) :
    processConditions ex exc (body ++ ls) = .ok ((body ++ ls).zip (List.replicate body.length true ++ fs)) := by
  refine (C12_validity_partial ex exc _ _ ?_).1
  suffices H : ∀ (b : List Str) (i : Nat), (∀ k, k < b.length → isExcluded exc (i + k) = true) →
      Blocks ex (fun i => isExcluded exc i = true) false .body (i + b.length) true ls fs →
      Blocks ex (fun i => isExcluded exc i = true) false .body i true (b ++ ls)
        (List.replicate b.length true ++ fs) by
    exact H body 0 (by simpa using h) (by simpa using hr)
  intro b
  induction b with
  | nil => intro i _ hb; simpa using hb
  | cons l b ih =>
    intro i h1 h2
    rw [List.length_cons, List.replicate_succ, List.cons_append, List.cons_append]
    refine .inBody (by simpa using h1 0 (by simp)) (ih (i + 1) ?_ ?_)
    · intro k hk
      have := h1 (k + 1) (by simpa using hk)
      rwa [show i + 1 + k = i + (k + 1) by omega]
    · rwa [List.length_cons, show i + (b.length + 1) = i + 1 + b.length by omega] at h2

section
attribute [local instance] asciiUni

/-- a definition with a condition in its body -/
def bodyWithIf : List Str := [s% "%global a %{x", s% "%if 0", s% "}", s% "b"]

/-- the hypotheses of `C13_bodies_have_no_effect_partial` are met by two files that differ in a body -/
example :
    let m := parseLines bodyWithIf
    let m' := parseLines [s% "%global a %{y", s% "%endif", s% "}", s% "b"]
    flags (processConditions sampleOracle (excluded m) (raw m)) =
      flags (processConditions sampleOracle (excluded m') (raw m')) := by
  intro m m'
  refine C13_bodies_have_no_effect_partial sampleOracle m m' ?_ ?_ ?_ ?_ ?_ ?_ ?_
  · intro j k x y hjk _ hy
    have hl : m.data.length = 1 := by decide +kernel
    have : k < m.data.length := (List.getElem?_eq_some_iff.1 hy).1
    omega
  · intro j k x y hjk _ hy
    have hl : m'.data.length = 1 := by decide +kernel
    have : k < m'.data.length := (List.getElem?_eq_some_iff.1 hy).1
    omega
  · decide +kernel
  · decide +kernel
  · exact .more (by decide +kernel) (by decide +kernel) .done
  · decide +kernel
  · intro k line hk hi l hl
    have hraw : raw m = bodyWithIf := by decide +kernel
    rw [hraw] at hk
    have hmem : line ∈ bodyWithIf := List.mem_of_getElem? hk
    have hl' : l = line := by
      rcases hl with rfl | hl
      · rfl
      · simp only [bodyWithIf, List.mem_cons, List.not_mem_nil, or_false] at hmem
        rcases hmem with rfl | rfl | rfl | rfl <;> simp [sampleOracle] at hl <;> exact hl.symm
    subst hl'
    have hno : '\\' ∉ l := (by decide : ∀ l ∈ bodyWithIf, '\\' ∉ l) l hmem
    refine ⟨?_, fun _ => ?_⟩
    · rintro ⟨a, w, rfl, _⟩; simp at hno
    · rintro ⟨a, w, rfl, _⟩; simp at hno

/-- C13 fails for a definition that occurs twice: the conditions in the second one count. -/
theorem C13_violation :
    let lines := [s% "%global a %{x", s% "%if 0", s% "}", s% "%global a %{x", s% "%if 0", s% "}", s% "b"]
    let m := parseLines lines
    raw m = lines ∧ (∀ i, i < 6 → OwnLine m i) ∧
    ∃ r, processConditions sampleOracle (excluded m) lines = .ok r ∧ (s% "b", false) ∈ r := by
  intro lines m
  refine ⟨by decide +kernel, ?_, _, rfl, by decide⟩
  intro i hi
  have h0 : ∃ d, m.data[0]? = some d ∧ d.preceding.length = 0 ∧ (definitionLines d).length = 3 ∧
      (linesAbove m 0).length = 0 := by decide +kernel
  have h1 : ∃ d, m.data[1]? = some d ∧ d.preceding.length = 0 ∧ (definitionLines d).length = 3 ∧
      (linesAbove m 1).length = 3 := by decide +kernel
  rcases Nat.lt_or_ge i 3 with h | h
  · obtain ⟨d, a, b, c, e⟩ := h0
    exact ⟨0, d, a, by omega, by omega⟩
  · obtain ⟨d, a, b, c, e⟩ := h1
    exact ⟨1, d, a, by omega, by omega⟩

end

end Specfile.Props
