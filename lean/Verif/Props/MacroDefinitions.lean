import Verif.Proof.MacroDefinitions7
import Verif.Props.Utils
/-
Properties of macro definitions (C02, C16, C21, C22, C54, C55).
-/
namespace Specfile.Props
open Py Regex Spec
open MacroDefinitions (parseLines parseFlagged raw delItem delSlice delAttr setBody parse)

/-! ### C02 -/

/-- C02: reading macro definitions and writing them back gives the same lines, for any validity of the
lines. What is missing: the constructs excluded by `CleanLines`, see the violations below. -/
theorem C02_roundtrip_partial [Uni] (lines : List (Str × Bool)) (h : CleanLines (lines.map (·.1))) :
    raw (parseFlagged lines) = lines.map (·.1) := by
  have := MacroDefinitions.parseLoop_raw lines [] h
  simpa [parseFlagged] using this

/-- C02: the same for the parser that processes conditions first, whatever macros expand to. -/
theorem C02_parse_roundtrip_partial [Uni] (ex : Conditions.Oracle) (withConditions : Bool) (lines : List Str)
    (m : MacroDefinitions) (h : CleanLines lines) (hm : parse ex withConditions lines = .ok m) :
    raw m = lines := by
  unfold parse at hm
  have key : ∀ f : List (Str × Bool), f.map (·.1) = lines → raw (parseFlagged f) = lines := by
    intro f hf
    rw [C02_roundtrip_partial f (by rw [hf]; exact h), hf]
  split at hm
  · cases hm
    exact key _ (by simp [Function.comp_def])
  · split at hm
    · cases hm
    · rename_i ls hls
      cases hm
      exact key ls (Conditions.loop_lines _ _ _ _ _ _ hls)

/-- C02 for any text without `%dnl … # … %%`: all that is not whitespace is kept, in order. -/
theorem C02_mod_whitespace [Uni] (lines : List (Str × Bool))
    (h : ∀ l ∈ lines, ¬ (s% "%dnl" <:+: l.1 ∧ '#' ∈ l.1 ∧ s% "%%" <:+: l.1)) :
    (raw (parseFlagged lines)).flatten.filter (fun c => !isSpace c) =
      (lines.map (·.1)).flatten.filter (fun c => !isSpace c) := by
  have := MacroDefinitions.parseLoop_inked lines [] h
  simpa [parseFlagged, MacroDefinitions.inked, List.flatMap_def, List.filter_flatten, List.map_map] using this

section
attribute [local instance] asciiUni

/-- lines that meet the hypotheses -/
def sampleDefinitions : List Str :=
  [s% "# comment", s% "%global a %{expand:", s% "b", s% "}", s% "#define x(o:) \t1 ", s% "Name: n"]

theorem sample_clean : CleanLines sampleDefinitions where
  noNl := by decide +kernel
  noDnlHash := by
    intro l hl h
    have : ∀ l ∈ sampleDefinitions, ¬ s% "%dnl" <:+: l := by
      intro l hl
      rw [← List.isInfixOf_internal_iff_isInfix]
      revert l; decide +kernel
    exact this l hl h.1
  noOpenBlank := by
    intro l hl hm a w hw hne hsp
    have : ∀ l ∈ sampleDefinitions, (∃ x ∈ l.getLast?, isSpace x = true) → ¬ (s% "%global" <:+: l ∨ s% "%define" <:+: l) := by
      intro l hl
      rw [← List.isInfixOf_internal_iff_isInfix, ← List.isInfixOf_internal_iff_isInfix]
      revert l; decide +kernel
    refine absurd hm (this l hl ?_)
    subst hw
    rw [List.getLast?_append, List.getLast?_eq_some_getLast hne]
    exact ⟨w.getLast hne, rfl, List.all_eq_true.1 hsp _ (List.getLast_mem hne)⟩
  noLostBlank := by
    intro pre a w h _
    have : sampleDefinitions.getLast? = some [] := by rw [h]; simp
    exact absurd this (by decide)

example : raw (parseLines sampleDefinitions) = sampleDefinitions ∧
    (parseLines sampleDefinitions).data.length = 2 := by
  refine ⟨?_, by decide +kernel⟩
  have := C02_roundtrip_partial (sampleDefinitions.map (fun l => (l, true)))
    (by simpa [Function.comp_def] using sample_clean)
  simpa [Function.comp_def, parseLines] using this

/-- C02 fails: `%dnl` is lost in front of a comment with an escaped definition. -/
theorem C02_violation_dnl : raw (parseLines [s% "%dnl # %%global foo bar"]) = [s% " # %%global foo bar"] := rfl

/-- C02 fails: whitespace at the end of the first line of a body moves to the end of the body. -/
theorem C02_violation_whitespace : raw (parseLines [s% "%global a %{expand: ", s% "}"]) =
    [s% "%global a %{expand:", s% "} "] := rfl

/-- C02 fails: an empty last line is lost if the body is never closed. -/
theorem C02_violation_last_line : raw (parseLines [s% "%global a %{b", s% "c ", s% ""]) ≠
    [s% "%global a %{b", s% "c ", s% ""] := by decide +kernel

end

/-! ### C16 -/

/-- C16: deleting a definition by a non-negative index removes exactly its lines. What is missing:
negative indices and deletion by name, see the violations below. -/
theorem C16_delete_partial (m : MacroDefinitions) (k : Nat) (hk : k < m.data.length) :
    (delItem m k).2 = none ∧
    raw m = linesWithout [] 0 m.data ++ m.remainder ∧
    raw (delItem m k).1 = linesWithout [k] 0 m.data ++ m.remainder ∧
    (delItem m k).1.data.map definitionLines = (m.data.eraseIdx k).map definitionLines := by
  obtain ⟨h1, h2, _⟩ := MacroDefinitions.delItem_nat hk
  have h3 := MacroDefinitions.delAll_spec [k] (m := m) (n := m.data.length) (Nat.le_refl _) (by simp)
    (by simpa using hk)
  refine ⟨h1, MacroDefinitions.raw_eq_linesWithout m, ?_, h2⟩
  rw [← MacroDefinitions.without_eq, ← h3.2]
  unfold MacroDefinitions.delAll
  generalize hd : delItem m (k : Int) = r
  obtain ⟨m', o⟩ := r
  rw [hd] at h1
  simp only at h1
  subst h1
  rfl

/-- C16: an index out of range is refused and nothing is changed. -/
theorem C16_out_of_range (m : MacroDefinitions) (i : Int) (h : m.data.length ≤ i ∨ i < -m.data.length) :
    delItem m i = (m, some .indexError) := by
  unfold delItem
  have : pyIndex m.data.length i = none := by
    unfold pyIndex
    split
    · rw [if_neg (by omega)]
    · rw [if_neg (by omega)]
  rw [this]

/-- C16: deleting a slice with a positive step removes exactly the lines of its definitions. -/
theorem C16_delete_slice_partial (m : MacroDefinitions) (start stop step : Option Int) (l : List Nat)
    (hs : 0 < step.getD 1) (hl : sliceIndices m.data.length start stop step = .ok l) :
    (delSlice m start stop step).2 = none ∧
    raw (delSlice m start stop step).1 = linesWithout l 0 m.data ++ m.remainder := by
  obtain ⟨hp, hb⟩ := MacroDefinitions.increasing_pairwise (sliceIndices_increasing hs hl)
  unfold delSlice
  rw [hl]
  have := MacroDefinitions.delAll_spec l.reverse (m := m) (n := m.data.length) (Nat.le_refl _)
    (by rw [List.pairwise_reverse]; exact hp) (by simpa using hb)
  refine ⟨this.1, ?_⟩
  rw [← MacroDefinitions.without_eq]
  have h2 := this.2
  rw [MacroDefinitions.without_congr (js := l) (by simp)] at h2
  exact h2

/-- C16: deletion by name removes the definition that lookup by name finds; its lines are removed and no
others if no lines precede it (other lines above it are lost, see `C16_violation_by_name`). -/
theorem C16_delete_by_name_partial (m : MacroDefinitions) (name : Str) (k : Nat) (d : MacroDefinition)
    (hk : m.find name none = .ok k) (hd : m.data[k]? = some d) (hp : d.preceding = []) :
    (delAttr m name).2 = none ∧
    raw (delAttr m name).1 = linesWithout [k] 0 m.data ++ m.remainder := by
  have hlt : k < m.data.length := (List.getElem?_eq_some_iff.1 hd).1
  obtain ⟨_, _, h3, _⟩ := C16_delete_partial m k hlt
  obtain ⟨_, _, h⟩ := MacroDefinitions.delItem_nat hlt
  rw [← h3, h d hd, hp]
  simp [delAttr, hk, raw, MacroDefinitions.flatten_erase]

section
attribute [local instance] asciiUni

/-- `# c`, `%global a 1`, an empty line, `%global b 2` -/
def twoDefinitions : MacroDefinitions := parseLines [s% "# c", s% "%global a 1", s% "", s% "%global b 2"]

example : raw (delItem twoDefinitions 0).1 = [s% "# c", s% "", s% "%global b 2"] := by decide +kernel
example : raw (delSlice twoDefinitions none none (some 1)).1 = [s% "# c", s% ""] := by decide +kernel
example : sliceIndices twoDefinitions.data.length none none none = .ok [0, 1] := by decide +kernel

/-- C16 fails for negative indices: the lines above the deleted definition move up. -/
theorem C16_violation_negative :
    delItem twoDefinitions (-1) = (⟨(twoDefinitions.data.take 1).map
      (fun d => { d with preceding := [s% "", s% "# c"] }), []⟩, none) ∧
    raw (delItem twoDefinitions (-1)).1 = [s% "", s% "# c", s% "%global a 1"] := by
  constructor <;> decide +kernel

/-- C16 fails for the lowest index: the definition is deleted, its lines are lost, and an exception is
raised nevertheless. -/
theorem C16_violation_lowest :
    (delItem twoDefinitions (-2)).2 = some .indexError ∧
    raw (delItem twoDefinitions (-2)).1 = [s% "", s% "%global b 2"] := by
  constructor <;> decide +kernel

/-- C16 fails for a negative step. -/
theorem C16_violation_negative_step :
    (delSlice twoDefinitions none none (some (-1))).2 = some .indexError := by decide +kernel

/-- C16 fails for deletion by name: the lines above the definition are lost. -/
theorem C16_violation_by_name :
    raw (delAttr twoDefinitions (s% "b")).1 = [s% "# c", s% "%global a 1"] := by decide +kernel

end

/-! ### C21 -/

/-- C21: lookup by name finds the first valid match, or the first match if none is valid; it fails
only if there is no match. -/
theorem C21_find_definition (m : MacroDefinitions) (name : Str) :
    (∀ k, m.find name none = .ok k ↔ ∃ d, m.data[k]? = some d ∧ d.name = name ∧
      ((d.valid = true ∧ ∀ j x, j < k → m.data[j]? = some x → x.name = name → x.valid = false) ∨
       ((∀ x ∈ m.data, x.name = name → x.valid = false) ∧
        ∀ j x, j < k → m.data[j]? = some x → x.name ≠ name))) ∧
    (m.find name none = .error .valueError ↔ ∀ x ∈ m.data, x.name ≠ name) ∧
    (∀ e, m.find name none = .error e → e = .valueError) := by
  have hspec := MacroDefinitions.findLoop_spec name 0 none m.data
  have hidx : ∀ (p : MacroDefinition → Bool) k, m.data.findIdx? p = some k ↔
      ∃ d, m.data[k]? = some d ∧ p d = true ∧ ∀ j x, j < k → m.data[j]? = some x → p x = false := by
    intro p k
    rw [List.findIdx?_eq_some_iff_getElem]
    constructor
    · rintro ⟨h, h1, h2⟩
      refine ⟨_, List.getElem?_eq_getElem h, h1, ?_⟩
      intro j x hj hx
      have := h2 j hj
      rw [List.getElem?_eq_getElem (by omega)] at hx
      cases hx
      simpa using this
    · rintro ⟨d, hd, h1, h2⟩
      obtain ⟨h, rfl⟩ := List.getElem?_eq_some_iff.1 hd
      refine ⟨h, h1, ?_⟩
      intro j hj
      have := h2 j _ hj (List.getElem?_eq_getElem (by omega))
      simpa using this
  cases hA : m.data.findIdx? (fun x => x.name == name && x.valid) with
  | some k0 =>
    rw [hA] at hspec
    simp only [Nat.zero_add] at hspec
    have hf : m.find name none = .ok k0 := by simp [MacroDefinitions.find, hspec]
    obtain ⟨d, hd, hp, hmin⟩ := (hidx _ _).1 hA
    simp only [Bool.and_eq_true, beq_iff_eq] at hp
    rw [hf]
    refine ⟨?_, ?_, by simp⟩
    · intro k
      constructor
      · intro h
        cases h
        refine ⟨d, hd, hp.1, .inl ⟨hp.2, ?_⟩⟩
        intro j x hj hx hn
        have := hmin j x hj hx
        simpa [hn] using this
      · rintro ⟨d', hd', hn', h | h⟩
        · have : k = k0 := by
            rcases Nat.lt_trichotomy k k0 with hlt | heq | hgt
            · have := hmin k d' hlt hd'
              simp [hn', h.1] at this
            · exact heq
            · have := h.2 k0 d hgt hd hp.1
              rw [hp.2] at this; cases this
          rw [this]
        · have := h.1 d (List.mem_of_getElem? hd) hp.1
          rw [hp.2] at this; cases this
    · constructor
      · simp
      · intro h; exact absurd hp.1 (h d (List.mem_of_getElem? hd))
  | none =>
    have hnone : ∀ x ∈ m.data, x.name = name → x.valid = false := by
      intro x hx hn
      have := List.findIdx?_eq_none_iff.1 hA x hx
      simpa [hn] using this
    rw [hA] at hspec
    simp only at hspec
    cases hB : m.data.findIdx? (fun x => x.name == name) with
    | none =>
      rw [hB] at hspec
      simp only [Option.map_none] at hspec
      have hno : ∀ x ∈ m.data, x.name ≠ name := by
        intro x hx
        have := List.findIdx?_eq_none_iff.1 hB x hx
        simpa using this
      have hf : m.find name none = .error .valueError := by simp [MacroDefinitions.find, hspec]
      rw [hf]
      refine ⟨?_, ?_, by simp⟩
      · intro k
        constructor
        · simp
        · rintro ⟨d, hd, hn, _⟩
          exact absurd hn (hno d (List.mem_of_getElem? hd))
      · exact ⟨fun _ => hno, fun _ => rfl⟩
    | some k0 =>
      rw [hB] at hspec
      simp only [Option.map_some, Nat.zero_add] at hspec
      have hf : m.find name none = .ok k0 := by simp [MacroDefinitions.find, hspec]
      obtain ⟨d, hd, hp, hmin⟩ := (hidx _ _).1 hB
      simp only [beq_iff_eq] at hp
      rw [hf]
      refine ⟨?_, ?_, by simp⟩
      · intro k
        constructor
        · intro h
          cases h
          refine ⟨d, hd, hp, .inr ⟨hnone, ?_⟩⟩
          intro j x hj hx
          simpa using hmin j x hj hx
        · rintro ⟨d', hd', hn', h | h⟩
          · have := hnone d' (List.mem_of_getElem? hd') hn'
            rw [h.1] at this; cases this
          · have : k = k0 := by
              rcases Nat.lt_trichotomy k k0 with hlt | heq | hgt
              · have := hmin k d' hlt hd'
                simp [hn'] at this
              · exact heq
              · exact absurd hp (h.2 k0 d hgt hd)
            rw [this]
      · constructor
        · simp
        · intro h; exact absurd hp (h d (List.mem_of_getElem? hd))

/-- C21: with a position, lookup finds the definition with that name that starts on that line, and fails
if there is none. What is missing: definitions that occur twice. -/
theorem C21_find_definition_at_partial (m : MacroDefinitions) (hm : Distinct m) (name : Str) (p : Nat) :
    (∀ k, m.find name (some p) = .ok k ↔ ∃ d, m.data[k]? = some d ∧ d.name = name ∧
      (linesAbove m k).length + d.preceding.length = p) ∧
    (∀ e, m.find name (some p) = .error e → e = .valueError) := by
  have hstart : ∀ j k x y, j < k → m.data[j]? = some x → m.data[k]? = some y →
      (linesAbove m j).length + x.preceding.length < (linesAbove m k).length + y.preceding.length := by
    intro j k x y hjk hx hy
    have h1 : linesAbove m k = linesAbove m j ++ x.raw ++ (((m.data.take k).drop (j + 1)).map MacroDefinition.raw).flatten := by
      rw [MacroDefinitions.linesAbove_eq, MacroDefinitions.linesAbove_eq,
        MacroDefinitions.flatten_split (m.data.take k) MacroDefinition.raw (k := j) (x := x)
          (by rw [List.getElem?_take]; simp [hjk, hx]), List.take_take, Nat.min_eq_left (by omega)]
    have h2 : x.raw.length > x.preceding.length := by
      rw [MacroDefinitions.raw_own, List.length_append]
      have := List.length_pos_iff.2 (MacroDefinitions.own_ne_nil x)
      omega
    rw [h1, List.length_append, List.length_append]
    omega
  have key : ∀ (l : List MacroDefinition) (i : Nat), (∀ k, (l[k]? = m.data[i + k]?)) →
      match MacroDefinitions.findPosLoop m name p i l with
      | .ok k => i ≤ k ∧ ∃ d, m.data[k]? = some d ∧ d.name = name ∧
          (linesAbove m k).length + d.preceding.length = p
      | .error e => e = .valueError ∧ ∀ k d, i ≤ k → m.data[k]? = some d → d.name = name →
          (linesAbove m k).length + d.preceding.length ≠ p := by
    intro l
    induction l with
    | nil =>
      intro i h
      refine ⟨rfl, ?_⟩
      intro k d hk hd
      have := h (k - i)
      rw [show i + (k - i) = k by omega, hd] at this
      simp at this
    | cons x xs ih =>
      intro i h
      have hx : m.data[i]? = some x := by have := h 0; simpa using this.symm
      have ih := ih (i + 1) (fun k => by
        have := h (k + 1); rw [show i + 1 + k = i + (k + 1) by omega, ← this]; simp)
      have hlift : ∀ (hx' : ¬ (x.name = name ∧ (linesAbove m i).length + x.preceding.length = p)),
          match MacroDefinitions.findPosLoop m name p (i + 1) xs with
          | .ok k => i ≤ k ∧ ∃ d, m.data[k]? = some d ∧ d.name = name ∧
              (linesAbove m k).length + d.preceding.length = p
          | .error e => e = .valueError ∧ ∀ k d, i ≤ k → m.data[k]? = some d → d.name = name →
              (linesAbove m k).length + d.preceding.length ≠ p := by
        intro hx'
        generalize MacroDefinitions.findPosLoop m name p (i + 1) xs = r at ih
        cases r with
        | ok k => exact ⟨by omega, ih.2⟩
        | error e =>
          refine ⟨ih.1, ?_⟩
          intro k d hk hd hn hp
          rcases Nat.eq_or_lt_of_le hk with rfl | hlt
          · rw [hx] at hd; cases hd; exact hx' ⟨hn, hp⟩
          · exact ih.2 k d hlt hd hn hp
      unfold MacroDefinitions.findPosLoop
      by_cases hn : x.name = name
      · simp only [hn, beq_self_eq_true, if_true, MacroDefinitions.position_lines hm hx]
        by_cases hp : (linesAbove m i).length + x.preceding.length = p
        · simp only [hp, if_true]
          exact ⟨Nat.le_refl _, x, hx, hn, hp⟩
        · simp only [hp, if_false]
          exact hlift (fun h => hp h.2)
      · simp only [beq_iff_eq, hn, if_false]
        exact hlift (fun h => hn h.1)
  have := key m.data 0 (by simp)
  simp only [MacroDefinitions.find]
  generalize MacroDefinitions.findPosLoop m name p 0 m.data = r at this
  cases r with
  | error e =>
    refine ⟨?_, ?_⟩
    · intro k
      constructor
      · simp
      · rintro ⟨d, hd, hn, hp⟩
        exact absurd hp (this.2 k d (Nat.zero_le _) hd hn)
    · intro e' h; cases h; exact this.1
  | ok k0 =>
    refine ⟨?_, by simp⟩
    obtain ⟨_, d, hd, hn, hp⟩ := this
    intro k
    constructor
    · intro h; cases h; exact ⟨d, hd, hn, hp⟩
    · rintro ⟨d', hd', hn', hp'⟩
      rcases Nat.lt_trichotomy k k0 with hlt | heq | hgt
      · have := hstart k k0 d' d hlt hd' hd; omega
      · rw [heq]
      · have := hstart k0 k d d' hgt hd hd'; omega

section
attribute [local instance] asciiUni

example : (parseFlagged [(s% "%global a 1", false), (s% "%global a 2", true)]).find (s% "a") none = .ok 1 := by
  decide +kernel
example : (parseFlagged [(s% "%global a 1", false), (s% "%global a 2", false)]).find (s% "a") none = .ok 0 := by
  decide +kernel
example : twoDefinitions.find (s% "b") (some 3) = .ok 1 ∧ twoDefinitions.find (s% "b") (some 1) = .error .valueError := by
  constructor <;> decide +kernel

end

/-! ### C22 -/

/-- C22: the position of a definition is the number of lines above its first line. What is missing:
definitions that occur twice. -/
theorem C22_definition_position_partial (m : MacroDefinitions) (hm : Distinct m) (k : Nat) (d : MacroDefinition)
    (hd : m.data[k]? = some d) : ∃ above below p, m.position d = .ok p ∧
      raw m = above ++ definitionLines d ++ below ∧ above.length = p ∧
      above = linesAbove m k ++ d.preceding := by
  refine ⟨_, (((m.data.drop (k + 1)).map MacroDefinition.raw).flatten ++ m.remainder), _,
    MacroDefinitions.position_lines hm hd, ?_, by rw [List.length_append], rfl⟩
  rw [MacroDefinitions.linesAbove_eq]
  unfold raw
  rw [MacroDefinitions.flatten_split m.data MacroDefinition.raw hd, MacroDefinitions.raw_own]
  simp [MacroDefinitions.own_eq]

section
attribute [local instance] asciiUni

theorem two_distinct : Distinct twoDefinitions := by
  intro j k x y hjk hx hy
  have hl : twoDefinitions.data.length = 2 := by decide +kernel
  have : k < twoDefinitions.data.length := (List.getElem?_eq_some_iff.1 hy).1
  obtain rfl : k = 1 := by omega
  obtain rfl : j = 0 := by omega
  intro h
  have h1 : (twoDefinitions.data[0]?).map (·.name) ≠ (twoDefinitions.data[1]?).map (·.name) := by decide +kernel
  rw [hx, hy] at h1
  apply h1
  rw [← h]
  rfl

example (d : MacroDefinition) (hd : twoDefinitions.data[1]? = some d) : ∃ above below p,
    twoDefinitions.position d = .ok p ∧ raw twoDefinitions = above ++ definitionLines d ++ below ∧
      above.length = p ∧ above = linesAbove twoDefinitions 1 ++ d.preceding :=
  C22_definition_position_partial _ two_distinct 1 d hd

/-- C22 fails for a definition that occurs twice: both report the position of the first. -/
theorem C22_violation_definition :
    let m := parseLines [s% "%global a 1", s% "%global a 1"]
    (m.data.map m.position) = [.ok 0, .ok 0] := by decide +kernel

/-- C21 fails for definitions that occur twice: the second one is not found at its position. -/
theorem C21_position_violation :
    let m := parseLines [s% "%global a 1", s% "%global a 1"]
    (m.find (s% "a") (some 0) = .ok 0) ∧ m.find (s% "a") (some 1) = .error .valueError := by decide +kernel

end

/-! ### C54 -/

/-- C54: definitions whose fields describe their text are read back as they were, together with the lines
around them. -/
theorem C54_read_back [Uni] (data : List MacroDefinition) (remainder : List Str)
    (hd : ∀ d ∈ data, Readable d)
    (hr : ∀ l ∈ remainder, ¬ s% "global" <:+: l ∧ ¬ s% "define" <:+: l) :
    parseLines (raw ⟨data, remainder⟩) = ⟨data, remainder⟩ :=
  MacroDefinitions.parse_readable data remainder hd hr

/-- C54: a body that is set, written and read again is that body, and nothing else has changed. -/
theorem C54_set_and_read_back [Uni] (m m' : MacroDefinitions) (name body : Str)
    (hd : ∀ d ∈ m'.data, Readable d)
    (hr : ∀ l ∈ m.remainder, ¬ s% "global" <:+: l ∧ ¬ s% "define" <:+: l)
    (hc : m.contains name = true) (hs : setBody m name body = .ok m') :
    parseLines (raw m') = m' ∧ ∃ k d, m.find name none = .ok k ∧ m.data[k]? = some d ∧
      (parseLines (raw m')).get name none = .ok { d with body := body } := by
  have hrem : m'.remainder = m.remainder := by
    unfold setBody at hs
    rw [if_neg (by simp [hc])] at hs
    split at hs
    · cases hs
    · cases hs; rfl
  have hparse : parseLines (raw m') = m' := by
    obtain ⟨data, remainder⟩ := m'
    simp only at hrem
    exact C54_read_back data remainder hd (by rw [hrem]; exact hr)
  refine ⟨hparse, ?_⟩
  rw [hparse]
  unfold setBody at hs
  rw [if_neg (by simp [hc])] at hs
  split at hs
  · cases hs
  · rename_i k hk
    cases hs
    obtain ⟨d, hdk, hn, hcase⟩ := ((C21_find_definition m name).1 k).1 hk
    refine ⟨k, d, hk, hdk, ?_⟩
    have hget : ∀ j, (m.data.modify k (fun x => { x with body := body }))[j]? =
        (m.data[j]?).map (fun x => if j = k then { x with body := body } else x) := by
      intro j
      rw [List.getElem?_modify]
      by_cases h : k = j
      · simp [h]
      · simp [h, Ne.symm h]
    have hfind : MacroDefinitions.find { m with data := m.data.modify k (fun x => { x with body := body }) } name none = .ok k := by
      rw [((C21_find_definition _ name).1 k)]
      refine ⟨{ d with body := body }, by simp [hget, hdk], hn, ?_⟩
      rcases hcase with h | h
      · refine .inl ⟨h.1, ?_⟩
        intro j x hj hx hn'
        simp only [hget] at hx
        cases hxj : m.data[j]? with
        | none => simp [hxj] at hx
        | some y =>
          simp only [hxj, Option.map_some, Option.some.injEq, if_neg (by omega : ¬ j = k)] at hx
          exact h.2 j x hj (by rw [hxj, hx]) hn'
      · refine .inr ⟨?_, ?_⟩
        · intro x hx hn'
          obtain ⟨j, hj⟩ := List.getElem?_of_mem hx
          rw [hget] at hj
          cases hxj : m.data[j]? with
          | none => simp [hxj] at hj
          | some y =>
            simp only [hxj, Option.map_some, Option.some.injEq] at hj
            have := h.1 y (List.mem_of_getElem? hxj)
            subst hj
            split at hn' <;> split <;> first | exact this hn' | contradiction
        · intro j x hj hx
          simp only [hget] at hx
          cases hxj : m.data[j]? with
          | none => simp [hxj] at hx
          | some y =>
            simp only [hxj, Option.map_some, Option.some.injEq, if_neg (by omega : ¬ j = k)] at hx
            exact h.2 j x hj (by rw [hxj, hx])
    unfold MacroDefinitions.get
    rw [hfind]
    simp [hget, hdk]

section
attribute [local instance] asciiUni

/-- `%global a %{x:\n 1}` -/
def sampleReadable : MacroDefinition :=
  ⟨s% "a", s% "%{x:\n 1}", true, false, .dnl, [], s% " ", s% " ", [], [], true, [s% "# c"]⟩

theorem sample_readable : Readable sampleReadable where
  intro := .plain rfl rfl rfl
  ws0 := by decide
  ws1 := ⟨by decide, by decide⟩
  name := ⟨s% "a", [], rfl, by decide, by decide, .inl rfl⟩
  ws2 := ⟨by decide, by decide⟩
  start := by decide
  stop := by decide
  ws3 := by decide
  single := by decide
  finished := by
    intro _
    rw [← MacroDefinitions.open_iff]
    decide +kernel
  unfinished := by
    intro x y h
    rw [← MacroDefinitions.open_iff]
    have hx : x = s% "%{x:" := by
      have h1 := splitC_append_sep (c := '\n') (a := s% "%{x:") (s% " 1}") (by decide)
      by_cases hn : '\n' ∈ x
      · exfalso
        have hc : (s% "%{x:\n 1}").count '\n' = 1 := by decide
        have : sampleReadable.body.count '\n' = 1 := hc
        rw [h, List.count_append, List.count_cons_self] at this
        have := List.count_pos_iff.2 hn
        omega
      · have h2 := splitC_append_sep (c := '\n') (a := x) y hn
        have h3 : sampleReadable.body = s% "%{x:" ++ '\n' :: s% " 1}" := rfl
        rw [← h, h3, h1] at h2
        exact (List.cons.inj h2).1.symm
    rw [hx]
    decide +kernel
  firstLine := by
    intro x y h hn
    have h1 := splitC_append_sep (c := '\n') (a := s% "%{x:") (s% " 1}") (by decide)
    have h2 := splitC_append_sep (c := '\n') (a := x) y hn
    have h3 : sampleReadable.body = s% "%{x:" ++ '\n' :: s% " 1}" := rfl
    rw [← h, h3, h1] at h2
    rw [← (List.cons.inj h2).1]
    decide
  valid := rfl
  preceding := by
    intro l hl
    simp only [sampleReadable, List.mem_cons, List.not_mem_nil, or_false] at hl
    subst hl
    rw [← List.isInfixOf_internal_iff_isInfix, ← List.isInfixOf_internal_iff_isInfix]
    decide +kernel

example : parseLines [s% "# c", s% "%global a %{x:", s% " 1}", s% "Name: n"] = ⟨[sampleReadable], [s% "Name: n"]⟩ := by
  have := C54_read_back [sampleReadable] [s% "Name: n"] (by simpa using sample_readable) (by
    intro l hl
    simp only [List.mem_cons, List.not_mem_nil, or_false] at hl
    subst hl
    rw [← List.isInfixOf_internal_iff_isInfix, ← List.isInfixOf_internal_iff_isInfix]
    decide +kernel)
  exact this

end

/-! ### C55 -/

/-- C55: setting the body of a macro rewrites the lines of the definition that lookup by name finds, and
no others. -/
theorem C55_set_body_is_local (m m' : MacroDefinitions) (name body : Str) (hc : m.contains name = true)
    (hs : setBody m name body = .ok m') : ∃ k d above below, m.find name none = .ok k ∧
      m.data[k]? = some d ∧ raw m = above ++ definitionLines d ++ below ∧
      raw m' = above ++ definitionLines { d with body := body } ++ below ∧
      m'.data = m.data.modify k (fun x => { x with body := body }) ∧ m'.remainder = m.remainder := by
  unfold setBody at hs
  rw [if_neg (by simp [hc])] at hs
  split at hs
  · cases hs
  · rename_i k hk
    cases hs
    obtain ⟨d, hd, _, _⟩ := ((C21_find_definition m name).1 k).1 hk
    refine ⟨k, d, ((m.data.take k).map MacroDefinition.raw).flatten ++ d.preceding,
      ((m.data.drop (k + 1)).map MacroDefinition.raw).flatten ++ m.remainder, hk, hd, ?_, ?_, rfl, rfl⟩
    · unfold raw
      rw [MacroDefinitions.flatten_split m.data MacroDefinition.raw hd, MacroDefinitions.raw_own]
      simp [MacroDefinitions.own_eq]
    · unfold raw
      rw [MacroDefinitions.flatten_modify m.data MacroDefinition.raw _ hd, MacroDefinitions.raw_own]
      simp [MacroDefinitions.own_eq]

/-- C55: the lines of a definition are the lines of its text. -/
theorem C55_definition_lines (d : MacroDefinition) (h : OneLineHead d) :
    definitionLines d = splitC '\n' d.str ∧ d.raw = d.preceding ++ definitionLines d :=
  ⟨MacroDefinitions.definitionLines_str (MacroDefinitions.head_noNl h), MacroDefinitions.raw_own d⟩

/-- C55: setting a body never fails. If there is no such definition, nothing changes. -/
theorem C55_set_body_succeeds (m : MacroDefinitions) (name body : Str) :
    (∃ m', setBody m name body = .ok m') ∧ ((∀ x ∈ m.data, x.name ≠ name) → setBody m name body = .ok m) := by
  have hc : m.contains name = false ↔ ∀ x ∈ m.data, x.name ≠ name := by
    simp [MacroDefinitions.contains]
  unfold setBody
  refine ⟨?_, fun h => by rw [if_pos (by simp [hc.2 h])]⟩
  cases h : m.contains name with
  | false => simp
  | true =>
    cases hf : m.find name none with
    | ok k => simp
    | error e =>
      have := (C21_find_definition m name).2.2 e hf
      subst this
      rw [hc.2 ((C21_find_definition m name).2.1.1 hf)] at h
      cases h

section
attribute [local instance] asciiUni

example : ∃ m', setBody twoDefinitions (s% "b") (s% "%{x\n}") = .ok m' ∧
    raw m' = [s% "# c", s% "%global a 1", s% "", s% "%global b %{x", s% "}"] :=
  ⟨_, rfl, by decide +kernel⟩

end

end Specfile.Props
