import Verif.Props.Sourcelist
import Verif.Props.MacroDefinitions
/-
C84: the validity of definitions, tags and entries of lists of sources is that of the line they begin on.
-/
namespace Specfile
open Py Regex Spec

namespace MacroDefinitions

/-- each definition has the flag of the line it begins on -/
theorem parseLoop_valid [Uni] (ls : List (Str × Bool)) (buffer : List Str) (hc : CleanLines (ls.map (·.1)))
    (k : Nat) (d : MacroDefinition) (hd : (parseLoop buffer 0 ls).data[k]? = some d) :
    ∃ q, (((parseLoop buffer 0 ls).data.take k).map MacroDefinition.raw).flatten.length + d.preceding.length =
        buffer.length + q ∧ (ls[q]?).map (·.2) = some d.valid := by
  induction hn : ls.length using Nat.strongRecOn generalizing ls buffer k with
  | ind n ih =>
    cases ls with
    | nil => simp [parseLoop] at hd
    | cons l ls =>
      simp only [parseLoop] at hd ⊢
      split at hd
      · rename_i hm
        obtain ⟨q, h1, h2⟩ := ih ls.length (by simp at hn; omega) ls _ (cleanLines_tail hc) k hd rfl
        rw [List.length_append, List.length_singleton] at h1
        exact ⟨q + 1, by omega, by simpa using h2⟩
      · rename_i t ht
        obtain ⟨h1, h2⟩ := build_raw (valid := l.2) (buffer := buffer) (rest := ls) ht hc
        rw [parseLoop_skip] at hd ⊢
        cases k with
        | zero =>
          simp only [List.getElem?_cons_zero, Option.some.injEq] at hd
          subst hd
          exact ⟨0, by simp [build], by simp [build]⟩
        | succ k =>
          simp only [List.getElem?_cons_succ] at hd
          obtain ⟨q, g1, g2⟩ := ih (ls.drop (build t l.2 buffer ls).2).length (by simp at hn ⊢; omega) _ []
            (by rw [List.map_drop]; exact cleanLines_drop _ (cleanLines_tail hc)) k hd rfl
          refine ⟨1 + ((build t l.2 buffer ls).2 + q), ?_, ?_⟩
          · simp only [List.take_succ_cons, List.map_cons, List.flatten_cons, List.length_append, h2,
              List.length_cons, List.length_map, List.length_take, Nat.min_eq_left h1]
            simp only [List.length_nil] at g1
            omega
          · rw [Nat.add_comm 1, List.getElem?_cons_succ, ← List.getElem?_drop]
            exact g2

theorem parseLoop_flags [Uni] (ls : List (Str × Bool)) (buffer : List Str) (n : Nat) (d : MacroDefinition)
    (hd : d ∈ (parseLoop buffer n ls).data) : ∃ x ∈ ls, x.2 = d.valid := by
  induction ls generalizing buffer n with
  | nil => simp [parseLoop] at hd
  | cons l ls ih =>
    have key : ∀ b k, d ∈ (parseLoop b k ls).data → ∃ x ∈ l :: ls, x.2 = d.valid := by
      intro b k h
      obtain ⟨x, hx, e⟩ := ih b k h
      exact ⟨x, by simp [hx], e⟩
    cases n with
    | succ n => simp only [parseLoop] at hd; exact key _ _ hd
    | zero =>
      simp only [parseLoop] at hd
      split at hd
      · exact key _ _ hd
      · simp only [List.mem_cons] at hd
        rcases hd with rfl | hd
        · exact ⟨l, by simp, rfl⟩
        · exact key _ _ hd

end MacroDefinitions

namespace Tags

theorem reads_valid [Uni] {ls : List (Str × Bool)} {above : List Str} {tags : Tags} (h : ReadTags above ls tags)
    (k : Nat) (t : Tag) (ht : tags.data[k]? = some t) :
    ∃ q, ((tags.data.take k).map tagRaw).flatten.length + t.comments.raw.length = above.length + q ∧
      (ls[q]?).map (·.2) = some t.valid := by
  have hraw : ∀ {above : List Str} {c : Comments}, CommentsOf above c → c.raw = above := by
    intro above c hc
    simp [Comments.raw, hc.1]
  induction h generalizing k with
  | done => simp at ht
  | other h1 h2 h3 h4 h5 ih =>
    obtain ⟨q, g1, g2⟩ := ih k ht
    rw [List.length_append, List.length_singleton] at g1
    exact ⟨q + 1, by omega, by simpa using g2⟩
  | @plain above u first more rest tags h1 h2 h3 h4 h5 ih =>
    cases k with
    | zero =>
      simp only [List.getElem?_cons_zero, Option.some.injEq] at ht
      subst ht
      exact ⟨0, by simp [hraw h2], by simp⟩
    | succ k =>
      simp only [List.getElem?_cons_succ] at ht
      obtain ⟨q, g1, g2⟩ := ih k ht
      refine ⟨1 + (more.length + q), ?_, ?_⟩
      · have e : (tagRaw u).length = above.length + (1 + more.length) := by
          rw [tagRaw, hraw h2, show splitC '\n' (tagText u) = tagLines u from rfl, h3]
          simp; omega
        simp only [List.take_succ_cons, List.map_cons, List.flatten_cons, List.length_append, e]
        simp only [List.length_nil] at g1
        omega
      · rw [Nat.add_comm 1, List.getElem?_cons_succ, List.getElem?_append_right (by omega)]
        rw [show more.length + q - more.length = q by omega]
        exact g2
  | @wrapped above u rest tags h1 h2 h3 ih =>
    cases k with
    | zero =>
      simp only [List.getElem?_cons_zero, Option.some.injEq] at ht
      subst ht
      exact ⟨0, by simp [hraw h2], by simp⟩
    | succ k =>
      simp only [List.getElem?_cons_succ] at ht
      obtain ⟨q, g1, g2⟩ := ih k ht
      refine ⟨q + 1, ?_, by simpa using g2⟩
      have e : (tagRaw u).length = above.length + 1 := by
        have h1' := reads_raw (ReadTags.wrapped (above := above) (rest := []) (tags := ⟨[], []⟩) h1 h2 .done)
        simp only [raw, List.map_cons, List.map_nil, List.flatten_cons, List.flatten_nil, List.append_nil] at h1'
        rw [h1']; simp
      simp only [List.take_succ_cons, List.map_cons, List.flatten_cons, List.length_append, e]
      simp only [List.length_nil] at g1
      omega

end Tags

namespace Sourcelist

theorem reads_valid {above : List Str} {ls : List (Str × Bool)} {es : List SourcelistEntry} {r : List Str}
    (h : ReadEntries above ls es r) (k : Nat) (e : SourcelistEntry) (he : es[k]? = some e) :
    ∃ q, ((es.take k).map (fun e => e.comments.raw ++ [e.location])).flatten.length + e.comments.raw.length =
        above.length + q ∧ (ls[q]?).map (·.2) = some e.valid := by
  have hraw : ∀ {above : List Str} {c : Comments}, CommentsOf above c → c.raw = above := by
    intro above c hc
    simp [Comments.raw, hc.1]
  induction h generalizing k with
  | nil => simp at he
  | skip h1 h2 ih =>
    obtain ⟨q, g1, g2⟩ := ih k he
    rw [List.length_append, List.length_singleton] at g1
    exact ⟨q + 1, by omega, by simpa using g2⟩
  | entry h1 h2 h3 ih =>
    cases k with
    | zero =>
      simp only [List.getElem?_cons_zero, Option.some.injEq] at he
      subst he
      exact ⟨0, by simp [hraw h2], by simp⟩
    | succ k =>
      simp only [List.getElem?_cons_succ] at he
      obtain ⟨q, g1, g2⟩ := ih k he
      refine ⟨q + 1, ?_, by simpa using g2⟩
      simp only [List.take_succ_cons, List.map_cons, List.flatten_cons, List.length_append, hraw h2,
        List.length_singleton]
      simp only [List.length_nil] at g1
      omega

end Sourcelist
end Specfile

namespace Specfile.Props
open Py Regex Spec
open Conditions (processConditions Oracle isExcluded)
open Tags (IsTagNames)

theorem flag_at {lines : List Str} {fs : List Bool} {i : Nat} {b : Bool} (hl : lines.length = fs.length)
    (h : ((lines.zip fs)[i]?).map (·.2) = some b) : fs[i]? = some b := by
  rw [← List.getElem?_map, List.map_snd_zip (by omega)] at h
  exact h

/-- C84: a macro definition is valid exactly if RPM would use the line it begins on. What is missing: lines for which
C02 or C12 do not hold. -/
theorem C84_definition_valid_partial [Uni] (ex : Oracle) (lines : List Str) (fs : List Bool) (m : MacroDefinitions)
    (hb : Blocks ex (fun i => isExcluded (MacroDefinitions.parseLines lines).excluded i = true) false .body 0 true lines fs)
    (hc : CleanLines lines) (hp : MacroDefinitions.parse ex true lines = .ok m)
    (k : Nat) (d : MacroDefinition) (hd : m.data[k]? = some d) :
    ∃ above below, lines = above ++ definitionLines d ++ below ∧ above = linesAbove m k ++ d.preceding ∧
      fs[above.length]? = some d.valid := by
  obtain ⟨h1, h2⟩ := C12_validity_partial ex _ lines fs hb
  simp only [MacroDefinitions.parse, Bool.not_true, Bool.false_eq_true, if_false, h1, Except.ok.injEq] at hp
  subst hp
  have hl : (lines.zip fs).map (·.1) = lines := List.map_fst_zip (by omega)
  refine ⟨_, (((MacroDefinitions.parseFlagged (lines.zip fs)).data.drop (k + 1)).map MacroDefinition.raw).flatten ++
    (MacroDefinitions.parseFlagged (lines.zip fs)).remainder, ?_, rfl, ?_⟩
  · have hr := C02_roundtrip_partial (lines.zip fs) (by rw [hl]; exact hc)
    rw [hl] at hr
    conv => lhs; rw [← hr]
    rw [MacroDefinitions.linesAbove_eq]
    unfold MacroDefinitions.raw
    rw [MacroDefinitions.flatten_split _ MacroDefinition.raw hd, MacroDefinitions.raw_own]
    simp [MacroDefinitions.own_eq]
  · obtain ⟨q, g1, g2⟩ := MacroDefinitions.parseLoop_valid (lines.zip fs) [] (by rw [hl]; exact hc) k d hd
    have e : (linesAbove (MacroDefinitions.parseFlagged (lines.zip fs)) k ++ d.preceding).length = q := by
      rw [List.length_append, MacroDefinitions.linesAbove_eq]
      simpa [MacroDefinitions.parseFlagged] using g1
    rw [e]
    exact flag_at h2 g2

/-- C84: definitions that are read without conditions are all valid. -/
theorem C84_without_conditions [Uni] (ex : Oracle) (lines : List Str) :
    ∃ m, MacroDefinitions.parse ex false lines = .ok m ∧ ∀ d ∈ m.data, d.valid = true := by
  refine ⟨_, rfl, ?_⟩
  intro d hd
  obtain ⟨x, hx, e⟩ := MacroDefinitions.parseLoop_flags _ [] 0 d hd
  obtain ⟨l, _, rfl⟩ := List.mem_map.mp hx
  exact e.symm

/-- C84: a tag is valid exactly if RPM would use the line it begins on. What is missing: lines for which C04 or C12 do
not hold. -/
theorem C84_tag_valid_partial [Uni] (names : List Str) (hN : IsTagNames names) (ex : Oracle) (lines : List Str)
    (fs : List Bool) (m : Tags)
    (hb : Blocks ex (fun i => isExcluded (MacroDefinitions.parseLines lines).excluded i = true) false .body 0 true lines fs)
    (hc : CleanTagLines lines) (hv : NoBlankValue lines) (hp : Tags.parse names ex lines = .ok m)
    (k : Nat) (t : Tag) (ht : m.data[k]? = some t) :
    ∃ above below, lines = above ++ tagLines t ++ below ∧
      above = ((m.data.take k).map Tags.tagRaw).flatten ++ t.comments.raw ∧ fs[above.length]? = some t.valid := by
  obtain ⟨h1, h2⟩ := C12_validity_partial ex _ lines fs hb
  have hraw := C04_tags_noop_partial names hN ex lines hc m hp
  obtain ⟨above, below, e1, e2⟩ := C14_tag_lines m k t ht
  refine ⟨above, below, by rw [← hraw]; exact e1, e2, ?_⟩
  have hl : (lines.zip fs).map (·.1) = lines := List.map_fst_zip (by omega)
  unfold Tags.parse Tags.parse.parseLines at hp
  rw [h1] at hp
  have hr := Tags.parseLoop_reads hN (lines.zip fs) [] m (by simp) (by rw [hl]; exact hc) (by rw [hl]; exact hv) hp
  obtain ⟨q, g1, g2⟩ := Tags.reads_valid hr k t ht
  have e : above.length = q := by rw [e2, List.length_append]; simpa using g1
  rw [e]
  exact flag_at h2 g2

/-- C84: an entry of a list of sources is valid exactly if RPM would use its line. What is missing: lines for which C12
does not hold. -/
theorem C84_entry_valid_partial [Uni] (ex : Oracle) (lines : List Str) (fs : List Bool) (s : Sourcelist)
    (hb : Blocks ex (fun i => isExcluded (MacroDefinitions.parseLines lines).excluded i = true) false .body 0 true lines fs)
    (hn : ∀ l ∈ lines, '\n' ∉ l) (hp : Sourcelist.parse ex lines = .ok s)
    (k : Nat) (e : SourcelistEntry) (he : s.data[k]? = some e) :
    ∃ above below, lines = above ++ [e.location] ++ below ∧
      above = ((s.data.take k).map (fun e => e.comments.raw ++ [e.location])).flatten ++ e.comments.raw ∧
      fs[above.length]? = some e.valid := by
  obtain ⟨h1, h2⟩ := C12_validity_partial ex _ lines fs hb
  have hraw := C05_sourcelist_noop ex lines hn s hp
  refine ⟨_, ((s.data.drop (k + 1)).map (fun e => e.comments.raw ++ [e.location])).flatten ++ s.remainder, ?_, rfl, ?_⟩
  · conv => lhs; rw [← hraw]
    unfold Sourcelist.raw
    rw [MacroDefinitions.flatten_split _ _ he]
    simp
  · obtain ⟨ls, g1, g2⟩ := (C05_meaning ex lines hn s).mp hp
    rw [h1] at g1
    cases g1
    obtain ⟨q, g3, g4⟩ := Sourcelist.reads_valid g2 k e he
    have e : (((s.data.take k).map (fun e => e.comments.raw ++ [e.location])).flatten ++ e.comments.raw).length = q := by
      rw [List.length_append]; simpa using g3
    rw [e]
    exact flag_at h2 g4

section
attribute [local instance] asciiUni

/-- definitions and tags in and around a condition that does not hold -/
def guardedLines : List Str :=
  [s% "%global a 1", s% "# c", s% "Name: x", s% "%if 0", s% "%global a 2", s% "Epoch: 1", s% "%endif", s% "Summary: s"]

theorem guarded_blocks : Blocks sampleOracle
    (fun i => isExcluded (MacroDefinitions.parseLines guardedLines).excluded i = true) false .body 0 true guardedLines
    [true, true, true, true, false, false, true, true] := by
  refine .inBody (by decide +kernel) ?_
  refine .plain (by decide +kernel) (.inl rfl) (plain_of_none rfl) ?_
  refine .plain (by decide +kernel) (.inl rfl) (plain_of_none rfl) ?_
  refine .cond (line := s% "%if 0") (kw := s% "%if") (text := s% " 0") (cont := []) (e := s% "0") (t := false)
    (body := [s% "%global a 2", s% "Epoch: 1"]) (fb := [false, false]) (rest := [s% "%endif"]) (fr := [true])
    (ls := [s% "Summary: s"]) (fs := [true]) (by decide +kernel) (.inl rfl) (by decide) (conditionLine_of (s% "%if") (s% " 0") (by decide) (by decide)) text_0
    (fun _ => sample_expr false) ?_ ?_ ?_
  · refine .inBody (by decide +kernel) ?_
    exact .plain (by decide +kernel) (.inl rfl) (plain_of_none rfl) .done
  · exact .endif (text := []) (by decide +kernel) (.inl rfl) (conditionLine_of (s% "%endif") ([]) (by decide) (by decide))
  · exact .plain (by decide +kernel) (.inl rfl) (plain_of_none rfl) .done

theorem guarded_noBlank : ∀ l ∈ guardedLines, ∀ c ∈ l.getLast?, isSpace c = false := by decide +kernel

theorem guarded_clean : CleanLines guardedLines where
  noNl := by decide +kernel
  noDnlHash := by
    intro l hl h
    have : ∀ l ∈ guardedLines, ¬ s% "%%" <:+: l := by
      intro l hl h
      have h2 : ∀ l ∈ guardedLines, l.count '%' ≤ 1 := by decide +kernel
      have h3 := h2 l hl
      obtain ⟨a, b, rfl⟩ := h
      simp only [List.count_append] at h3
      have : List.count '%' (s% "%%") = 2 := by decide
      omega
    exact this l hl h.2.2
  noOpenBlank := by
    intro l hl _ a w hw hne hsp
    have := guarded_noBlank l hl (w.getLast hne) (by rw [hw, List.getLast?_append, List.getLast?_eq_some_getLast hne]; rfl)
    rw [List.all_eq_true.1 hsp _ (List.getLast_mem hne)] at this
    cases this
  noLostBlank := by
    intro pre a w h _
    have : guardedLines.getLast? = some [] := by rw [h]; simp
    exact absurd this (by decide)

theorem guarded_clean_tags : CleanTagLines guardedLines where
  noNl := by decide +kernel
  singleSpaced := by
    intro l hl a b c h
    have : ∀ l ∈ guardedLines, '{' ∉ l := by decide +kernel
    exact absurd (by rw [h]; simp) (this l hl)
  noStale := by
    intro pre b mid z post h hb ho
    rw [← Tags.open_iff] at ho
    have hlen : pre.length + mid.length ≤ 6 := by
      have := congrArg List.length h
      simp [guardedLines] at this
      omega
    have hb' : b :: mid = (guardedLines.drop pre.length).take (mid.length + 1) := by
      rw [h, List.drop_left, show b :: (mid ++ z :: post) = (b :: mid) ++ z :: post by simp,
        show mid.length + 1 = (b :: mid).length by simp, List.take_left]
    rw [hb'] at ho
    have hall : ∀ i ≤ 6, ∀ j ≤ 6, Tags.open_ (joinC '\n' ((guardedLines.drop i).take (j + 1))) = false := by
      decide +kernel
    rw [hall _ (by omega) _ (by omega)] at ho
    cases ho

theorem guarded_noBlankValue : NoBlankValue guardedLines := by
  intro l hl a w w' h
  have : ∀ l ∈ guardedLines, '}' ∉ l := by decide +kernel
  exact absurd (by rw [h]; simp) (this l hl)

/-- the second definition is not valid -/
example : ∃ m d, MacroDefinitions.parse sampleOracle true guardedLines = .ok m ∧ m.data[1]? = some d ∧ d.valid = false := by
  have hp : ∃ m d, MacroDefinitions.parse sampleOracle true guardedLines = .ok m ∧ m.data[1]? = some d ∧
      (linesAbove m 1 ++ d.preceding).length = 4 := by
    refine ⟨_, _, rfl, rfl, by decide +kernel⟩
  obtain ⟨m, d, h1, h2, h3⟩ := hp
  obtain ⟨above, below, _, rfl, e⟩ := C84_definition_valid_partial _ _ _ m guarded_blocks guarded_clean h1 1 d h2
  rw [h3] at e
  refine ⟨m, d, h1, h2, ?_⟩
  simpa using e.symm

/-- the second tag is not valid, the third one is -/
example : ∃ m, Tags.parse Constants.tagNames sampleOracle guardedLines = .ok m ∧
    ∀ (k : Nat) (t : Tag), m.data[k]? = some t → ∃ above below, guardedLines = above ++ tagLines t ++ below ∧
      [true, true, true, true, false, false, true, true][above.length]? = some t.valid := by
  have hp : ∃ m, Tags.parse Constants.tagNames sampleOracle guardedLines = .ok m := by
    refine ⟨⟨[⟨s% "Name", s% "x", s% ": ", ⟨[⟨s% "c", s% "# "⟩], [s% "%global a 1"]⟩, true, [], []⟩,
      ⟨s% "Epoch", s% "1", s% ": ", ⟨[], [s% "%if 0", s% "%global a 2"]⟩, false, [], []⟩,
      ⟨s% "Summary", s% "s", s% ": ", ⟨[], [s% "%endif"]⟩, true, [], []⟩], []⟩, by decide +kernel⟩
  obtain ⟨m, hp⟩ := hp
  refine ⟨m, hp, ?_⟩
  intro k t ht
  obtain ⟨above, below, h1, -, h3⟩ := C84_tag_valid_partial _ (fun _ => Iff.rfl) _ _ _ m guarded_blocks
    guarded_clean_tags guarded_noBlankValue hp k t ht
  exact ⟨above, below, h1, h3⟩

/-- an entry in a condition that does not hold -/
example : ∃ s, Sourcelist.parse sampleOracle guardedLines = .ok s ∧ ∃ e, s.data[4]? = some e ∧
    e.location = s% "Epoch: 1" ∧ e.valid = false := by
  have hp : ∃ s e, Sourcelist.parse sampleOracle guardedLines = .ok s ∧ s.data[4]? = some e ∧
      (((s.data.take 4).map (fun e => e.comments.raw ++ [e.location])).flatten ++ e.comments.raw).length = 5 ∧
      e.location = s% "Epoch: 1" := by
    refine ⟨_, _, rfl, rfl, by decide +kernel, by decide +kernel⟩
  obtain ⟨s, e, h1, h2, h3, h4⟩ := hp
  obtain ⟨above, below, _, rfl, g⟩ := C84_entry_valid_partial _ _ _ s guarded_blocks (by decide +kernel) h1 4 e h2
  rw [h3] at g
  exact ⟨s, h1, e, h2, h4, by simpa using g.symm⟩

/-- two branches follow the one that is taken -/
def branchLines : List Str := [s% "%if 1", s% "%elif 0", s% "%else", s% "Epoch: 1", s% "%endif"]

/-- C84 fails if two branches follow the one that is taken: a tag that RPM does not use is valid. -/
theorem C84_violation : ∃ fs m t, Blocks sampleOracle
      (fun i => isExcluded (MacroDefinitions.parseLines branchLines).excluded i = true) true .body 0 true branchLines fs ∧
    Tags.parse Constants.tagNames sampleOracle branchLines = .ok m ∧ m.data = [t] ∧ t.valid = true ∧
    branchLines[3]? = some (s% "Epoch: 1") ∧ tagLines t = [s% "Epoch: 1"] ∧ fs[3]? = some false := by
  refine ⟨[true, true, true, false, true],
    ⟨[⟨s% "Epoch", s% "1", s% ": ", ⟨[], [s% "%if 1", s% "%elif 0", s% "%else"]⟩, true, [], []⟩], [s% "%endif"]⟩, _, ?_,
    by decide +kernel, rfl, rfl, rfl, by decide +kernel, rfl⟩
  refine .cond (line := s% "%if 1") (kw := s% "%if") (text := s% " 1") (cont := []) (e := s% "1") (t := true)
    (body := []) (fb := [])
    (rest := [s% "%elif 0", s% "%else", s% "Epoch: 1", s% "%endif"]) (fr := [true, true, false, true])
    (ls := []) (fs := []) (by decide +kernel) (.inl rfl) (by decide) (conditionLine_of (s% "%if") (s% " 1") (by decide) (by decide)) text_1
    (fun _ => sample_expr true) .done ?_ .done
  refine .elif (line := s% "%elif 0") (kw := s% "%elif") (text := s% " 0") (cont := []) (e := s% "0") (t := false)
    (body := []) (fb := []) (rest := [s% "%else", s% "Epoch: 1", s% "%endif"]) (fr := [true, false, true])
    (.inl rfl) (by decide +kernel) (.inl rfl) (by decide) (conditionLine_of (s% "%elif") (s% " 0") (by decide) (by decide)) text_0
    (fun _ _ => sample_elif false) .done ?_
  refine .else_ (line := s% "%else") (text := []) (body := [s% "Epoch: 1"]) (fb := [false])
      (rest := [s% "%endif"]) (fr := [true])
      (.inl rfl) (by decide +kernel) (.inl rfl) (conditionLine_of (s% "%else") ([]) (by decide) (by decide)) ?_ ?_
  · exact .plain (by decide +kernel) (.inl rfl) (plain_of_none rfl) .done
  · exact .endif (text := []) (by decide +kernel) (.inl rfl) (conditionLine_of (s% "%endif") ([]) (by decide) (by decide))

end

end Specfile.Props
