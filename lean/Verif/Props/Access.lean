import Verif.Proof.Access2
import Verif.Model.Codec
import Verif.Props.Sections
import Verif.Props.MacroDefinitions
import Verif.Props.Changelog
import Verif.Props.Prep
import Verif.Props.Tags
import Verif.Props.Sourcelist
/-
C39: nested accessors. C70: saving.
-/
namespace Specfile.Props
open Py Access Spec

/-! ### C39 -/

/-- C39: a program that keeps to the rules does what the specification says: every edit goes to an open object,
and the end of a block puts that object into its place in the object around it; objects that are open at the same time
belong to different parts of the file. `sources()` and `patches()` use the object of `tags()`. Afterwards the lines are those, no block is open, and the exception is that of the program; also if it was raised inside of blocks. -/
theorem C39_nested {C : Codec} [DecidableEq C.Child] [DecidableEq C.Group] (p : Prog C) (s : State C) (φ : Focus C) (e : Option Err) (hs : Idle s)
    (h : effect p (.lines false s.lines) = some (φ, e)) :
    ∃ s', run p s = (s', e) ∧ Idle s' ∧ φ = .lines false s'.lines := by
  obtain ⟨h1, h2, h3, h4, h5⟩ := hs
  obtain ⟨s', hr, hrep, hsh⟩ := good p (.lines false s.lines) _ _ s ⟨rfl, h1, h2, h3, h4, h5⟩ h
  cases φ with
  | lines b ls =>
    simp only [Shape] at hsh
    subst hsh
    obtain ⟨rfl, g1, g2, g3, g4⟩ := hrep
    exact ⟨s', hr, ⟨g1, g2, g3, g4⟩, rfl⟩
  | _ => exact hsh.elim

/-- C39: a program that only reads leaves the lines as they are, if parsers and formatters are inverse to each other for
these lines. -/
theorem C39_no_edits {C : Codec} [DecidableEq C.Child] [DecidableEq C.Group] (p : Prog C) (s : State C) (φ : Focus C) (e : Option Err) (hs : Idle s)
    (hl : Lossless C s.lines) (hn : NoEdits p) (h : effect p (.lines false s.lines) = some (φ, e)) :
    ∃ s', run p s = (s', e) ∧ Idle s' ∧ s'.lines = s.lines := by
  obtain ⟨s', h1, h2, h3⟩ := C39_nested p s φ e hs h
  refine ⟨s', h1, h2, ?_⟩
  rw [still p hn _ _ _ (by exact hl) h] at h3
  simp only [Focus.lines.injEq] at h3
  exact h3.2.symm

/-- C39: with the parsers of specfile, reading and writing changes nothing. What is missing: the lines that C02, C03, C04
and C07 exclude. -/
theorem C39_lossless_partial [Uni] (names : List Str) (hN : Tags.IsTagNames names) (ex : Conditions.Oracle) (lines : List Str)
    (hl : ∀ l ∈ lines, OneLine l) (hm : CleanLines lines)
    (hh : ∀ (i : Nat) l, lines[i]? = some l → HeaderLine l → ∀ p, HeaderText (ex i) l p → CleanHeader p)
    (hs : ∀ ss, Sections.parse ex lines = .ok ss → ∀ sec ∈ ss, CleanTagLines sec.data ∧
      ∀ l ∈ sec.data, '\n' ∉ l ∧ KeptLine l) : Lossless (specCodec names ex) lines := by
  refine ⟨fun m h => C02_parse_roundtrip_partial ex true lines m hm h, fun ss h => ?_⟩
  refine ⟨(C03_sections_noop_partial ex lines hl hh ss h).1, ?_⟩
  intro (sec : Section) hsec
  obtain ⟨h1, h2⟩ := hs ss h sec hsec
  refine ⟨?_, fun (l : Sourcelist) (hx : Sourcelist.parse ex sec.data = .ok l) =>
    congrArg (fun d => ({ sec with data := d } : Section)) (C05_sourcelist_noop ex sec.data (fun l hl => (h2 l hl).1) l hx)⟩
  intro (c : Accessor) (x : Obj) (hx : parseObj names ex c sec = .ok x)
  suffices H : rawObj x = sec.data by
    show { sec with data := rawObj x } = sec
    rw [H]
  have htags : ∀ t : Except Err Tags, t = Tags.parse names ex sec.data → t.map Obj.tags = .ok x → rawObj x = sec.data := by
    intro t ht hx
    cases t with
    | error e => cases hx
    | ok t =>
      cases hx
      exact C04_tags_noop_partial names hN ex sec.data h1 t ht.symm
  cases c with
  | tags => exact htags _ rfl hx
  | tagsNamed n => exact htags _ rfl hx
  | tagsOf s => exact htags _ rfl hx
  | changelog => cases hx; exact C06_changelog_noop sec.data
  | changelogOf s => cases hx; exact C06_changelog_noop sec.data
  | prep =>
    obtain ⟨p, hp, hr⟩ := C07_roundtrip_partial (fun l hl => (h2 l hl).1) (fun l hl => (h2 l hl).2)
    have hx : (Prep.parse sec.data).map Obj.prep = .ok x := hx
    rw [hp] at hx
    cases hx
    exact hr

/-! ### C70 -/

/-- C70: with autosave, whenever no block is open, the file contains the lines, whatever the program does in blocks and
also if exceptions are raised. -/
theorem C70_autosave {C : Codec} [DecidableEq C.Child] [DecidableEq C.Group] (p : Prog C) (s : State C) (hs : Idle s) (hi : EditsInside false p)
    (ha : s.autosave = true) (hf : s.file = s.lines) : (run p s).1.file = (run p s).1.lines := by
  obtain ⟨h1, h2, h3, h4, h5⟩ := hs
  obtain ⟨⟨g1, g2, -⟩, g3, -⟩ := tidy_run p s false ⟨by simp [h2], by simp [h3], by simp [h4], by simp [h5]⟩ (by simp) hi
  exact g3 (fun _ _ => hf) (g1.trans ha) (g2.trans h1)

/-- C70: without autosave no accessor writes the file. -/
theorem C70_no_autosave {C : Codec} [DecidableEq C.Child] [DecidableEq C.Group] (p : Prog C) (s : State C) (hs : Idle s) (hi : EditsInside false p)
    (ha : s.autosave = false) : (run p s).1.file = s.file := by
  obtain ⟨h1, h2, h3, h4, h5⟩ := hs
  exact (tidy_run p s false ⟨by simp [h2], by simp [h3], by simp [h4], by simp [h5]⟩ (by simp) hi).2.2 ha

/-! ### examples and violations with the parsers of specfile -/

section
attribute [local instance] asciiUni

abbrev sampleNames : List Str := [s% "Name", s% "Version", s% "Release", s% "Summary", s% "source"]

abbrev sampleCodec : Codec := specCodec sampleNames sampleOracle

/-- lines of a small spec file -/
def accessLines : List Str :=
  [s% "%global v 1", s% "Name: a", s% "Version: %{v}", [], s% "%description", s% "text", s% "%changelog", s% "* x", s% "- y"]

def idleState (ls : List Str) : State sampleCodec := ⟨ls, false, none, none, [], [], true, ls⟩

/-- `tags.version.value = v` -/
def setVersion (v : Str) (x : Obj) : Obj :=
  match x with
  | .tags t => match Tags.setValue t (s% "version") v with
    | .ok t => .tags t
    | .error _ => .tags t
  | x => x

def clearLog (x : Obj) : Obj :=
  match x with
  | .changelog c => .changelog { c with data := [] }
  | x => x

instance : DecidableEq sampleCodec.Child := inferInstanceAs (DecidableEq Accessor)

instance : DecidableEq sampleCodec.Group := inferInstanceAs (DecidableEq ListAccessor)

/-- nested accessors of tags and of the changelog, with an exception -/
def nestedProg : Prog sampleCodec :=
  .withSections (.seq
    (.withChild .tags (named (s% "package")) (.seq (.withLines .skip)
      (.seq (.editChild .tags (setVersion (s% "2"))) (.withChild .changelog (namedOrNone (s% "changelog")) (.editChild .changelog clearLog)))))
    (.raise .valueError))

/-- the result of running -/
def outcome (r : Res sampleCodec) : List Str × List Str × Option Err := (r.1.lines, r.1.file, r.2)

/-- the edits of both accessors are in the lines and in the file, the exception is passed on -/
example : outcome (run nestedProg (idleState accessLines)) =
    ([s% "%global v 1", s% "Name: a", s% "Version: 2", [], s% "%description", s% "text", s% "%changelog"],
      [s% "%global v 1", s% "Name: a", s% "Version: 2", [], s% "%description", s% "text", s% "%changelog"],
      some .valueError) := by decide +kernel

/-- the program keeps to the rules -/
example : (effect nestedProg (.lines false accessLines)).isSome = true := by decide +kernel

example : EditsInside false nestedProg := by simp [nestedProg, EditsInside]

example : Idle (idleState accessLines) ∧ (idleState accessLines).autosave = true := ⟨⟨rfl, rfl, rfl, rfl, rfl⟩, rfl⟩

/-- lines of a small spec file with lists -/
def listLines : List Str :=
  [s% "Name: a", s% "Version: 1", s% "Source0: x", s% "%sourcelist", s% "y", s% "%patchlist", s% "z", s% "%prep", s% "%setup"]

/-- `sources[0].location = a`, `sources[1].location = b` for a tag and an entry of a list -/
def setSources (a b : Str) (x : Obj) (ls : List Sourcelist) : Obj × List Sourcelist :=
  (match x with
    | .tags t => match Tags.setValue t (s% "source0") a with
      | .ok t => .tags t
      | .error _ => .tags t
    | x => x,
    ls.map (fun l => { l with data := l.data.map (fun e => { e with location := b }) }))

/-- edit lists only -/
def setLists (b : Str) (x : Obj) (ls : List Sourcelist) : Obj × List Sourcelist :=
  (x, ls.map (fun l => { l with data := l.data.map (fun e => { e with location := b }) }))

/-- tags, sources and patches together: all three edit, in any order -/
def sourcesProg : Prog sampleCodec :=
  .withGroup ⟨false, []⟩ (.withGroup ⟨true, []⟩ (.seq (.editGroup ⟨false, []⟩ (setSources (s% "x2") (s% "y2")))
    (.seq (.editGroup ⟨true, []⟩ (setLists (s% "z2"))) (.withChild .tags (named (s% "package"))
      (.seq (.editChild .tags (setVersion (s% "2"))) (.seq (.editGroup ⟨false, []⟩ (setLists (s% "y3"))) (.raise .valueError)))))))

example : outcome (run sourcesProg (idleState listLines)) =
    ([s% "Name: a", s% "Version: 2", s% "Source0: x2", s% "%sourcelist", s% "y3", s% "%patchlist", s% "z2", s% "%prep", s% "%setup"],
      [s% "Name: a", s% "Version: 2", s% "Source0: x2", s% "%sourcelist", s% "y3", s% "%patchlist", s% "z2", s% "%prep", s% "%setup"],
      some .valueError) := by decide +kernel

example : (effect sourcesProg (.lines false listLines)).isSome = true := by decide +kernel

/-- a block with tags and the changelog, edited in turn -/
def turnsProg : Prog sampleCodec :=
  .withChild .tags (named (s% "package")) (.withChild .changelog (namedOrNone (s% "changelog"))
    (.seq (.editChild .tags (setVersion (s% "2"))) (.seq (.editChild .changelog clearLog) (.editChild .tags (setVersion (s% "3"))))))

example : (effect turnsProg (.lines false accessLines)).isSome = true ∧ (outcome (run turnsProg (idleState accessLines))).1 =
    [s% "%global v 1", s% "Name: a", s% "Version: 3", [], s% "%description", s% "text", s% "%changelog"] := by decide +kernel

/-- a program that only reads -/
def readProg : Prog sampleCodec :=
  .withSections (.withChild .tags (named (s% "package")) (.withChild .changelog (namedOrNone (s% "changelog")) .skip))

example : NoEdits readProg ∧ (effect readProg (.lines false accessLines)).isSome = true := by
  refine ⟨by simp [readProg, NoEdits], by decide +kernel⟩

/-- the sample is read and written without changes -/
example : Lossless sampleCodec accessLines := by
  have hm : (match MacroDefinitions.parse sampleOracle true accessLines with
    | .ok m => decide (MacroDefinitions.raw m = accessLines)
    | .error _ => true) = true := by decide +kernel
  have hs : (match Sections.parse sampleOracle accessLines with
    | .ok ss => decide (Sections.raw ss = accessLines) && ss.all (fun s =>
      (match Tags.parse sampleNames sampleOracle s.data with
        | .ok t => decide (Tags.raw t = s.data)
        | .error _ => true) &&
      (match Prep.parse s.data with
        | .ok t => decide (Prep.raw t = s.data)
        | .error _ => true) &&
      (match Sourcelist.parse sampleOracle s.data with
        | .ok t => decide (Sourcelist.raw t = s.data)
        | .error _ => true))
    | .error _ => true) = true := by decide +kernel
  refine ⟨fun m h => ?_, fun ss h => ?_⟩
  · have h : MacroDefinitions.parse sampleOracle true accessLines = .ok m := h
    rw [h] at hm
    simp only [decide_eq_true_eq] at hm
    exact hm
  · have h : Sections.parse sampleOracle accessLines = .ok ss := h
    rw [h] at hs
    simp only [Bool.and_eq_true, decide_eq_true_eq] at hs
    refine ⟨hs.1, ?_⟩
    intro (sec : Section) hsec
    obtain ⟨h12, h3⟩ := Bool.and_eq_true_iff.1 (List.all_eq_true.1 hs.2 sec hsec)
    obtain ⟨h1, h2⟩ := Bool.and_eq_true_iff.1 h12
    refine ⟨?_, ?_⟩
    rotate_left
    · intro (l : Sourcelist) (hl : Sourcelist.parse sampleOracle sec.data = .ok l)
      rw [hl] at h3
      simp only [decide_eq_true_eq] at h3
      show { sec with data := Sourcelist.raw l } = sec
      rw [h3]
    intro (c : Accessor) (x : Obj) (hx : parseObj sampleNames sampleOracle c sec = .ok x)
    suffices H : rawObj x = sec.data by
      show { sec with data := rawObj x } = sec
      rw [H]
    have htags : ∀ t : Except Err Tags, t = Tags.parse sampleNames sampleOracle sec.data → t.map Obj.tags = .ok x →
        rawObj x = sec.data := by
      intro t ht hx
      cases t with
      | error e => cases hx
      | ok t => cases hx; rw [← ht] at h1; simp only [decide_eq_true_eq] at h1; exact h1
    have hprep : ∀ t : Except Err Prep, t = Prep.parse sec.data → t.map Obj.prep = .ok x → rawObj x = sec.data := by
      intro t ht hx
      cases t with
      | error e => cases hx
      | ok t => cases hx; rw [← ht] at h2; simp only [decide_eq_true_eq] at h2; exact h2
    cases c with
    | tags => exact htags _ rfl hx
    | tagsNamed n => exact htags _ rfl hx
    | tagsOf s => exact htags _ rfl hx
    | changelog => cases hx; exact C06_changelog_noop sec.data
    | changelogOf s => cases hx; exact C06_changelog_noop sec.data
    | prep => exact hprep _ rfl hx

/-- C39 does not hold if accessors overlap that are not nested in each other's data: an edit of tags inside of
`macro_definitions()` is lost without an error. -/
theorem C39_violation_macros : ∃ p : Prog sampleCodec,
    p = .withMacros (.withChild .tags (named (s% "package")) (.editChild .tags (setVersion (s% "2")))) ∧
    outcome (run p (idleState accessLines)) = (accessLines, accessLines, none) :=
  ⟨_, rfl, by decide +kernel⟩

/-- C39 does not hold if an argument is given in one call and omitted in the other: `tags()` and `tags("package")` are
two objects for the same section, and the edit of the inner one is lost. -/
theorem C39_violation_argument : ∃ p : Prog sampleCodec,
    p = .withChild .tags (named (s% "package"))
      (.withChild (.tagsNamed (s% "package")) (named (s% "package"))
        (.editChild (.tagsNamed (s% "package")) (setVersion (s% "2")))) ∧
    outcome (run p (idleState accessLines)) = (accessLines, accessLines, none) :=
  ⟨_, rfl, by decide +kernel⟩

/-- C39 does not hold for lists if an argument is given in one call and omitted in the other: `sources()` and
`sources(allow_duplicates=True)` share the tags but not the lists, and the edit of a list through the inner one is lost. -/
theorem C39_violation_lists : ∃ (p : Prog sampleCodec) (g : ListAccessor), g = ⟨false, [(some (s% "allow_duplicates"), 1)]⟩ ∧
    p = .withGroup ⟨false, []⟩ (.withGroup g (.editGroup g (setSources (s% "x2") (s% "y2")))) ∧
    outcome (run p (idleState listLines)) =
      ([s% "Name: a", s% "Version: 1", s% "Source0: x2", s% "%sourcelist", s% "y", s% "%patchlist", s% "z", s% "%prep", s% "%setup"],
       [s% "Name: a", s% "Version: 1", s% "Source0: x2", s% "%sourcelist", s% "y", s% "%patchlist", s% "z", s% "%prep", s% "%setup"],
       none) :=
  ⟨_, _, rfl, rfl, by decide +kernel⟩

/-- C39 does not hold if lines of a section are edited while its tags are accessed. -/
theorem C39_violation_section : ∃ p : Prog sampleCodec,
    p = .withSections (.withChild .tags (named (s% "package"))
      (.editSections (fun ss => ss.map (fun q => (q.1, { q.2 with data := [] }))))) ∧
    outcome (run p (idleState [s% "Name: a"])) = ([s% "Name: a"], [s% "Name: a"], none) :=
  ⟨_, rfl, by decide +kernel⟩

def twinLines : List Str := [s% "Name: a", s% "%package b", s% "Version: 1", s% "%package b", s% "Version: 1"]

def twinSection : Section := ⟨s% "package", ⟨[⟨.default, s% "b"⟩], s% "n:", []⟩, s% " ", s% "\n", [s% "Version: 1"]⟩

/-- C39 does not hold for two sections with the same content: a block for the second one inside of a block for the first
one edits the first one. -/
theorem C39_violation_twins : ∃ (p : Prog sampleCodec) (ss : Sections), Sections.parse sampleOracle twinLines = .ok ss ∧
    ss[1]? = some twinSection ∧ ss[2]? = some twinSection ∧
    p = .withSections (.withChild (.tagsOf twinSection) (given 1) (.withChild (.tagsOf twinSection) (given 2)
      (.editChild (.tagsOf twinSection) (setVersion (s% "2"))))) ∧
    (run p (idleState twinLines)).1.lines =
      [s% "Name: a", s% "%package b", s% "Version: 2", s% "%package b", s% "Version: 1"] := by
  have h : ((match Sections.parse sampleOracle twinLines with
    | .error _ => false
    | .ok ss => decide (ss[1]? = some twinSection ∧ ss[2]? = some twinSection)) = true) := by decide +kernel
  cases hp : Sections.parse sampleOracle twinLines with
  | error e => rw [hp] at h; simp at h
  | ok ss =>
    rw [hp] at h
    simp only [decide_eq_true_eq] at h
    exact ⟨_, ss, rfl, h.1, h.2, rfl, by decide +kernel⟩

end

end Specfile.Props
