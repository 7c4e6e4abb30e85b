import Verif.Props.Operations
import Verif.Props.Sources
import Verif.Props.Sourcelist
import Verif.Props.MacroDefinitions
/-
Properties of operations on whole spec files: C77 and C78.
-/
namespace Specfile.Props
open Py Spec Update Ops

/-! ### C77 -/

theorem modify_at {α : Type} (f : α → α) (pre : List α) (x : α) (post : List α) :
    (pre ++ x :: post).modify pre.length f = pre ++ f x :: post := by
  induction pre with
  | nil => rfl
  | cons y pre ih => simp [ih]

theorem listsOf_spec [Uni] {ex : Conditions.Oracle} {id : Str} {ss : Sections} {ls : List Sourcelist}
    (h : ListsIn ex id ss ls) : ∀ k, ∃ is, listsOf ex id k ss = .ok is ∧ is.map (·.2) = ls ∧
      ∀ (ls' : List Sourcelist) (pre : Sections), ls'.length = ls.length → pre.length = k →
        ∃ ss', ListsStored id ss ls' ss' ∧ storeLists (is.map (·.1)) ls' (pre ++ ss) = pre ++ ss' := by
  induction h with
  | done =>
    intro k
    refine ⟨[], rfl, rfl, fun ls' pre hl _ => ?_⟩
    cases ls' with
    | nil => exact ⟨[], .done, rfl⟩
    | cons => cases hl
  | @other s ss ls hs _ ih =>
    intro k
    obtain ⟨is, h1, h2, h3⟩ := ih (k + 1)
    refine ⟨is, by rw [listsOf, if_neg hs, h1], h2, fun ls' pre hl hp => ?_⟩
    obtain ⟨ss', q1, q2⟩ := h3 ls' (pre ++ [s]) hl (by simp [hp])
    refine ⟨s :: ss', .other hs q1, ?_⟩
    simpa using q2
  | @list s ss l ls hs hl _ ih =>
    intro k
    obtain ⟨is, h1, h2, h3⟩ := ih (k + 1)
    refine ⟨(k, l) :: is, by rw [listsOf, if_pos hs, hl]; simp only [h1], by simp [h2], fun ls' pre hlen hp => ?_⟩
    cases ls' with
    | nil => cases hlen
    | cons l' ls' =>
      obtain ⟨ss', q1, q2⟩ := h3 ls' (pre ++ [{ s with data := Sourcelist.raw l' }]) (by simpa using hlen) (by simp [hp])
      refine ⟨_ :: ss', .list hs q1, ?_⟩
      simp only [List.map_cons, storeLists]
      have hm : (pre ++ s :: ss).modify k (fun s => { s with data := Sourcelist.raw l' }) =
          pre ++ [{ s with data := Sourcelist.raw l' }] ++ ss := by
        rw [← hp, modify_at]
        simp
      rw [show List.modify (pre ++ s :: ss) k _ = _ from hm, q2]
      simp

theorem preamble_other [Uni] (a : SourceArgs) (data : List Str) : Sections.id (preambleOf data) ≠ a.id := by
  have : Sections.id (preambleOf data) = s% "package" := rfl
  rw [this, SourceArgs.id]
  split <;> decide

/-- C77 (full claim: all source lists of the spec file are seen): the object that the context manager gives has the tags of the spec file and the lists of the sections with the right
id. When it ends, the tags and the lists are written where they were read; everything else stays as it was. Missing: sections
with upper-case letters in their names (`C77_case_violation`). -/
theorem C77_block_partial [Uni] {W : World} {α : Type} {a : SourceArgs} {lines : List Str} {t : Tags} {rest : Sections}
    (h : FileTags W lines t rest) {ls : List Sourcelist} (hl : ListsIn (W.oracle lines) a.id rest ls)
    {body : Sources → Sources × Except Err α} {s' : Sources} {r : Except Err α}
    (hb : body ⟨t, ls, a.patches, a.allowDuplicates, a.implicitDefault, a.digits⟩ = (s', r))
    (hn : s'.lists.length = ls.length) :
    ∃ rest', ListsStored a.id rest s'.lists rest' ∧
      withSources W a lines body = (Tags.raw s'.tags ++ Sections.raw rest', r) := by
  obtain ⟨data, hp, ht⟩ := h
  obtain ⟨is, h1, h2, h3⟩ := listsOf_spec (hl.other (s := preambleOf data) (preamble_other a data)) 0
  obtain ⟨ss', q1, q2⟩ := h3 s'.lists [] hn rfl
  generalize hsl : s'.lists = sl at q1 q2 ⊢
  cases q1 with
  | list hs _ => exact absurd hs (preamble_other a data)
  | other _ q =>
    refine ⟨_, q, ?_⟩
    unfold withSources withSections
    rw [hp]
    have ht' : Tags.parse W.names (W.oracle lines) (preambleOf data).data = .ok t := ht
    simp only [sourcesBlock, find_package, List.getElem?_cons_zero, ht', h1, h2, hb, hsl]
    rw [List.nil_append, List.nil_append] at q2
    rw [q2, List.set_cons_zero, ← raw_cons]
    rfl

theorem stored_noop [Uni] {ex : Conditions.Oracle} {id : Str} {ss : Sections} {ls : List Sourcelist}
    (h : ListsIn ex id ss ls) : ∀ {ss' : Sections}, (∀ s ∈ ss, ∀ l ∈ s.data, '\n' ∉ l) → ListsStored id ss ls ss' → ss' = ss := by
  induction h with
  | done => intro ss' _ hs; cases hs; rfl
  | other hs _ ih =>
    intro ss' hn h
    cases h with
    | other _ h => rw [ih (fun s hs => hn s (by simp [hs])) h]
    | list h => exact absurd h hs
  | list hs hl _ ih =>
    intro ss' hn h
    cases h with
    | other h => exact absurd hs h
    | list _ h =>
      rw [ih (fun s hs => hn s (by simp [hs])) h, C05_sourcelist_noop _ _ (hn _ (by simp)) _ hl]

/-- C77: a block that changes nothing leaves the spec file as it is. -/
theorem C77_noop [Uni] {W : World} {α : Type} {a : SourceArgs} {lines : List Str} {t : Tags} {rest : Sections}
    (h : FileTags W lines t rest) (hb : ReadsBack W lines) {ls : List Sourcelist}
    (hl : ListsIn (W.oracle lines) a.id rest ls) (hn : ∀ s ∈ rest, ∀ l ∈ s.data, '\n' ∉ l) (r : Except Err α) :
    withSources W a lines (fun s => (s, r)) = (lines, r) := by
  obtain ⟨rest', h1, h2⟩ := C77_block_partial h hl (body := fun s => (s, r)) rfl rfl
  rw [h2, stored_noop hl hn h1, hb.tags t rest h]

/-- C77: a list that cannot be read makes the context manager raise; the body is not run and nothing changes. -/
theorem C77_unreadable_list [Uni] {W : World} {α : Type} {a : SourceArgs} {lines : List Str} {t : Tags} {rest : Sections}
    (h : FileTags W lines t rest) (hb : ReadsBack W lines) (hl : ∀ ls, ¬ ListsIn (W.oracle lines) a.id rest ls) :
    ∃ e, ∀ body : Sources → Sources × Except Err α, withSources W a lines body = (lines, .error e) := by
  have : ∀ (ss : Sections) k, (∀ ls, ¬ ListsIn (W.oracle lines) a.id ss ls) →
      ∃ e, listsOf (W.oracle lines) a.id k ss = .error e := by
    intro ss
    induction ss with
    | nil => intro k h; exact absurd .done (h [])
    | cons s ss ih =>
      intro k h
      unfold listsOf
      by_cases hs : Sections.id s = a.id
      · rw [if_pos hs]
        cases hp : Sourcelist.parse (W.oracle lines) s.data with
        | error e => exact ⟨e, rfl⟩
        | ok l =>
          obtain ⟨e, he⟩ := ih (k + 1) (fun ls hl => h _ (.list hs hp hl))
          simp only [he]
          exact ⟨e, rfl⟩
      · rw [if_neg hs]
        exact ih (k + 1) (fun ls hl => h _ (.other hs hl))
  have hraw := hb.tags t rest h
  obtain ⟨data, hp, ht⟩ := h
  obtain ⟨e, he⟩ := this (preambleOf data :: rest) 0 (by
    intro ls hls
    cases hls with
    | other _ h => exact hl _ h
    | list hs => exact preamble_other a data hs)
  refine ⟨e, fun body => ?_⟩
  unfold withSources withSections
  rw [hp]
  have ht' : Tags.parse W.names (W.oracle lines) (preambleOf data).data = .ok t := ht
  simp only [sourcesBlock, find_package, List.getElem?_cons_zero, ht', he]
  rw [List.set_cons_zero, ← hraw, ← raw_cons]
  rfl

/-- C77: `add_patch` puts a tag after the last patch of the spec file. No section other than the preamble changes. -/
theorem C77_add_patch [Uni] {W : World} {lines : List Str} {t : Tags} {rest : Sections} (h : FileTags W lines t rest)
    {ls : List Sourcelist} (hl : ListsIn (W.oracle lines) (s% "patchlist") rest ls)
    (hn : ∀ s ∈ rest, ∀ l ∈ s.data, '\n' ∉ l) {s : Sources} {digits : Nat} (hs : s = ⟨t, ls, true, false, false, digits⟩)
    (loc : Str) (n : Option Int) (c : Option Str) (init : Int) (N : Nat)
    (hg : GoodNames s.kind s.tags.data) (hi : Spec.Increasing s.kind s.tags.data) (hd : loc ∉ allLocations s.kind s)
    (hlast : LastNumbered s.kind s) (hN : ∀ m ∈ allNumbers s.kind s, m < N)
    (hx : n = some (N : Int) ∨ n = none ∧ init ≤ N ∧ ∀ M : Nat, init ≤ M → (∀ m ∈ allNumbers s.kind s, m < M) → N ≤ M) :
    ∃ t', addPatch W loc n c init digits lines = (Tags.raw t' ++ Sections.raw rest, .ok ()) ∧
      tagNumbers s.kind t'.data = tagNumbers s.kind t.data ++ [N] ∧
      (∃ a new b, t.data = a ++ b ∧ new.value = loc ∧
        t'.data.map (apart s.kind) = (a ++ new :: b).map (apart s.kind)) ∧
      ∃ a x b, t'.data = a ++ x :: b ∧ (Spec.sourceTags s.kind a).length = (tagNumbers s.kind t.data).length ∧
        x.value = loc ∧ sourceEntry s.kind x = some (some N) ∧ x.comments.data = commentLines c := by
  obtain ⟨s', h1, -, h2, h3, h4⟩ := C28_add_patch s loc n c init N hg hi (.inr hd) hlast hN hx
  have hdata : s.tags.data = t.data := by rw [hs]
  cases h3 with
  | entry la lb l a b v _ _ _ he =>
    rw [he] at h2
    have := congrArg List.length h2
    simp at this
  | tag a b new e1 e2 _ e4 e5 =>
    have hls : s'.lists = ls := by rw [e5, hs]
    obtain ⟨rest', q1, q2⟩ := C77_block_partial (a := ⟨true, false, false, digits⟩) h hl
      (body := fun s => ((s.addPatch loc n c init).1, result () (s.addPatch loc n c init).2)) (s' := s') (r := .ok ())
      (by rw [← hs, h1]; rfl) (by rw [hls])
    rw [hls] at q1
    rw [stored_noop hl hn q1] at q2
    refine ⟨s'.tags, q2, ?_, ⟨a, new, b, by rw [← hdata, e1], e2, e4⟩, ?_⟩
    · rw [h2, hdata]
    · rw [← hdata]
      exact h4

/-- C77: a patch whose number is not above the existing ones is rejected, and nothing changes. -/
theorem C77_add_patch_rejected [Uni] {W : World} {lines : List Str} {t : Tags} {rest : Sections}
    (h : FileTags W lines t rest) (hb : ReadsBack W lines) {ls : List Sourcelist}
    (hl : ListsIn (W.oracle lines) (s% "patchlist") rest ls) (hn : ∀ s ∈ rest, ∀ l ∈ s.data, '\n' ∉ l) {s : Sources}
    {digits : Nat} (hs : s = ⟨t, ls, true, false, false, digits⟩) (hnl : ∀ x ∈ t.data, '\n' ∉ x.name)
    (loc : Str) (n : Int) (c : Option Str) (init : Int) (hx : n < 0 ∨ ∃ m ∈ allNumbers s.kind s, n ≤ (m : Int)) :
    addPatch W loc (some n) c init digits lines = (lines, .error .sourceNumber) := by
  have h1 := C28_rejected s loc n c init (by rw [hs]; exact hnl) hx
  obtain ⟨rest', q1, q2⟩ := C77_block_partial (a := ⟨true, false, false, digits⟩) h hl
    (body := fun s => ((s.addPatch loc (some n) c init).1, result () (s.addPatch loc (some n) c init).2)) (s' := s)
    (r := .error .sourceNumber) (by rw [← hs, h1]; rfl) (by rw [hs])
  rw [show s.lists = ls by rw [hs]] at q1
  rw [stored_noop hl hn q1, show s.tags = t by rw [hs], hb.tags t rest h] at q2
  exact q2

section
attribute [local instance] asciiUni

/-- a spec file with patches in tags and in a list -/
def patchSpec : List Str :=
  [s% "Name: foo", s% "Patch1: a", s% "Release: 1", s% "%patchlist", s% "c", s% "%prep"]

/-- a world in which sources and patches are tags -/
def patchWorld : World := ⟨fun _ s => .ok s, fun _ => sampleOracle, [s% "name", s% "release", s% "patch", s% "source"], anyName⟩

example : addPatch patchWorld (s% "n") none (some (s% "why")) 1 1 patchSpec =
    ([s% "Name: foo", s% "Patch1: a", s% "# why", s% "Patch3: n", s% "Release: 1", s% "%patchlist", s% "c", s% "%prep"], .ok ()) := by
  decide +kernel

example : withSources patchWorld ⟨true, false, false, 1⟩ patchSpec (fun s => (s, .ok s.locations)) =
    (patchSpec, .ok [s% "a", s% "c"]) := by decide +kernel

example : addPatch patchWorld (s% "n") (some 2) none 1 1 patchSpec = (patchSpec, .error .sourceNumber) := by decide +kernel

/-- the hypotheses of `C77_noop` and of `C77_add_patch` -/
example : ∃ t rest ls, FileTags patchWorld patchSpec t rest ∧ ReadsBack patchWorld patchSpec ∧
    ListsIn (patchWorld.oracle patchSpec) (s% "patchlist") rest ls ∧ (∀ s ∈ rest, ∀ l ∈ s.data, '\n' ∉ l) ∧
    allNumbers (s% "Patch") ⟨t, ls, true, false, false, 1⟩ = [1, 2] := by
  have h1 : Sections.parse (patchWorld.oracle patchSpec) patchSpec = .ok (preambleOf (patchSpec.take 3) ::
      [⟨s% "patchlist", ⟨[], [], []⟩, [], ['\n'], [s% "c"]⟩, ⟨s% "prep", ⟨[], [], []⟩, [], ['\n'], []⟩]) := by decide +kernel
  have h2 : Tags.parse patchWorld.names (patchWorld.oracle patchSpec) (patchSpec.take 3) =
      .ok ⟨[⟨s% "Name", s% "foo", s% ": ", ⟨[], []⟩, true, [], []⟩, ⟨s% "Patch1", s% "a", s% ": ", ⟨[], []⟩, true, [], []⟩,
        ⟨s% "Release", s% "1", s% ": ", ⟨[], []⟩, true, [], []⟩], []⟩ := by decide +kernel
  have h3 : MacroDefinitions.parse (patchWorld.oracle patchSpec) true patchSpec = .ok ⟨[], patchSpec⟩ := by decide +kernel
  refine ⟨_, _, [⟨[⟨s% "c", ⟨[], []⟩, true⟩], []⟩], ⟨_, h1, h2⟩, ⟨?_, ?_, ?_⟩,
    .list rfl (by decide +kernel) (.other (by decide) .done), by decide +kernel, by decide +kernel⟩
  · intro m h
    rw [h3] at h
    cases h
    rfl
  · intro ss h
    rw [h1] at h
    cases h
    decide +kernel
  · rintro t rest ⟨data, q1, q2⟩
    rw [h1] at q1
    cases q1
    rw [h2] at q2
    cases q2
    decide +kernel

/-- C77 fails: sections are found by name regardless of case elsewhere, but a source list with upper-case letters in its
name is overlooked. -/
theorem C77_case_violation : withSources patchWorld ⟨false, false, false, 1⟩
    [s% "Name: foo", s% "%Sourcelist", s% "c", s% "%prep"] (fun s => (s, .ok s.locations)) =
    ([s% "Name: foo", s% "%Sourcelist", s% "c", s% "%prep"], .ok []) := by decide +kernel

end

/-! ### C78 -/

theorem definition_find {m : MacroDefinitions} {name : Str} {k : Nat} (h : DefinitionNamed name m k) :
    m.find name none = .ok k := by
  obtain ⟨d, h1, h2, h3⟩ := h
  refine ((C21_find_definition m name).1 k).2 ⟨d, h1, h2, ?_⟩
  rcases h3 with ⟨h4, h5⟩ | ⟨h4, h5⟩
  · exact .inl ⟨h4, fun j x hj hx hn => Bool.not_eq_true _ ▸ h5 j x hj hx hn⟩
  · exact .inr ⟨fun x hx hn => Bool.not_eq_true _ ▸ h4 x hx hn, h5⟩

theorem definition_none {m : MacroDefinitions} {name : Str} (h : ∀ d ∈ m.data, d.name ≠ name) :
    m.find name none = .error .valueError := (C21_find_definition m name).2.1.2 h

/-- C78: without a pattern, the version is updated like any tag. -/
theorem C78_no_pattern [Uni] (W : World) (prot : Str → Bool) (version : Str) (name : Option Str) (style : CommentOutStyle)
    (lines : List Str) :
    updateVersion W prot version none name style lines = updateTag W prot (s% "Version") version lines := rfl

/-- C78: a pattern without a group is rejected when it matches, and nothing changes. -/
theorem C78_invalid_pattern [Uni] (W : World) (prot : Str → Bool) {version : Str} {p : Pattern} (h : p version = some none)
    (name : Option Str) (style : CommentOutStyle) (lines : List Str) :
    updateVersion W prot version (some p) name style lines = (lines, .error .specfileException) := by
  simp only [updateVersion, handlePrerelease, h]

/-- the version for the spec file: a suffix that the pattern recognises is written behind a tilde instead of its delimiter -/
def PrereleaseOf (p : Pattern) (version : Str) (isPre : Bool) (v : Str) : Prop :=
  (p version = none ∧ isPre = false ∧ v = version) ∨
  ∃ base delim suffix, version = base ++ delim ++ suffix ∧
    p version = some (some ((base.length : Int), ((base ++ delim).length : Int))) ∧ isPre = true ∧
    v = base ++ s% "~" ++ suffix

theorem handle_eq [Uni] {W : World} {p : Pattern} {version v : Str} {isPre : Bool} (h : PrereleaseOf p version isPre v)
    {name : Option Str} {style : CommentOutStyle} {lines l : List Str} {r : Except Err Unit}
    (hu : updateMacro W name style isPre lines = (l, r)) :
    handlePrerelease W (some p) name style version lines = (l, r.map (fun _ => v)) := by
  rcases h with ⟨h1, rfl, rfl⟩ | ⟨base, delim, suffix, rfl, h1, rfl, rfl⟩
  · simp only [handlePrerelease, h1, hu]
    cases r <;> rfl
  · simp only [handlePrerelease, h1, hu]
    have e1 : upTo (base ++ delim ++ suffix) (base.length : Int) = base := by
      unfold upTo
      rw [if_neg (by omega), Int.toNat_natCast, List.append_assoc, List.take_left]
    have e2 : from_ (base ++ delim ++ suffix) ((base ++ delim).length : Int) = suffix := by
      unfold from_
      rw [if_neg (by omega), Int.toNat_natCast, List.drop_left]
    cases r with
    | error e => rfl
    | ok u => simp only [e1, e2, Except.map]; simp

/-- C78: a pre-release suffix gets a tilde, and the macro that controls it is put into effect; otherwise this macro is
commented out. Only the lines of this macro change before the version is updated. Missing: groups that take no part in the
match (`C78_group_violation`). -/
theorem C78_macro_partial [Uni] {W : World} {prot : Str → Bool} {p : Pattern} {version v : Str} {isPre : Bool}
    (h : PrereleaseOf p version isPre v) {name : Str} (hne : name ≠ []) {style : CommentOutStyle} {lines : List Str}
    (hb : ReadsBack W lines) {m : MacroDefinitions} (hm : MacroDefinitions.parse (W.oracle lines) true lines = .ok m)
    {k : Nat} {d : MacroDefinition} (hk : DefinitionNamed name m k) (hd : m.data[k]? = some d) :
    ∃ d' above below, Toggled style isPre d d' ∧ lines = above ++ definitionLines d ++ below ∧
      updateVersion W prot version (some p) (some name) style lines =
        updateTag W prot (s% "Version") v (above ++ definitionLines d' ++ below) := by
  refine ⟨{ d with style := if d.commentedOut then d.style else style, commentedOut := !isPre },
    ((m.data.take k).map MacroDefinition.raw).flatten ++ d.preceding,
    ((m.data.drop (k + 1)).map MacroDefinition.raw).flatten ++ m.remainder, ⟨rfl, ?_, ?_⟩, ?_, ?_⟩
  · intro hc; simp [hc]
  · intro hc; simp [hc]
  · rw [← hb.macros m hm]
    unfold MacroDefinitions.raw
    rw [MacroDefinitions.flatten_split m.data MacroDefinition.raw hd, MacroDefinitions.raw_own]
    simp [MacroDefinitions.own_eq]
  · have hu : updateMacro W (some name) style isPre lines =
        (MacroDefinitions.raw (toggleMacro name style isPre m), .ok ()) := by
      have : name.isEmpty = false := by cases name <;> simp_all
      simp only [updateMacro, this, Bool.false_eq_true, if_false, withMacros, hm]
    simp only [updateVersion, handle_eq h hu, Except.map]
    congr 1
    unfold toggleMacro
    rw [definition_find hk]
    unfold MacroDefinitions.raw
    simp only
    rw [MacroDefinitions.flatten_modify m.data MacroDefinition.raw _ hd, MacroDefinitions.raw_own]
    simp [MacroDefinitions.own_eq]

/-- C78: without such a macro definition, only the version is updated. -/
theorem C78_no_macro_partial [Uni] {W : World} {prot : Str → Bool} {p : Pattern} {version v : Str} {isPre : Bool}
    (h : PrereleaseOf p version isPre v) {name : Option Str} {style : CommentOutStyle} {lines : List Str}
    (hb : ReadsBack W lines) {m : MacroDefinitions} (hm : MacroDefinitions.parse (W.oracle lines) true lines = .ok m)
    (hn : ∀ n, name = some n → n ≠ [] → ∀ d ∈ m.data, d.name ≠ n) :
    updateVersion W prot version (some p) name style lines = updateTag W prot (s% "Version") v lines := by
  have hu : updateMacro W name style isPre lines = (lines, .ok ()) := by
    cases name with
    | none => rfl
    | some n =>
      cases n with
      | nil => rfl
      | cons c n =>
        simp only [updateMacro, List.isEmpty_cons, Bool.false_eq_true, if_false, withMacros, hm, toggleMacro,
          definition_none (hn _ rfl (by simp)), hb.macros m hm]
  simp only [updateVersion, handle_eq h hu, Except.map]

section
attribute [local instance] asciiUni

/-- a pattern for suffixes such as `-rc1`, with the match of its group -/
def rcPattern : Pattern := fun v => if v = s% "2-rc1" then some (some (1, 2)) else none

example : PrereleaseOf rcPattern (s% "2-rc1") true (s% "2~rc1") :=
  .inr ⟨s% "2", s% "-", s% "rc1", rfl, rfl, rfl, rfl⟩
example : PrereleaseOf rcPattern (s% "2") false (s% "2") := .inl ⟨rfl, rfl, rfl⟩

theorem updateVersion_steps {W : World} {prot : Str → Bool} {version v : Str} {p : Option Pattern} {name : Option Str}
    {style : CommentOutStyle} {lines l : List Str} {r : Out Unit}
    (h1 : handlePrerelease W p name style version lines = (l, .ok v)) (h2 : updateTag W prot (s% "Version") v l = r) :
    updateVersion W prot version p name style lines = r := by
  simp only [updateVersion, h1, h2]

example : updateVersion sampleWorld protectNames (s% "2-rc1") (some rcPattern) (some (s% "pre")) .dnl
    [s% "%dnl %global pre rc1", s% "Name: foo", s% "Version: 1"] =
    ([s% " %global pre rc1", s% "Name: foo", s% "Version: 2~rc1"], .ok ()) :=
  updateVersion_steps (l := [s% " %global pre rc1", s% "Name: foo", s% "Version: 1"]) (v := s% "2~rc1") (by decide +kernel)
    (by decide +kernel)

example : updateVersion sampleWorld protectNames (s% "2") (some rcPattern) (some (s% "pre")) .dnl
    [s% "%global pre rc1", s% "Name: foo", s% "Version: 1"] =
    ([s% "%dnl%global pre rc1", s% "Name: foo", s% "Version: 2"], .ok ()) :=
  updateVersion_steps (l := [s% "%dnl%global pre rc1", s% "Name: foo", s% "Version: 1"]) (v := s% "2") (by decide +kernel)
    (by decide +kernel)

/-- C78 fails if the first group takes no part in the match, as for `(-)?rc1` and `2rc1`: the tilde is put before the last
character. -/
theorem C78_group_violation : updateVersion sampleWorld protectNames (s% "2rc1") (some (fun _ => some (some (-1, -1)))) none .dnl
    [s% "Name: foo", s% "Version: 1"] = ([s% "Name: foo", s% "Version: 2rc~1"], .ok ()) :=
  updateVersion_steps (l := [s% "Name: foo", s% "Version: 1"]) (v := s% "2rc~1") (by decide +kernel) (by decide +kernel)

end

end Specfile.Props
