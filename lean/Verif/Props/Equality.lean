import Verif.Proof.Equality
import Verif.Props.Conditions
import Verif.Props.Tags
/-
C88: equality of the objects that the contexts hand out.
-/
namespace Specfile.Props
open Py Spec Equality Options

/-! ### equality is an equivalence -/

/-- C88: `==` is an equivalence for entries and changelogs, comments, tags, definitions, lists of sources, sections and
whole spec files. -/
theorem C88_equivalence : Spec.Equivalence entryEq ∧ Spec.Equivalence changelogEq ∧ Spec.Equivalence commentEq ∧
    Spec.Equivalence commentsEq ∧ Spec.Equivalence Tags.eqv ∧ Spec.Equivalence tagsEq ∧
    Spec.Equivalence MacroDefinition.eqv ∧ Spec.Equivalence macrosEq ∧ Spec.Equivalence sourcelistEntryEq ∧
    Spec.Equivalence sourcelistEq ∧ Spec.Equivalence sectionEq ∧ Spec.Equivalence sectionsEq ∧
    Spec.Equivalence specfileEq := by
  have he : Spec.Equivalence entryEq := of_iff fun _ _ => entryEq_iff
  have hc : Spec.Equivalence commentEq := of_iff fun _ _ => commentEq_iff
  have hcs : Spec.Equivalence commentsEq := comap (listEq_equivalence hc) _
  have part : ∀ {α β : Type} [BEq β] [LawfulBEq β] (f : α → β), Spec.Equivalence (fun a b : α => f a == f b) :=
    fun f => comap beq_equivalence f
  have ht : Spec.Equivalence Tags.eqv :=
    and_equivalence (and_equivalence (and_equivalence (and_equivalence (and_equivalence (part Tag.name) (part Tag.value))
      (part Tag.sep)) (part (fun t : Tag => t.comments.data))) (part Tag.pfx)) (part Tag.sfx)
  have hm : Spec.Equivalence MacroDefinition.eqv :=
    and_equivalence (and_equivalence (and_equivalence (and_equivalence (and_equivalence (and_equivalence (and_equivalence
      (part MacroDefinition.name) (part MacroDefinition.body)) (part MacroDefinition.isGlobal))
      (part MacroDefinition.commentedOut)) (part MacroDefinition.style))
      (and_equivalence (and_equivalence (and_equivalence (part MacroDefinition.ws0) (part MacroDefinition.ws1))
        (part MacroDefinition.ws2)) (part MacroDefinition.ws3))) (part MacroDefinition.pfx)) (part MacroDefinition.preceding)
  have hs : Spec.Equivalence sourcelistEntryEq :=
    and_equivalence (part SourcelistEntry.location) (comap hcs SourcelistEntry.comments)
  have hx : Spec.Equivalence sectionEq := part Section.data
  have hp : Spec.Equivalence parserEq :=
    and_equivalence (and_equivalence (part ParserKey.sourcedir) (part ParserKey.macros)) (part ParserKey.forceParse)
  exact ⟨he, comap (listEq_equivalence he) Changelog.data, hc, hcs, ht, comap (listEq_equivalence ht) Tags.data, hm,
    comap (listEq_equivalence hm) MacroDefinitions.data, hs, comap (listEq_equivalence hs) Sourcelist.data, hx,
    listEq_equivalence hx,
    and_equivalence (and_equivalence (and_equivalence (part SpecKey.autosave) (part SpecKey.path))
      (part (fun s : SpecKey => s.content.lines))) (comap hp SpecKey.parser)⟩

/-! ### equal objects write the same text -/

/-- C88: equal changelog entries have the same lines, and so have equal comments and equal definitions of macros. Equal
entries and equal comments cannot be told apart at all. -/
theorem C88_same_text : SameWritten entryEq Changelog.entryLines ∧ SameWritten entryEq id ∧
    SameWritten commentEq Comment.str ∧ SameWritten commentEq id ∧
    SameWritten MacroDefinition.eqv MacroDefinition.raw ∧ SameWritten MacroDefinition.eqv MacroDefinition.str :=
  ⟨fun _ _ h => by rw [entryEq_iff.1 h], fun _ _ h => entryEq_iff.1 h, fun _ _ h => by rw [commentEq_iff.1 h],
    fun _ _ h => commentEq_iff.1 h, fun _ _ h => (eqv_raw h).1, fun _ _ h => (eqv_raw h).2⟩

/-- C88: equal changelogs write the same lines, if the lines above the first entry are the same. -/
theorem C88_changelog_partial (a b : Changelog) (h : changelogEq a b = true) (hp : a.predecessor = b.predecessor) :
    Changelog.raw a = Changelog.raw b := by
  unfold Changelog.raw
  rw [(listEq_eq (fun _ _ => entryEq_iff)).1 h, hp]

/-- C88: equal containers of definitions write the same lines, if the lines below the last definition are the same. -/
theorem C88_definitions_partial (a b : MacroDefinitions) (h : macrosEq a b = true) (hr : a.remainder = b.remainder) :
    MacroDefinitions.raw a = MacroDefinitions.raw b := by
  unfold MacroDefinitions.raw
  rw [listEq_map C88_same_text.2.2.2.2.1 _ _ h, hr]

theorem commentsEq_data {a b : Comments} (h : commentsEq a b = true) : a.data = b.data :=
  (listEq_eq (fun _ _ => commentEq_iff)).1 h

/-- C88: equal tags write the same lines, if the lines above their comments are the same. -/
theorem C88_tag_partial (a b : Tag) (h : Tags.eqv a b = true) (ha : a.comments.preceding = b.comments.preceding) :
    Tags.tagRaw a = Tags.tagRaw b := by
  obtain ⟨a1, a2, a3, ⟨a4, a4'⟩, a5, a6, a7⟩ := a
  obtain ⟨b1, b2, b3, ⟨b4, b4'⟩, b5, b6, b7⟩ := b
  simp [Tags.eqv, Comments.eqv] at h
  obtain ⟨⟨⟨⟨⟨rfl, rfl⟩, rfl⟩, rfl⟩, rfl⟩, rfl⟩ := h
  simp at ha
  subst ha
  rfl

/-- C88: equal containers of tags write the same lines, if the lines above the comments of the tags and those below the
last tag are the same. -/
theorem C88_tags_partial (a b : Tags) (h : tagsEq a b = true)
    (ha : SameAbove (fun t : Tag => t.comments.preceding) a.data b.data) (hr : a.remainder = b.remainder) :
    Tags.raw a = Tags.raw b := by
  unfold Tags.raw
  rw [listEq_map_above (fun a b h k => C88_tag_partial a b h k) _ _ h ha, hr]

/-- C88: equal lists of sources write the same lines, if the lines above the comments of the entries and those below the
last entry are the same. -/
theorem C88_sourcelist_partial (a b : Sourcelist) (h : sourcelistEq a b = true)
    (ha : SameAbove (fun e : SourcelistEntry => e.comments.preceding) a.data b.data) (hr : a.remainder = b.remainder) :
    Sourcelist.raw a = Sourcelist.raw b := by
  unfold Sourcelist.raw
  rw [listEq_map_above (text := fun e : SourcelistEntry => e.comments.raw ++ [e.location]) _ _ _ h ha, hr]
  intro x y hxy hp
  unfold sourcelistEntryEq at hxy
  rw [Bool.and_eq_true, beq_iff_eq] at hxy
  simp only [Comments.raw]
  rw [hp, commentsEq_data hxy.2, hxy.1]

/-- C88: equal lists of sections write the same lines, if their headers are the same. -/
theorem C88_sections_partial [Uni] (a b : Sections) (h : sectionsEq a b = true)
    (hh : SameAbove (fun s : Section => { s with data := [] }) a b) : Sections.raw a = Sections.raw b := by
  have : a.map (fun s => s) = b.map (fun s => s) := by
    refine listEq_map_above (fun x y hxy hp => ?_) _ _ h hh
    obtain ⟨x1, x2, x3, x4, x5⟩ := x
    obtain ⟨y1, y2, y3, y4, y5⟩ := y
    simp [sectionEq] at hxy
    simp at hp
    obtain ⟨rfl, rfl, rfl, rfl⟩ := hp
    subst hxy
    rfl
  simp at this
  rw [this]

/-- C88: equal spec files have the same text, if both or none of them end in a newline; they are at the same path, and the
same macros and sources are used for parsing. -/
theorem C88_specfile_partial (a b : SpecKey) (h : specfileEq a b = true) (hn : a.content.newline = b.content.newline) :
    Text.text a.content = Text.text b.content ∧ a = b := by
  obtain ⟨a1, a2, ⟨a3, a4⟩, a5, a6, a7⟩ := a
  obtain ⟨b1, b2, ⟨b3, b4⟩, b5, b6, b7⟩ := b
  simp [specfileEq, parserEq] at h
  simp at hn
  obtain ⟨⟨⟨rfl, rfl⟩, rfl⟩, ⟨rfl, rfl⟩, rfl⟩ := h
  subst hn
  exact ⟨rfl, rfl⟩

/-! ### the same lines read twice -/

/-- C88: what is read twice from the same lines is equal, even if macros have other values the second time, and it writes
the same lines: the validity is not compared. -/
theorem C88_definitions_again [Uni] (ex ex' : Conditions.Oracle) (c c' : Bool) (lines : List Str) (a b : MacroDefinitions)
    (ha : MacroDefinitions.parse ex c lines = .ok a) (hb : MacroDefinitions.parse ex' c' lines = .ok b) :
    macrosEq a b = true ∧ MacroDefinitions.raw a = MacroDefinitions.raw b := by
  have key : ∀ {ex : Conditions.Oracle} {c : Bool} {a : MacroDefinitions}, MacroDefinitions.parse ex c lines = .ok a →
      ∃ ls : List (Str × Bool), ls.map (·.1) = lines ∧ a = MacroDefinitions.parseLoop [] 0 ls := by
    intro ex c a h
    unfold MacroDefinitions.parse at h
    split at h
    · injection h with h
      exact ⟨lines.map (fun l => (l, true)), by rw [List.map_map]; exact List.map_id _, h.symm⟩
    · split at h
      · cases h
      next ls hls =>
        injection h with h
        exact ⟨ls, C11_lines_kept _ _ _ _ hls, h.symm⟩
  obtain ⟨ls, h1, rfl⟩ := key ha
  obtain ⟨ls', h2, rfl⟩ := key hb
  obtain ⟨h3, h4⟩ := definitions_again ls ls' (h1.trans h2.symm) [] 0
  exact ⟨h3, C88_definitions_partial _ _ h3 h4⟩

/-- C88: the same for tags. -/
theorem C88_tags_again [Uni] (names : List Str) (ex ex' : Conditions.Oracle) (lines : List Str) (a b : Tags)
    (ha : Tags.parse names ex lines = .ok a) (hb : Tags.parse names ex' lines = .ok b) :
    tagsEq a b = true ∧ Tags.raw a = Tags.raw b := by
  unfold Tags.parse at ha hb
  split at ha
  · cases ha
  next ls hls =>
    split at hb
    · cases hb
    next ls' hls' =>
      have h1 := C11_lines_kept _ _ _ _ hls
      have h2 := C11_lines_kept _ _ _ _ hls'
      obtain ⟨h3, h4, h5⟩ := tags_again names ls ls' (h1.trans h2.symm) [] 0 a b ha hb
      exact ⟨h3, C88_tags_partial _ _ h3 h4 h5⟩

/-- C88: the same for lists of sources. -/
theorem C88_sourcelist_again [Uni] (ex ex' : Conditions.Oracle) (lines : List Str) (a b : Sourcelist)
    (ha : Sourcelist.parse ex lines = .ok a) (hb : Sourcelist.parse ex' lines = .ok b) :
    sourcelistEq a b = true ∧ Sourcelist.raw a = Sourcelist.raw b := by
  unfold Sourcelist.parse at ha hb
  split at ha
  · cases ha
  next ls hls =>
    split at hb
    · cases hb
    next ls' hls' =>
      injection ha with ha
      injection hb with hb
      subst ha hb
      have h1 := C11_lines_kept _ _ _ _ hls
      have h2 := C11_lines_kept _ _ _ _ hls'
      obtain ⟨h3, h4, h5⟩ := sourcelist_again ls ls' (h1.trans h2.symm) []
      exact ⟨h3, C88_sourcelist_partial _ _ h3 h4 h5⟩

/-! ### options and macros of %prep -/

/-- C88: equal macros of %prep of the same kind have the same name and the same value of every option, and are written
between the same texts. What is missing: their positional arguments. -/
theorem C88_prep_options_partial [Uni] (a b : PrepMacro) (h : prepMacroEq a b = .ok true)
    (ho : a.options.optstring = b.options.optstring) (hd : a.options.defaults = b.options.defaults) :
    a.name = b.name ∧ a.preceding = b.preceding ∧ a.pfx = b.pfx ∧ a.sfx = b.sfx ∧
    ∀ c, Options.valid a.options.optstring c = true →
      ∃ v w, Options.get a.options c = .ok v ∧ Options.get b.options c = .ok w ∧ SameValue v w := by
  obtain ⟨h1, h2, h3, h4, h5, h6⟩ := prepMacroEq_options h
  exact ⟨h1, h6, h4, h5, fun c hc => optionsEq_get h2 ho hd c hc⟩

/-- C88: two sequences of positional arguments are equal exactly if they read as the same list. -/
theorem C88_positionals [Uni] (a b : Opts) : positionalsEq a b = .ok true ↔
    ∃ l, Equality.readAll (positionalValues a) = .ok l ∧ Equality.readAll (positionalValues b) = .ok l := by
  have nb : ∀ {ss : List Str} {l : List Val}, Equality.readAll ss = .ok l → ∀ v ∈ l, ∀ x, v ≠ .bool x := by
    intro ss
    induction ss with
    | nil => intro l h; simp [Equality.readAll] at h; subst h; simp
    | cons s ss ih =>
      intro l h
      rw [Equality.readAll] at h
      split at h
      · cases h
      next v hv =>
        split at h
        · cases h
        next r hr =>
          injection h with h
          subst h
          intro w hw
          rcases List.mem_cons.1 hw with rfl | hw
          · exact readValue_ne_bool hv
          · exact ih hr w hw
  have same : ∀ {x y : List Val}, (∀ v ∈ x, ∀ z, v ≠ .bool z) → (∀ v ∈ y, ∀ z, v ≠ .bool z) →
      (listEq valEq x y = true ↔ x = y) := by
    intro x
    induction x with
    | nil => intro y; cases y <;> simp [listEq]
    | cons v x ih =>
      intro y hx hy
      cases y with
      | nil => simp [listEq]
      | cons w y =>
        rw [listEq, Bool.and_eq_true, ih (fun u hu => hx u (by simp [hu])) (fun u hu => hy u (by simp [hu])),
          List.cons.injEq]
        refine and_congr_left fun _ => ?_
        have hv := hx v (by simp)
        have hw := hy w (by simp)
        cases v <;> cases w <;> simp_all [valEq]
  unfold positionalsEq
  split
  next e he => rw [he]; simp
  next x hx =>
    split
    next e he => rw [he]; simp
    next y hy =>
      rw [hx, hy]
      simp only [Except.ok.injEq]
      rw [same (nb hx) (nb hy)]
      simp [eq_comm]

/-- C88: `==` of macros of %prep and of whole sections never fails one way and holds the other way, and macros equal to
the same macro are equal. -/
theorem C88_prep_equivalence [Uni] (a b c : PrepMacro) :
    (prepMacroEq a b = .ok true → prepMacroEq b a = .ok true) ∧
    (prepMacroEq a b = .ok true → prepMacroEq b c = .ok true → prepMacroEq a c = .ok true) ∧
    ((∀ k ∈ keys a.options, ∃ v, Options.get a.options k = .ok v) → prepMacroEq a a = .ok true) := by
  have opts : ∀ {x y : Opts}, optionsEq x y = .ok true ↔ ∃ l m, optionItems x = .ok l ∧ optionItems y = .ok m ∧
      dictEq l m = true := by
    intro x y
    unfold optionsEq
    split
    next e he => simp [he]
    next l hl =>
      split
      next e he => simp [he]
      next m hm => simp [hl, hm]
  have mk : ∀ {x y : PrepMacro}, x.name = y.name → optionsEq x.options y.options = .ok true →
      x.delimiter = y.delimiter → x.pfx = y.pfx → x.sfx = y.sfx → x.preceding = y.preceding →
      prepMacroEq x y = .ok true := by
    intro x y h1 h2 h3 h4 h5 h6
    unfold prepMacroEq
    simp [h1, h2, h3, h4, h5, h6]
  refine ⟨fun h => ?_, fun h k => ?_, fun h => ?_⟩
  · obtain ⟨h1, h2, h3, h4, h5, h6⟩ := prepMacroEq_options h
    refine mk h1.symm ?_ h3.symm h4.symm h5.symm h6.symm
    obtain ⟨l, m, hl, hm, h⟩ := opts.1 h2
    refine opts.2 ⟨m, l, hm, hl, ?_⟩
    rw [dictEq_iff] at h ⊢
    exact ⟨h.2, h.1⟩
  · obtain ⟨h1, h2, h3, h4, h5, h6⟩ := prepMacroEq_options h
    obtain ⟨k1, k2, k3, k4, k5, k6⟩ := prepMacroEq_options k
    refine mk (h1.trans k1) ?_ (h3.trans k3) (h4.trans k4) (h5.trans k5) (h6.trans k6)
    obtain ⟨l, m, hl, hm, h⟩ := opts.1 h2
    obtain ⟨m', n, hm', hn, k⟩ := opts.1 k2
    rw [hm] at hm'
    injection hm' with hm'
    subst hm'
    refine opts.2 ⟨l, n, hl, hn, ?_⟩
    rw [dictEq_iff] at h k ⊢
    constructor
    · intro x hx
      obtain ⟨y, hy, e1, e2⟩ := h.1 x hx
      obtain ⟨z, hz, f1, f2⟩ := k.1 y hy
      exact ⟨z, hz, e1.trans f1, sameValue_trans e2 f2⟩
    · intro z hz
      obtain ⟨y, hy, e1, e2⟩ := k.2 z hz
      obtain ⟨x, hx, f1, f2⟩ := h.2 y hy
      exact ⟨x, hx, e1.trans f1, sameValue_trans e2 f2⟩
  · refine mk rfl ?_ rfl rfl rfl rfl
    have : ∃ l, itemsLoop a.options (keys a.options) = .ok l := by
      generalize keys a.options = ks at h
      induction ks with
      | nil => exact ⟨[], rfl⟩
      | cons k ks ih =>
        obtain ⟨r, hr⟩ := ih (fun x hx => h x (by simp [hx]))
        obtain ⟨v, hv⟩ := h k (by simp)
        exact ⟨(k, v) :: r, by rw [itemsLoop, hv]; simp only; rw [hr]⟩
    obtain ⟨l, hl⟩ := this
    exact opts.2 ⟨l, l, hl, hl, dictEq_iff.2 ⟨fun x hx => ⟨x, hx, rfl, .same _⟩, fun x hx => ⟨x, hx, rfl, .same _⟩⟩⟩

/-! ### examples and violations -/

section
attribute [local instance] asciiUni

/-- the same definition is valid or not, depending on whether conditions are looked at -/
example : (MacroDefinitions.parse noExpansion true [s% "%if 0", s% "%global a 1", s% "%endif"]).map
      (fun m => m.data.map (·.valid)) = .ok [false] ∧
    (MacroDefinitions.parse noExpansion false [s% "%if 0", s% "%global a 1", s% "%endif"]).map
      (fun m => m.data.map (·.valid)) = .ok [true] := by decide +kernel

/-- `%if %a` is true or false -/
def readsAs (v : Str) : Conditions.Oracle := fun _ e => .ok (if e = s% "%{expr:%a}" then v else e)

/-- the same tag is valid or not, depending on the value of a macro -/
example : (Tags.parse Constants.tagNames (readsAs (s% "0")) [s% "%if %a", s% "Epoch: 1", s% "%endif"]).map
      (fun m => m.data.map (·.valid)) = .ok [false] ∧
    (Tags.parse Constants.tagNames (readsAs (s% "1")) [s% "%if %a", s% "Epoch: 1", s% "%endif"]).map
      (fun m => m.data.map (·.valid)) = .ok [true] := by decide +kernel

/-- and so is the same source in a list -/
example : (Sourcelist.parse (readsAs (s% "0")) [s% "%if %a", s% "a.tar.gz", s% "%endif"]).map
      (fun m => m.data.map (·.valid)) = .ok [true, false, true] ∧
    (Sourcelist.parse (readsAs (s% "1")) [s% "%if %a", s% "a.tar.gz", s% "%endif"]).map
      (fun m => m.data.map (·.valid)) = .ok [true, true, true] := by decide +kernel

/-- equal macros with options in a different order and in different form -/
example : ∃ a b x y, Prep.parse [s% "%patch -P1 -p2"] = .ok a ∧ Prep.parse [s% "%patch -p 2 -P 1"] = .ok b ∧
    a.data = [x] ∧ b.data = [y] ∧ prepMacroEq x y = .ok true ∧ x.options.tokens ≠ y.options.tokens ∧
    x.options.optstring = y.options.optstring ∧ x.options.defaults = y.options.defaults :=
  ⟨_, _, _, _, rfl, rfl, rfl, rfl, by decide +kernel, by decide +kernel, rfl, rfl⟩

/-- equal positional arguments between different options -/
example : positionalsEq ⟨[⟨.default, s% "01"⟩, ⟨.whitespace, s% " "⟩, ⟨.default, s% "-q"⟩], s% "q", []⟩
    ⟨[⟨.quoted, s% "1"⟩], s% "q", []⟩ = .ok true := by decide +kernel

/-- C88 fails for sections: sections with the same lines are equal, whatever they are. -/
theorem C88_violation_sections : ∃ a b, Sections.parse noExpansion [s% "%build", s% "make"] = .ok a ∧
    Sections.parse noExpansion [s% "%install", s% "make"] = .ok b ∧ sectionsEq a b = true ∧
    Sections.raw a = [s% "%build", s% "make"] ∧ Sections.raw b = [s% "%install", s% "make"] :=
  ⟨_, _, rfl, rfl, by decide +kernel, by decide +kernel, by decide +kernel⟩

/-- C88 fails for tags and containers of them: a tag in a condition is equal to the same tag outside of it. -/
theorem C88_violation_tags : ∃ a b, Tags.parse Constants.tagNames noExpansion [s% "%if 0", s% "Epoch: 1", s% "%endif"] = .ok a ∧
    Tags.parse Constants.tagNames noExpansion [s% "Epoch: 1"] = .ok b ∧ tagsEq a b = true ∧ Tags.raw a ≠ Tags.raw b :=
  ⟨_, _, rfl, rfl, by decide +kernel, by decide +kernel⟩

/-- C88 fails for lists of sources, in the same way. -/
theorem C88_violation_sourcelist : ∃ a b, Sourcelist.parse noExpansion [s% "a.tar.gz", s% "# b.tar.gz"] = .ok a ∧
    Sourcelist.parse noExpansion [s% "a.tar.gz"] = .ok b ∧ sourcelistEq a b = true ∧ Sourcelist.raw a ≠ Sourcelist.raw b :=
  ⟨_, _, rfl, rfl, by decide +kernel, by decide +kernel⟩

/-- C88 fails for containers of definitions: the lines below the last definition are not compared. -/
theorem C88_violation_definitions :
    let a := MacroDefinitions.parseLines [s% "%global a 1", s% "Name: x"]
    let b := MacroDefinitions.parseLines [s% "%global a 1"]
    macrosEq a b = true ∧ MacroDefinitions.raw a ≠ MacroDefinitions.raw b := by decide +kernel

/-- C88 fails for changelogs: the lines above the first entry are not compared. -/
theorem C88_violation_changelog :
    let a := Changelog.parse [s% "%autochangelog"]
    let b := Changelog.parse []
    changelogEq a b = true ∧ Changelog.raw a ≠ Changelog.raw b := by decide +kernel

/-- C88 fails for %prep: macros that apply different patches are equal, as positional arguments are not compared. -/
theorem C88_violation_prep : ∃ a b x y, Prep.parse [s% "%patch 1 -p1"] = .ok a ∧ Prep.parse [s% "%patch 2 -p1"] = .ok b ∧
    prepEq a b = .ok true ∧ Prep.raw a ≠ Prep.raw b ∧ a.data = [x] ∧ b.data = [y] ∧
    Prep.number x = .ok 1 ∧ Prep.number y = .ok 2 :=
  ⟨_, _, _, _, rfl, rfl, by decide +kernel, by decide +kernel, rfl, rfl, by decide +kernel, by decide +kernel⟩

/-- C88 fails for whole spec files: the last newline is not compared. -/
theorem C88_violation_specfile (autosave : Bool) (path : Str) (p : ParserKey) : ∃ a b, Text.readLines (s% "Name: x") = .ok a ∧
    Text.readLines (s% "Name: x\n") = .ok b ∧ specfileEq ⟨autosave, path, a, p⟩ ⟨autosave, path, b, p⟩ = true ∧
    Text.text a ≠ Text.text b :=
  ⟨_, _, rfl, rfl, by simp [specfileEq, parserEq]; decide +kernel, by decide +kernel⟩

end

end Specfile.Props
