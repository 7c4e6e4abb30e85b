import Verif.Proof.Operations
import Verif.Props.UpdateValue
import Verif.Props.Release
import Verif.Props.Changelog
/-
Properties of operations on whole spec files: C74 and C75.
-/
namespace Specfile.Props
open Py Spec Update Ops

/-! ### C74 -/

/-- C74: a property that stands for a tag is the value of the tag with this name, the first valid one or else the first
one. Setting it rewrites the lines of this tag and no others. -/
theorem C74_tag [Uni] {W : World} {lines : List Str} {t : Tags} {rest : Sections} (h : FileTags W lines t rest)
    {name : Str} {k : Nat} (hk : TagNamed name t k) (v : Str) :
    ∃ x above below, t.data[k]? = some x ∧
      tagValue W name lines = (above ++ tagLines x ++ below, .ok (some x.value)) ∧
      setTag W name v lines = (above ++ tagLines { x with value := v } ++ below, .ok ()) := by
  obtain ⟨x, hx, -⟩ := named_get hk
  obtain ⟨above, below, h1, h2, -⟩ := C14_set_value_is_local t k x v hx
  refine ⟨x, above, below ++ Sections.raw rest, hx, ?_, ?_⟩
  · rw [tagValue, withTags_ok h, valueOf_named hk hx, h1]
    simp
  · rw [setTag, withTags_ok h, assignTag_named v hk, h2]
    simp

/-- C74: a property without a tag is `None` and cannot be set. -/
theorem C74_missing [Uni] {W : World} {lines : List Str} {t : Tags} {rest : Sections} (h : FileTags W lines t rest)
    {name : Str} (hk : NoTag name t) (v : Str) :
    (tagValue W name lines).2 = .ok none ∧ (setTag W name v lines).2 = .error .attributeError ∧
      (setTag W name v lines).1 = (tagValue W name lines).1 := by
  rw [tagValue, setTag, withTags_ok h, withTags_ok h, valueOf_none hk, assignTag_none v hk]
  exact ⟨rfl, rfl, rfl⟩

/-- C74: there is a tag with the name or there is none, and if there is one it is the only one that is found. -/
theorem C74_cases [Uni] (name : Str) (t : Tags) :
    ((∃ k, TagNamed name t k) ∨ NoTag name t) ∧ ∀ j k, TagNamed name t j → TagNamed name t k → j = k :=
  ⟨named_or name t, fun _ _ => named_unique⟩

/-- C74: the expanded value is the expansion of the value. It takes place in the context of the spec file as it is. -/
theorem C74_expanded [Uni] {W : World} {lines : List Str} {t : Tags} {rest : Sections} (h : FileTags W lines t rest)
    (name : Str) : (expandedTag W name lines).1 = (tagValue W name lines).1 ∧
      (∀ k x, TagNamed name t k → t.data[k]? = some x →
        (expandedTag W name lines).2 = (W.expand lines x.value).map some) ∧
      (NoTag name t → (expandedTag W name lines).2 = .ok none) := by
  rw [expandedTag, tagValue, withTags_ok h, withTags_ok h]
  refine ⟨rfl, ?_, ?_⟩
  · intro k x hk hx
    simp only [valueOf_named hk hx, expandOption]
    cases W.expand lines x.value <;> rfl
  · intro hk
    simp [valueOf_none hk, expandOption]

/-- C74: if the tags cannot be read, every one of these operations raises the same exception. -/
theorem C74_unreadable [Uni] {W : World} {lines : List Str} (h : ∀ t rest, ¬ FileTags W lines t rest) :
    ∃ l e, ∀ name v, tagValue W name lines = (l, .error e) ∧ setTag W name v lines = (l, .error e) ∧
      expandedTag W name lines = (l, .error e) := by
  obtain ⟨l, e, he⟩ := withTags_fails h
  exact ⟨l, e, fun name v => ⟨he _, he _, he _⟩⟩

/-- the tag with this name is the only one -/
def OnlyTag [Uni] (name : Str) (t : Tags) (k : Nat) : Prop :=
  ∀ (j : Nat) x, t.data[j]? = some x → (Uni.capitalize x.name = Uni.capitalize name ↔ j = k)

theorem OnlyTag.named [Uni] {name : Str} {t : Tags} {k : Nat} {x : Tag} (h : OnlyTag name t k) (hx : t.data[k]? = some x) :
    TagNamed name t k := by
  refine ⟨x, hx, (h k x hx).2 rfl, ?_⟩
  cases hv : x.valid with
  | true =>
    refine .inl ⟨hv, fun j y hj hy hn => ?_⟩
    have := (h j y hy).1 hn
    omega
  | false =>
    refine .inr ⟨fun y hy hn => ?_, fun j y hj hy hn => ?_⟩
    · obtain ⟨j, hj⟩ := List.getElem?_of_mem hy
      have := (h j y hj).1 hn
      subst this
      rw [hx] at hj
      cases hj
      simp [hv]
    · have := (h j y hy).1 hn
      omega

/-- C74 (full claim: a property that has been set has this value). Here for a spec file whose tags and sections are written
the way they are read, with one tag of this name, and a value that makes it a readable tag. Missing: a name with several
tags, where the change of a tag can change which of them is valid. -/
theorem C74_set_get_partial [Uni] {W : World} (hN : Tags.IsTagNames W.names) {lines : List Str} {t : Tags} {rest : Sections}
    (h : FileTags W lines t rest) {name : Str} {k : Nat} {x : Tag} (hx : t.data[k]? = some x) (hk : OnlyTag name t k) (v : Str)
    (hm : ReadableTags t) (hv : PlainTag { x with value := v } ∧ ¬ OpenBracket v ∨ WrappedTag { x with value := v })
    {lines' : List Str} (hs : setTag W name v lines = (lines', .ok ()))
    (hc : ∀ t', TagSet t k v t' → CleanTagLines (Tags.raw t') ∧ (∀ l ∈ Tags.raw t', OneLine l ∧ ¬ HeaderLine l) ∧
      ∀ e, Conditions.processConditions (W.oracle lines') (MacroDefinitions.parseLines (Tags.raw t')).excluded (Tags.raw t')
        ≠ .error e)
    (hg : ∀ s ∈ rest, GoodSection s) (ho : HeadersOutside lines') :
    tagValue W name lines' = (lines', .ok (some v)) := by
  obtain ⟨hc1, hc2, hc3⟩ := hc _ (tagSet_iff.2 rfl)
  rw [setTag, withTags_ok h, assignTag_named v (hk.named hx)] at hs
  simp only [Prod.mk.injEq, and_true] at hs
  have hraw := raw_cons (Tags.raw (t.setValueAt k v)) rest
  have hp : Sections.parse (W.oracle lines') lines' = .ok (preambleOf (Tags.raw (t.setValueAt k v)) :: rest) := by
    rw [← hs, ← hraw]
    refine C19_read_back _ _ ⟨_, _, rfl, hc2, hg⟩ ?_
    rw [hraw, hs]
    exact ho
  cases ht : Tags.parse W.names (W.oracle lines') (Tags.raw (t.setValueAt k v)) with
  | error e =>
    exact absurd ((C52_read_back_succeeds _ hN _ _ (C52_set_readable t hm k x v hx hv) hc1 e).1 ht) (hc3 e)
  | ok t' =>
    obtain ⟨⟨s1, s2⟩, y, y1, y2, y3, -⟩ := C52_set_and_read_back _ hN _ t t' hm k x v hx hv hc1 ht
    have hft : FileTags W lines' t' rest := ⟨_, hp, ht⟩
    have hon : OnlyTag name t' k := by
      intro j z hz
      have e := congrArg (fun l => l[j]?) s1
      simp only [List.getElem?_map, hz, Option.map_some] at e
      have hd : (t.setValueAt k v).data[j]? = (t.data[j]?).map (fun x => if k = j then { x with value := v } else x) := by
        simp only [Tags.setValueAt, List.getElem?_modify]
        cases t.data[j]? <;> simp
      rw [hd] at e
      cases hw : t.data[j]? with
      | none => rw [hw] at e; cases e
      | some w =>
        rw [hw] at e
        have hn : z.name = w.name := by
          simp only [Option.map_some, Option.some.injEq, Tag.mk.injEq] at e
          rw [e.1]
          split <;> rfl
        rw [hn]
        exact hk j w hw
    rw [tagValue, withTags_ok hft, valueOf_named (hon.named y1) y1, y2, ← hs]
    congr 2
    -- the same text
    have : ∀ a b : List Tag, a.map (fun t => { t with valid := true }) = b.map (fun t => { t with valid := true }) →
        a.map Tags.tagRaw = b.map Tags.tagRaw := by
      intro a b hab
      have := congrArg (List.map Tags.tagRaw) hab
      rw [List.map_map, List.map_map] at this
      exact this
    unfold Tags.raw
    rw [this _ _ s1, s2]

/-! ### C75 -/

theorem rawRelease_named [Uni] {W : World} {lines : List Str} {t : Tags} {rest : Sections} (h : FileTags W lines t rest)
    {k : Nat} (hk : TagNamed (s% "release") t k) {x : Tag} (hx : t.data[k]? = some x) :
    rawRelease W lines = (Tags.raw t ++ Sections.raw rest, .ok x.value) := by
  unfold rawRelease tagValue
  rw [withTags_ok h, valueOf_named hk hx]

theorem rawRelease_none [Uni] {W : World} {lines : List Str} {t : Tags} {rest : Sections} (h : FileTags W lines t rest)
    (hk : NoTag (s% "release") t) : rawRelease W lines = (Tags.raw t ++ Sections.raw rest, .error .typeError) := by
  unfold rawRelease tagValue
  rw [withTags_ok h, valueOf_none hk]

/-- C75: the release is the value of the tag Release without a dist tag. Giving a release means to set this tag to the
release with the dist tag of the old value. -/
theorem C75_release [Uni] {W : World} {lines : List Str} {t : Tags} {rest : Sections} (h : FileTags W lines t rest)
    (hb : ReadsBack W lines) {k : Nat} (hk : TagNamed (s% "release") t k) {x : Tag} (hx : t.data[k]? = some x) :
    (∀ r d minor, DistRelease x.value r d minor → release W lines = (lines, .ok r)) ∧
    (¬ HasDist x.value → release W lines = (lines, .ok x.value)) ∧
    ∀ v, ∃ v', GivenRelease x.value v v' ∧ setRelease W v lines = setTag W (s% "release") v' lines := by
  have hr := rawRelease_named h hk hx
  rw [hb.tags t rest h] at hr
  refine ⟨?_, ?_, ?_⟩
  · intro r d m hd
    unfold release
    rw [hr]
    simp only [(C35_split_dist x.value r d (m.map decVal)).2 ⟨m, hd, rfl⟩]
  · intro hd
    unfold release
    rw [hr]
    simp only [(C35_split_plain x.value).2 hd]
  · intro v
    refine ⟨_, given_iff.2 rfl, ?_⟩
    unfold setRelease
    rw [hr]

/-- C75: without a tag Release, the release can be neither read nor set nor bumped, and nothing changes. -/
theorem C75_missing [Uni] {W : World} {lines : List Str} {t : Tags} {rest : Sections} (h : FileTags W lines t rest)
    (hb : ReadsBack W lines) (hk : NoTag (s% "release") t) : release W lines = (lines, .error .typeError) ∧
      (∀ v, setRelease W v lines = (lines, .error .typeError)) ∧ bumpRelease W lines = (lines, .error .typeError) := by
  have hr := rawRelease_none h hk
  rw [hb.tags t rest h] at hr
  unfold release setRelease bumpRelease
  rw [hr]
  exact ⟨rfl, fun _ => rfl, rfl⟩

/-- C75 (full claim: both tags are set or nothing changes): the tag Version gets the version and the tag Release gets the
release with the dist tag it had. Missing: without a tag Release the claim is false (`C75_version_only_violation`). -/
theorem C75_version_release_partial [Uni] {W : World} {lines : List Str} {t : Tags} {rest : Sections} (h : FileTags W lines t rest)
    {i k : Nat} (hi : TagNamed (s% "version") t i) (hk : TagNamed (s% "release") t k) {x : Tag} (hx : t.data[k]? = some x)
    (hn : Uni.capitalize (s% "version") ≠ Uni.capitalize (s% "release")) (version rel : Str) :
    ∃ v' t' t'', GivenRelease x.value rel v' ∧ TagSet t i version t' ∧ TagSet t' k v' t'' ∧ i ≠ k ∧
      setVersionRelease W version rel lines = (Tags.raw t'' ++ Sections.raw rest, .ok ()) := by
  have hne : i ≠ k := by
    rintro rfl
    obtain ⟨a, ha, hav⟩ := named_get hi
    obtain ⟨b, hb, hbv⟩ := named_get hk
    rw [ha] at hb
    cases hb
    exact hn (hav.symm.trans hbv)
  have hd : (t.setValueAt i version).data[k]? = some x := by
    rw [(tagSet_iff.2 rfl : TagSet t i version _).others k (Ne.symm hne), hx]
  have hk' : TagNamed (s% "release") (t.setValueAt i version) k := named_set hk i version
  refine ⟨_, _, _, given_iff.2 rfl, tagSet_iff.2 rfl, tagSet_iff.2 rfl, hne, ?_⟩
  rw [setVersionRelease, withTags_ok h]
  simp only [assignVersionRelease, assignTag_named version hi, assignRelease, getTag_ok hk', hd, Option.map_some,
    Option.getD_some]

/-- C75 fails without a tag Release: the version is set nevertheless. -/
theorem C75_version_only_violation [Uni] {W : World} {lines : List Str} {t : Tags} {rest : Sections}
    (h : FileTags W lines t rest) {i : Nat} (hi : TagNamed (s% "version") t i) (hk : NoTag (s% "release") t)
    (version rel : Str) : ∃ t', TagSet t i version t' ∧
      setVersionRelease W version rel lines = (Tags.raw t' ++ Sections.raw rest, .error .attributeError) := by
  refine ⟨_, tagSet_iff.2 rfl, ?_⟩
  have hk' : NoTag (s% "release") (t.setValueAt i version) := noTag_set hk i version
  rw [setVersionRelease, withTags_ok h]
  simp only [assignVersionRelease, assignTag_named version hi, assignRelease, getTag_none hk']

/-- C75: without a tag Version, nothing is set. -/
theorem C75_no_version [Uni] {W : World} {lines : List Str} {t : Tags} {rest : Sections}
    (h : FileTags W lines t rest) (hi : NoTag (s% "version") t) (version rel : Str) :
      setVersionRelease W version rel lines = (Tags.raw t ++ Sections.raw rest, .error .attributeError) := by
  rw [setVersionRelease, withTags_ok h]
  simp only [assignVersionRelease, assignTag_none version hi]

/-- the name is one of those that seem to define a release -/
def ReleaseMacro [Uni] (d : MacroDefinition) : Prop :=
  Uni.lower d.name = s% "release" ∨ Uni.lower d.name = s% "baserelease"

theorem definesRelease_iff [Uni] (d : MacroDefinition) : definesRelease d = true ↔ ReleaseMacro d := by
  simp [definesRelease, ReleaseMacro]

/-- C75: a release that is generated by `%autorelease` is not bumped. -/
theorem C75_bump_autorelease [Uni] {W : World} {lines : List Str} {t : Tags} {rest : Sections} (h : FileTags W lines t rest)
    (hb : ReadsBack W lines) {k : Nat} (hk : TagNamed (s% "release") t k) {x : Tag} (hx : t.data[k]? = some x)
    {ns : List Node} (hp : ValueParser.parse x.value = .ok ns) (ha : ∃ n ∈ ns, Refers (s% "autorelease") n) :
    bumpRelease W lines = (lines, .ok ()) := by
  have hr := rawRelease_named h hk hx
  rw [hb.tags t rest h] at hr
  unfold bumpRelease
  rw [hr]
  simp only [(C51_autorelease x.value).2 ⟨ns, hp, ha⟩]

/-- C75: a release that cannot be read as an expression is not bumped. -/
theorem C75_bump_unreadable [Uni] {W : World} {lines : List Str} {t : Tags} {rest : Sections} (h : FileTags W lines t rest)
    (hb : ReadsBack W lines) {k : Nat} (hk : TagNamed (s% "release") t k) {x : Tag} (hx : t.data[k]? = some x)
    {e : Err} (hp : ValueParser.parse x.value = .error e) : bumpRelease W lines = (lines, .error e) := by
  have hr := rawRelease_named h hk hx
  rw [hb.tags t rest h] at hr
  unfold bumpRelease
  rw [hr]
  simp only [(C51_autorelease_error x.value e).2 hp]

/-- C75 (full claim: the release is bumped): if a macro definition seems to define the release, the body of the first of
them is bumped, and no other line changes. Missing: the definition need not be in effect (`C75_bump_violation`). -/
theorem C75_bump_macro_partial [Uni] {W : World} {lines : List Str} {t : Tags} {rest : Sections} (h : FileTags W lines t rest)
    (hb : ReadsBack W lines) {k : Nat} (hk : TagNamed (s% "release") t k) {x : Tag} (hx : t.data[k]? = some x)
    {ns : List Node} (hp : ValueParser.parse x.value = .ok ns) (ha : ¬ ∃ n ∈ ns, Refers (s% "autorelease") n)
    {m : MacroDefinitions} (hm : MacroDefinitions.parse (W.oracle lines) true lines = .ok m)
    {j : Nat} {d : MacroDefinition} (hd : m.data[j]? = some d) (hr : ReleaseMacro d)
    (hf : ∀ (i : Nat) y, i < j → m.data[i]? = some y → ¬ ReleaseMacro y) :
    ∃ body above below, Bumped d.body body ∧ lines = above ++ definitionLines d ++ below ∧
      bumpRelease W lines = (above ++ definitionLines { d with body := body } ++ below, .ok ()) := by
  have hraw := rawRelease_named h hk hx
  rw [hb.tags t rest h] at hraw
  have hi : m.data.findIdx? definesRelease = some j := by
    rw [List.findIdx?_eq_some_iff_getElem]
    obtain ⟨hlt, hd'⟩ := List.getElem?_eq_some_iff.1 hd
    refine ⟨hlt, by rw [hd']; exact (definesRelease_iff d).2 hr, fun i hi hc => ?_⟩
    exact hf i _ hi (List.getElem?_eq_getElem (by omega)) ((definesRelease_iff _).1 hc)
  refine ⟨Release.bump d.body, ((m.data.take j).map MacroDefinition.raw).flatten ++ d.preceding,
    ((m.data.drop (j + 1)).map MacroDefinition.raw).flatten ++ m.remainder, (C36_bump _ _).1 rfl, ?_, ?_⟩
  · rw [← hb.macros m hm]
    unfold MacroDefinitions.raw
    rw [MacroDefinitions.flatten_split m.data MacroDefinition.raw hd, MacroDefinitions.raw_own]
    simp [MacroDefinitions.own_eq]
  · unfold bumpRelease
    rw [hraw]
    simp only [(C51_no_autorelease x.value).2 ⟨ns, hp, ha⟩, withMacros, hm, bumpMacros, hi]
    congr 1
    unfold MacroDefinitions.raw
    rw [MacroDefinitions.flatten_modify m.data MacroDefinition.raw _ hd, MacroDefinitions.raw_own]
    simp [MacroDefinitions.own_eq]

/-- C75: otherwise the value of the tag Release is bumped. -/
theorem C75_bump_tag [Uni] {W : World} {lines : List Str} {t : Tags} {rest : Sections} (h : FileTags W lines t rest)
    (hb : ReadsBack W lines) {k : Nat} (hk : TagNamed (s% "release") t k) {x : Tag} (hx : t.data[k]? = some x)
    {ns : List Node} (hp : ValueParser.parse x.value = .ok ns) (ha : ¬ ∃ n ∈ ns, Refers (s% "autorelease") n)
    {m : MacroDefinitions} (hm : MacroDefinitions.parse (W.oracle lines) true lines = .ok m)
    (hf : ∀ d ∈ m.data, ¬ ReleaseMacro d) :
    ∃ v, Bumped x.value v ∧ bumpRelease W lines = setTag W (s% "release") v lines := by
  have hraw := rawRelease_named h hk hx
  rw [hb.tags t rest h] at hraw
  have hi : m.data.findIdx? definesRelease = none := by
    rw [List.findIdx?_eq_none_iff]
    intro d hd
    cases hc : definesRelease d with
    | false => rfl
    | true => exact absurd ((definesRelease_iff d).1 hc) (hf d hd)
  refine ⟨_, (C36_bump _ _).1 rfl, ?_⟩
  unfold bumpRelease
  rw [hraw]
  simp only [(C51_no_autorelease x.value).2 ⟨ns, hp, ha⟩, withMacros, hm, bumpMacros, hi, hb.macros m hm, hraw]

section
attribute [local instance] asciiUni

/-- C75 fails if a macro definition that defines the release is commented out: it is bumped, and the release stays. -/
theorem C75_bump_violation : bumpRelease sampleWorld [s% "%dnl %global baserelease 4", s% "Name: foo", s% "Release: 1"] =
    ([s% "%dnl %global baserelease 5", s% "Name: foo", s% "Release: 1"], .ok ()) := by decide +kernel

/-- C75 fails if a macro definition that defines the release is in a false branch: it is bumped, and the release stays. -/
theorem C75_bump_branch_violation : bumpRelease sampleWorld
    [s% "%if 0", s% "%global release 4", s% "%endif", s% "Name: foo", s% "Release: 1"] =
    ([s% "%if 0", s% "%global release 5", s% "%endif", s% "Name: foo", s% "Release: 1"], .ok ()) := by decide +kernel

/-- a spec file with tags that occur more than once -/
def releaseSpec : List Str :=
  [s% "%global a 1", s% "%global baserelease 7", s% "Name: foo", s% "%if 0", s% "Version: 1", s% "%else", s% "Version: 2",
    s% "%endif", s% "Release: 3%{?dist}", s% "", s% "%description", s% "Text"]

/-- the tags of `releaseSpec` -/
def releaseTags : Tags :=
  ⟨[⟨s% "Name", s% "foo", s% ": ", ⟨[], [s% "%global a 1", s% "%global baserelease 7"]⟩, true, [], []⟩,
    ⟨s% "Version", s% "1", s% ": ", ⟨[], [s% "%if 0"]⟩, false, [], []⟩,
    ⟨s% "Version", s% "2", s% ": ", ⟨[], [s% "%else"]⟩, true, [], []⟩,
    ⟨s% "Release", s% "3%{?dist}", s% ": ", ⟨[], [s% "%endif"]⟩, true, [], []⟩], [s% ""]⟩

/-- the sections of `releaseSpec` after the preamble -/
def releaseSections : Sections :=
  [⟨s% "description", ⟨[], s% "n:l:", []⟩, [], ['\n'], [s% "Text"]⟩]

theorem release_sections : Sections.parse (sampleWorld.oracle releaseSpec) releaseSpec =
    .ok (preambleOf (releaseSpec.take 10) :: releaseSections) := by decide +kernel

theorem release_parsed : Tags.parse sampleWorld.names (sampleWorld.oracle releaseSpec) (releaseSpec.take 10) =
    .ok releaseTags := by decide +kernel

theorem release_tags : FileTags sampleWorld releaseSpec releaseTags releaseSections :=
  ⟨_, release_sections, release_parsed⟩

/-- the macro definitions of `releaseSpec` -/
def releaseMacros : MacroDefinitions :=
  ⟨[⟨s% "a", s% "1", true, false, .dnl, [], [' '], [' '], [], [], true, []⟩,
    ⟨s% "baserelease", s% "7", true, false, .dnl, [], [' '], [' '], [], [], true, []⟩], releaseSpec.drop 2⟩

theorem release_macros : MacroDefinitions.parse (sampleWorld.oracle releaseSpec) true releaseSpec = .ok releaseMacros := by
  decide +kernel

theorem release_reads : ReadsBack sampleWorld releaseSpec where
  macros := by
    intro m h
    rw [release_macros] at h
    cases h
    decide +kernel
  sections := by
    intro ss h
    rw [release_sections] at h
    cases h
    decide +kernel
  tags := by
    rintro t rest ⟨data, h1, h2⟩
    rw [release_sections] at h1
    cases h1
    rw [release_parsed] at h2
    cases h2
    decide +kernel

theorem release_version : TagNamed (s% "version") releaseTags 2 := by
  refine ⟨_, rfl, by decide +kernel, .inl ⟨rfl, ?_⟩⟩
  intro j x hj hx hn
  match j, hx with
  | 0, hx => cases hx; exact absurd hn (by decide +kernel)
  | 1, hx => cases hx; decide
  | j + 2, _ => omega

theorem release_release : TagNamed (s% "release") releaseTags 3 := by
  refine ⟨_, rfl, by decide +kernel, .inl ⟨rfl, ?_⟩⟩
  intro j x hj hx hn
  match j, hx with
  | 0, hx => cases hx; exact absurd hn (by decide +kernel)
  | 1, hx => cases hx; exact absurd hn (by decide +kernel)
  | 2, hx => cases hx; exact absurd hn (by decide +kernel)
  | j + 3, _ => omega

/-- the version that counts is the valid one -/
example : (tagValue sampleWorld (s% "version") releaseSpec).2 = .ok (some (s% "2")) := by
  obtain ⟨x, a, b, hx, h, -⟩ := C74_tag release_tags release_version []
  cases hx
  exact congrArg Prod.snd h

example : (tagValue sampleWorld (s% "epoch") releaseSpec).2 = .ok none :=
  (C74_missing release_tags (by unfold NoTag; decide +kernel) []).1

/-- the hypotheses of `C75_release` -/
example : release sampleWorld releaseSpec = (releaseSpec, .ok (s% "3")) :=
  (C75_release release_tags release_reads release_release rfl).1 _ (s% "%{?dist}") none
    ⟨by decide +kernel, by simp, [], by decide +kernel, by decide +kernel⟩

theorem release_expression : ∃ ns, ValueParser.parse (s% "3%{?dist}") = .ok ns ∧
    ¬ ∃ n ∈ ns, Refers (s% "autorelease") n := (C51_no_autorelease _).1 (by decide +kernel)

/-- the hypotheses of `C75_bump_macro_partial` -/
example : ∃ body above below, Bumped (s% "7") body ∧
    bumpRelease sampleWorld releaseSpec = (above ++ [s% "%global baserelease " ++ body] ++ below, .ok ()) := by
  obtain ⟨ns, hp, ha⟩ := release_expression
  obtain ⟨body, above, below, h1, h2, h3⟩ := C75_bump_macro_partial release_tags release_reads release_release rfl hp ha release_macros
    (j := 1) rfl (.inr (by decide +kernel)) (by
      intro i y hi hy
      match i, hy with
      | 0, hy => cases hy; unfold ReleaseMacro; decide +kernel
      | i + 1, _ => omega)
  have hb := (C36_bump _ _).2 h1
  refine ⟨body, above, below, h1, ?_⟩
  rw [h3, ← hb]
  rfl

example : bumpRelease sampleWorld releaseSpec = (releaseSpec.set 1 (s% "%global baserelease 8"), .ok ()) := by decide +kernel

example : setVersionRelease sampleWorld (s% "4") (s% "1") releaseSpec =
    ((releaseSpec.set 6 (s% "Version: 4")).set 8 (s% "Release: 1%{?dist}"), .ok ()) := by decide +kernel

/-- without Release the version is set alone -/
example : setVersionRelease sampleWorld (s% "4") (s% "1") [s% "Name: foo", s% "Version: 3"] =
    ([s% "Name: foo", s% "Version: 4"], .error .attributeError) := by decide +kernel

/-- a world with the actual names of tags -/
def smallWorld : World := ⟨fun _ s => .ok s, fun _ => noExpansion, Constants.tagNames, anyName⟩

theorem small_two : PlainTag { (⟨s% "Epoch", s% "1", s% ": ", ⟨[⟨s% "why", s% "# "⟩], [[]]⟩, true, [], []⟩ : Tag) with
    value := s% "2" } where
  name := small_set.name
  sep := small_set.sep
  oneLine := by decide +kernel
  value := by decide +kernel
  start := by decide +kernel
  pfx := rfl
  sfx := small_set.sfx
  stop := by
    rw [Tags.not_endsInBlank (by decide +kernel)]
    decide +kernel
  lines := by
    intro x y h
    have h : s% "2" = x ++ '\n' :: y := h
    have : '\n' ∈ s% "2" := by rw [h]; simp
    exact absurd this (by decide +kernel)
  first := ⟨s% "Epoch: 2", [], by decide +kernel, by simp [InlineSpaces], by
    rw [Tags.not_endsInBlank (by decide +kernel)]
    decide +kernel, by constructor <;> decide +kernel⟩

/-- the preamble with the new value -/
def smallPreamble2 : List Str := [s% "Name: x ", s% "", s% "# why", s% "Epoch: 2"]

theorem small_clean2 : CleanTagLines smallPreamble2 where
  noNl := by decide +kernel
  singleSpaced := by
    intro l hl a b c h
    have hm : '%' ∈ l := by rw [h]; simp
    have : ∀ l ∈ smallPreamble2, '%' ∉ l := by decide +kernel
    exact absurd hm (this l hl)
  noStale := by
    intro pre b mid z post h hb ho
    rw [← Tags.open_iff] at ho
    have hlen : pre.length + mid.length ≤ 2 := by
      have := congrArg List.length h
      simp [smallPreamble2] at this
      omega
    have hb' : b :: mid = (smallPreamble2.drop pre.length).take (mid.length + 1) := by
      rw [h, List.drop_left, show b :: (mid ++ z :: post) = (b :: mid) ++ z :: post by simp,
        show mid.length + 1 = (b :: mid).length by simp, List.take_left]
    rw [hb'] at ho
    have hall : ∀ i ≤ 2, ∀ j ≤ 2, Tags.open_ (joinC '\n' ((smallPreamble2.drop i).take (j + 1))) = false := by
      decide +kernel
    rw [hall _ (by omega) _ (by omega)] at ho
    cases ho

/-- the hypotheses of `C74_set_get_partial` -/
example : tagValue smallWorld (s% "epoch") smallPreamble2 = (smallPreamble2, .ok (some (s% "2"))) := by
  have nh : ∀ l ∈ smallPreamble2, OneLine l ∧ ¬ HeaderLine l := by
    intro l hl
    have h1 : ∀ l ∈ smallPreamble2, '\n' ∉ l ∧ Sections.isHeader l = false := by decide +kernel
    have h2 : ∀ l ∈ smallPreamble2, ∀ c ∈ l, isLineBreak c = false := by decide +kernel
    refine ⟨h2 l hl, fun hh => ?_⟩
    rw [← Sections.isHeader_iff (h1 l hl).1, (h1 l hl).2] at hh
    cases hh
  have hs : Sections.parse (smallWorld.oracle smallPreamble) smallPreamble = .ok [preambleOf smallPreamble] := by
    decide +kernel
  refine C74_set_get_partial (W := smallWorld) (fun _ => Iff.rfl) (lines := smallPreamble) (t := smallTags) (rest := [])
    (k := 1) ⟨_, hs, small_parse⟩ rfl ?_ (s% "2") small_readable
    (.inl ⟨small_two, by rw [← Tags.open_iff]; decide +kernel⟩) (by decide +kernel) ?_ (by simp) ?_
  · intro j x hx
    match j, hx with
    | 0, hx => cases hx; decide +kernel
    | 1, hx => cases hx; decide +kernel
    | j + 2, hx => cases hx
  · intro t' ht
    rw [tagSet_iff.1 ht]
    have : Tags.raw (smallTags.setValueAt 1 (s% "2")) = smallPreamble2 := by decide +kernel
    rw [this]
    refine ⟨small_clean2, nh, ?_⟩
    have : ∃ r, Conditions.processConditions (smallWorld.oracle smallPreamble2)
        (MacroDefinitions.parseLines smallPreamble2).excluded smallPreamble2 = .ok r := ⟨_, rfl⟩
    obtain ⟨r, hr⟩ := this
    rw [hr]
    intro e he
    cases he
  · intro i l hl hh
    exact absurd hh (nh l (List.mem_of_getElem? hl)).2

end

/-! ### C76 -/

theorem padFor_new [Uni] (c : Changelog) : PadFor c (Changelog.newPadding c) := by
  refine ⟨(C20_padding c).1, fun h => ?_⟩
  obtain ⟨a, e, b, h1, h2, h3, h4⟩ := (C20_padding c).2 h
  refine ⟨a, e, b, h1, h2, fun x hx p hp => ?_, fun x hx p hp => ?_⟩
  · rw [← C61_padding.2 hp]; exact h3 x hx
  · rw [← C61_padding.2 hp]; exact h4 x hx

theorem stampFor_new [Uni] (env : Env) (given : Option Changelog.Timestamp) (c : Changelog) :
    StampFor env given c (c.newTimestamp given env.now env.today) := by
  obtain ⟨h1, h2, h3⟩ := C20_timestamp c env.now env.today
  refine ⟨fun g hg => by rw [hg]; exact h3 g, fun hg => ?_⟩
  rw [hg]
  exact ⟨h1, h2⟩

/-- the timestamps are dates -/
structure GoodTimes (env : Env) (given : Option Changelog.Timestamp) : Prop where
  now : GoodStamp env.now
  today : GoodStamp env.today
  given : ∀ g ∈ given, GoodStamp g

theorem newTimestamp_good [Uni] {env : Env} {given : Option Changelog.Timestamp} (h : GoodTimes env given) (c : Changelog) :
    GoodStamp (c.newTimestamp given env.now env.today) := by
  unfold Changelog.newTimestamp
  cases given with
  | some g => exact h.given g rfl
  | none =>
    dsimp only
    split
    · split
      · exact h.now
      · exact h.today
    · exact h.today

theorem authorOf_ok {env : Env} {a : Args} {x : Str} (h : authorOf env a = .ok x) :
    AuthorFor env.packager a.author a.email x := by
  unfold authorOf at h
  unfold AuthorFor
  cases ha : a.author with
  | none =>
    rw [ha] at h
    cases hp : env.packager with
    | error e => rw [hp] at h; cases h
    | ok p =>
      rw [hp] at h
      simp only at h
      by_cases hne : p.isEmpty = true
      · rw [if_pos hne] at h; cases h
      · rw [if_neg hne] at h
        cases h
        refine ⟨fun _ => ⟨rfl, ?_⟩, nofun⟩
        intro hx
        subst hx
        exact hne rfl
  | some y =>
    rw [ha] at h
    refine ⟨nofun, fun z hz => ?_⟩
    cases hz
    cases he : a.email with
    | none => rw [he] at h; cases h; exact ⟨fun _ => rfl, nofun⟩
    | some e =>
      rw [he] at h
      cases h
      exact ⟨nofun, fun e' he' => by cases he'; rfl⟩

theorem authorOf_error {env : Env} {a : Args} {e : Err} (h : authorOf env a = .error e) :
    a.author = none ∧ (env.packager = .error e ∨ e = .specfileException ∧ env.packager = .ok []) := by
  unfold authorOf at h
  cases ha : a.author with
  | none =>
    rw [ha] at h
    cases hp : env.packager with
    | error e' => rw [hp] at h; cases h; exact ⟨rfl, .inl rfl⟩
    | ok p =>
      rw [hp] at h
      simp only at h
      split at h
      · cases h
        rename_i he
        exact ⟨rfl, .inr ⟨rfl, by rw [List.isEmpty_iff.1 he]⟩⟩
      · cases h
  | some y =>
    rw [ha] at h
    cases he : a.email with
    | none => rw [he] at h; cases h
    | some e => rw [he] at h; cases h

theorem addTo_ok [Uni] {env : Env} {entry : List Str} {a a' : Args} {c c' : Changelog} (ht : GoodTimes env a.timestamp)
    (h : addTo env entry a c = (c', .ok a')) :
    EntryOnTop env entry a c (Changelog.raw c') a' ∧ GoodTimes env a'.timestamp := by
  unfold addTo at h
  cases he : env.expand (a.evr.getD defaultEvr) with
  | error e => rw [he] at h; cases h
  | ok evr =>
    rw [he] at h
    simp only at h
    cases hau : authorOf env a with
    | error e => rw [hau] at h; cases h
    | ok author =>
      rw [hau] at h
      simp only [Prod.mk.injEq, Except.ok.injEq] at h
      obtain ⟨rfl, rfl⟩ := h
      have hg := newTimestamp_good ht c
      obtain ⟨header, hh, hl⟩ := C20_add_lines c hg author entry evr
      refine ⟨⟨evr, author, _, _, header, he, authorOf_ok hau, stampFor_new env _ c, padFor_new c, hh, ?_, rfl⟩,
        ht.now, ht.today, ?_⟩
      · rw [hl]
        congr 1
        rw [show Changelog.raw c = c.predecessor ++ (c.data.reverse.map logLines).flatten from rfl, List.drop_left]
      · intro g hg'
        cases hg'
        exact hg

theorem addTo_error [Uni] {env : Env} {entry : List Str} {a : Args} {c c' : Changelog} {e : Err} {s : Section}
    (hf : FreeOfAutochangelog s.data) (h : addTo env entry a c = (c', .error e)) : c' = c ∧ CannotAdd env a s e := by
  unfold addTo at h
  cases he : env.expand (a.evr.getD defaultEvr) with
  | error e' =>
    rw [he] at h
    cases h
    exact ⟨rfl, .evr hf he⟩
  | ok evr =>
    rw [he] at h
    simp only at h
    cases hau : authorOf env a with
    | error e' =>
      rw [hau] at h
      cases h
      obtain ⟨h1, h2 | ⟨rfl, h2⟩⟩ := authorOf_error hau
      · exact ⟨rfl, .packager hf h1 h2⟩
      · exact ⟨rfl, .author hf h1 h2⟩
    | ok author => rw [hau] at h; cases h

theorem isChangelog_iff [Uni] (s : Section) : isChangelog s = true ↔ Sections.normalizedId s = s% "changelog" := by
  simp [isChangelog]

theorem addLoop_ok [Uni] {env : Env} {entry : List Str} (ss : Sections) : ∀ {a : Args} {ss' : Sections},
    GoodTimes env a.timestamp → addLoop env entry a ss = (ss', .ok ()) → ∃ a', EntryAdded env entry a ss a' ss' := by
  induction ss with
  | nil =>
    intro a ss' _ h
    unfold addLoop at h
    cases h
    exact ⟨a, .done a⟩
  | cons s ss ih =>
    intro a ss' ht h
    unfold addLoop at h
    by_cases hs : isChangelog s = true
    · rw [if_pos hs] at h
      rw [isChangelog_iff] at hs
      cases hc : Release.containsAutochangelog s.data with
      | error e => rw [hc] at h; cases h
      | ok b =>
        cases b with
        | true =>
          rw [hc] at h
          simp only [Prod.mk.injEq] at h
          obtain ⟨rfl, h⟩ := h
          obtain ⟨a', h'⟩ := ih ht (Prod.ext rfl h)
          exact ⟨a', .automatic hs ((C51_autochangelog _).1 hc) h'⟩
        | false =>
          rw [hc] at h
          have hf := (C51_no_autochangelog _).1 hc
          cases hr : addTo env entry a (Changelog.parse s.data) with
          | mk c r =>
            rw [hr] at h
            cases r with
            | error e => cases h
            | ok a' =>
              simp only [Prod.mk.injEq] at h
              obtain ⟨rfl, h⟩ := h
              obtain ⟨he, ht'⟩ := addTo_ok ht hr
              obtain ⟨a'', h'⟩ := ih ht' (Prod.ext rfl h)
              obtain ⟨hg, hl⟩ := (C06_meaning s.data _).1 rfl
              exact ⟨a'', .added hs hf hg hl he h'⟩
    · rw [if_neg hs] at h
      rw [isChangelog_iff] at hs
      simp only [Prod.mk.injEq] at h
      obtain ⟨rfl, h⟩ := h
      obtain ⟨a', h'⟩ := ih ht (Prod.ext rfl h)
      exact ⟨a', .other hs h'⟩

theorem addLoop_error [Uni] {env : Env} {entry : List Str} (ss : Sections) : ∀ {a : Args} {ss' : Sections} {e : Err},
    GoodTimes env a.timestamp → addLoop env entry a ss = (ss', .error e) → ∃ pre s post pre' a', ss = pre ++ s :: post ∧
      EntryAdded env entry a pre a' pre' ∧ Sections.normalizedId s = s% "changelog" ∧ CannotAdd env a' s e ∧
      ss' = pre' ++ s :: post := by
  induction ss with
  | nil =>
    intro a ss' e _ h
    unfold addLoop at h
    cases h
  | cons s ss ih =>
    intro a ss' e ht h
    unfold addLoop at h
    by_cases hs : isChangelog s = true
    · rw [if_pos hs] at h
      rw [isChangelog_iff] at hs
      cases hc : Release.containsAutochangelog s.data with
      | error e' =>
        rw [hc] at h
        cases h
        obtain ⟨rfl, u, l, v, h1, h2, h3⟩ := (C51_autochangelog_error _ _).1 hc
        exact ⟨[], s, ss, [], a, rfl, .done a, hs, .text h1 h2 h3, rfl⟩
      | ok b =>
        cases b with
        | true =>
          rw [hc] at h
          simp only [Prod.mk.injEq] at h
          obtain ⟨rfl, h⟩ := h
          obtain ⟨pre, s', post, pre', a', rfl, h1, h2, h3, h4⟩ := ih ht (Prod.ext rfl h)
          exact ⟨s :: pre, s', post, s :: pre', a', rfl, .automatic hs ((C51_autochangelog _).1 hc) h1, h2, h3, congrArg (List.cons _) h4⟩
        | false =>
          rw [hc] at h
          have hf := (C51_no_autochangelog _).1 hc
          cases hr : addTo env entry a (Changelog.parse s.data) with
          | mk c r =>
            rw [hr] at h
            cases r with
            | error e' =>
              cases h
              obtain ⟨rfl, hx⟩ := addTo_error hf hr
              refine ⟨[], s, ss, [], a, rfl, .done a, hs, hx, ?_⟩
              rw [C06_changelog_noop]
              rfl
            | ok a' =>
              simp only [Prod.mk.injEq] at h
              obtain ⟨rfl, h⟩ := h
              obtain ⟨he, ht'⟩ := addTo_ok ht hr
              obtain ⟨pre, s', post, pre', a'', rfl, h1, h2, h3, h4⟩ := ih ht' (Prod.ext rfl h)
              obtain ⟨hg, hl⟩ := (C06_meaning s.data _).1 rfl
              exact ⟨s :: pre, s', post, _ :: pre', a'', rfl, .added hs hf hg hl he h1, h2, h3, congrArg (List.cons _) h4⟩
    · rw [if_neg hs] at h
      rw [isChangelog_iff] at hs
      simp only [Prod.mk.injEq] at h
      obtain ⟨rfl, h⟩ := h
      obtain ⟨pre, s', post, pre', a', rfl, h1, h2, h3, h4⟩ := ih ht (Prod.ext rfl h)
      exact ⟨s :: pre, s', post, s :: pre', a', rfl, .other hs h1, h2, h3, congrArg (List.cons _) h4⟩

/-- C76: an entry is added on top of every changelog that does not use `%autochangelog`, and nothing else changes. -/
theorem C76_add [Uni] {W : World} {env : List Str → Env} {entry : List Str} {a : Args} {lines : List Str} {ss : Sections}
    (hp : Sections.parse (W.oracle lines) lines = .ok ss) (ht : GoodTimes (env lines) a.timestamp)
    (h : (addChangelogEntry W env entry a lines).2 = .ok ()) :
    ∃ ss' a', EntryAdded (env lines) entry a ss a' ss' ∧ (addChangelogEntry W env entry a lines).1 = Sections.raw ss' := by
  unfold addChangelogEntry withSections at h ⊢
  rw [hp] at h ⊢
  obtain ⟨a', h'⟩ := addLoop_ok ss ht (Prod.ext rfl h)
  exact ⟨_, a', h', rfl⟩

/-- C76: if an entry cannot be added to a changelog, the exception is raised, the changelogs before it have the entry and
the other sections are unchanged. -/
theorem C76_add_fails [Uni] {W : World} {env : List Str → Env} {entry : List Str} {a : Args} {lines : List Str} {ss : Sections}
    (hp : Sections.parse (W.oracle lines) lines = .ok ss) (ht : GoodTimes (env lines) a.timestamp) {e : Err}
    (h : (addChangelogEntry W env entry a lines).2 = .error e) :
    ∃ pre s post pre' a', ss = pre ++ s :: post ∧ EntryAdded (env lines) entry a pre a' pre' ∧
      Sections.normalizedId s = s% "changelog" ∧ CannotAdd (env lines) a' s e ∧
      (addChangelogEntry W env entry a lines).1 = Sections.raw (pre' ++ s :: post) := by
  unfold addChangelogEntry withSections at h ⊢
  rw [hp] at h ⊢
  obtain ⟨pre, s, post, pre', a', h1, h2, h3, h4, h5⟩ := addLoop_error ss ht (Prod.ext rfl h)
  exact ⟨pre, s, post, pre', a', h1, h2, h3, h4, congrArg Sections.raw h5⟩

/-- C76: sections that are not changelogs are untouched. -/
theorem _root_.Specfile.Spec.EntryAdded.unchanged [Uni] {env : Env} {entry : List Str} {a a' : Args} {ss ss' : List Section}
    (h : EntryAdded env entry a ss a' ss') (hn : ∀ s ∈ ss, Sections.normalizedId s ≠ s% "changelog") : ss' = ss ∧ a' = a := by
  induction h with
  | done => exact ⟨rfl, rfl⟩
  | other hs h ih =>
    obtain ⟨rfl, rfl⟩ := ih (fun s hs => hn s (by simp [hs]))
    exact ⟨rfl, rfl⟩
  | automatic hs _ _ _ => exact absurd hs (hn _ (by simp))
  | added hs _ _ _ _ _ _ => exact absurd hs (hn _ (by simp))

/-- C76: without a changelog nothing happens, whatever the arguments are. -/
theorem C76_no_changelog [Uni] {W : World} {env : List Str → Env} {entry : List Str} {a : Args} {lines : List Str}
    {ss : Sections} (hp : Sections.parse (W.oracle lines) lines = .ok ss)
    (hn : ∀ s ∈ ss, Sections.normalizedId s ≠ s% "changelog") :
    addChangelogEntry W env entry a lines = (Sections.raw ss, .ok ()) := by
  have : ∀ ss : Sections, (∀ s ∈ ss, Sections.normalizedId s ≠ s% "changelog") →
      addLoop (env lines) entry a ss = (ss, .ok ()) := by
    intro ss
    induction ss with
    | nil => intro _; rfl
    | cons s ss ih =>
      intro hn
      have hs : isChangelog s ≠ true := fun h => hn s (by simp) ((isChangelog_iff s).1 h)
      unfold addLoop
      rw [if_neg hs, ih (fun x hx => hn x (by simp [hx]))]
  unfold addChangelogEntry withSections
  rw [hp]
  simp only [this ss hn]

/-- C76 (full claim: the entry has the author, e-mail, timestamp and EVR that are given, in every changelog): what is added to
the only changelog. Missing: with several changelogs the claim is false (`C76_email_violation`); what happens then is
`C76_add`. -/
theorem C76_single_partial [Uni] {W : World} {env : List Str → Env} {entry : List Str} {a : Args} {lines : List Str}
    {pre post : Sections} {s : Section} (hp : Sections.parse (W.oracle lines) lines = .ok (pre ++ s :: post))
    (ht : GoodTimes (env lines) a.timestamp) (h : (addChangelogEntry W env entry a lines).2 = .ok ())
    (h1 : ∀ x ∈ pre, Sections.normalizedId x ≠ s% "changelog") (h2 : ∀ x ∈ post, Sections.normalizedId x ≠ s% "changelog")
    (hs : Sections.normalizedId s = s% "changelog") (hf : FreeOfAutochangelog s.data) :
    ∃ c data a', GoodChangelog c ∧ changelogLines c = s.data ∧ EntryOnTop (env lines) entry a c data a' ∧
      (addChangelogEntry W env entry a lines).1 = Sections.raw (pre ++ { s with data := data } :: post) := by
  obtain ⟨ss', a', he, hl⟩ := C76_add hp ht h
  have : ∀ (pre : Sections) ss', (∀ x ∈ pre, Sections.normalizedId x ≠ s% "changelog") →
      EntryAdded (env lines) entry a (pre ++ s :: post) a' ss' → ∃ c data a', GoodChangelog c ∧ changelogLines c = s.data ∧
        EntryOnTop (env lines) entry a c data a' ∧ ss' = pre ++ { s with data := data } :: post := by
    intro pre
    induction pre with
    | nil =>
      intro ss' _ he
      cases he with
      | other hn _ => exact absurd hs hn
      | automatic _ hu _ =>
        obtain ⟨u, l, v, hd, hl, -⟩ := hu
        exact absurd hl (hf l (by rw [hd]; simp)).1
      | added _ _ hc hl ht h =>
        obtain ⟨rfl, -⟩ := h.unchanged h2
        exact ⟨_, _, _, hc, hl, ht, rfl⟩
    | cons x pre ih =>
      intro ss' hn he
      cases he with
      | other _ h =>
        obtain ⟨c, data, a'', q1, q2, q3, rfl⟩ := ih _ (fun y hy => hn y (by simp [hy])) h
        exact ⟨c, data, a'', q1, q2, q3, rfl⟩
      | automatic hx _ _ => exact absurd hx (hn x (by simp))
      | added hx _ _ _ _ _ => exact absurd hx (hn x (by simp))
  obtain ⟨c, data, a'', q1, q2, q3, rfl⟩ := this pre ss' h1 he
  exact ⟨c, data, a'', q1, q2, q3, hl⟩

theorem anyAutochangelog_true [Uni] (ss : Sections) : anyAutochangelog ss = .ok true ↔ ∃ pre s post, ss = pre ++ s :: post ∧
    Sections.normalizedId s = s% "changelog" ∧ UsesAutochangelog s.data ∧
    ∀ x ∈ pre, Sections.normalizedId x = s% "changelog" → FreeOfAutochangelog x.data := by
  induction ss with
  | nil => simp [anyAutochangelog]
  | cons s ss ih =>
    unfold anyAutochangelog
    by_cases hs : isChangelog s = true
    · rw [if_pos hs]
      rw [isChangelog_iff] at hs
      cases hc : Release.containsAutochangelog s.data with
      | error e =>
        simp only [reduceCtorEq, false_iff]
        rintro ⟨pre, x, post, h1, h2, h3, h4⟩
        cases pre with
        | nil =>
          cases h1
          rw [UsesAutochangelog, ← C51_autochangelog, hc] at h3
          cases h3
        | cons y pre =>
          cases h1
          have := (C51_no_autochangelog _).2 (h4 s (by simp) hs)
          rw [hc] at this
          cases this
      | ok b =>
        cases b with
        | true =>
          simp only [true_iff]
          exact ⟨[], s, ss, rfl, hs, (C51_autochangelog _).1 hc, by simp⟩
        | false =>
          have hf := (C51_no_autochangelog _).1 hc
          simp only
          rw [ih]
          constructor
          · rintro ⟨pre, x, post, rfl, h2, h3, h4⟩
            refine ⟨s :: pre, x, post, rfl, h2, h3, ?_⟩
            intro y hy
            rcases List.mem_cons.1 hy with rfl | hy
            · exact fun _ => hf
            · exact h4 y hy
          · rintro ⟨pre, x, post, h1, h2, h3, h4⟩
            cases pre with
            | nil =>
              cases h1
              rw [UsesAutochangelog, ← C51_autochangelog, hc] at h3
              cases h3
            | cons y pre =>
              cases h1
              exact ⟨pre, x, post, rfl, h2, h3, fun y hy => h4 y (by simp [hy])⟩
    · rw [if_neg hs, ih]
      rw [isChangelog_iff] at hs
      constructor
      · rintro ⟨pre, x, post, rfl, h2, h3, h4⟩
        refine ⟨s :: pre, x, post, rfl, h2, h3, ?_⟩
        intro y hy
        rcases List.mem_cons.1 hy with rfl | hy
        · exact fun h => absurd h hs
        · exact h4 y hy
      · rintro ⟨pre, x, post, h1, h2, h3, h4⟩
        cases pre with
        | nil => cases h1; exact absurd h2 hs
        | cons y pre =>
          cases h1
          exact ⟨pre, x, post, rfl, h2, h3, fun y hy => h4 y (by simp [hy])⟩

theorem anyAutochangelog_false [Uni] (ss : Sections) : anyAutochangelog ss = .ok false ↔
    ∀ x ∈ ss, Sections.normalizedId x = s% "changelog" → FreeOfAutochangelog x.data := by
  induction ss with
  | nil => simp [anyAutochangelog]
  | cons s ss ih =>
    unfold anyAutochangelog
    by_cases hs : isChangelog s = true
    · rw [if_pos hs]
      rw [isChangelog_iff] at hs
      have hfree := C51_no_autochangelog s.data
      cases hc : Release.containsAutochangelog s.data with
      | error e =>
        rw [hc] at hfree
        simp only [reduceCtorEq, false_iff] at hfree ⊢
        exact fun h => hfree (h s (by simp) hs)
      | ok b =>
        rw [hc] at hfree
        cases b with
        | true =>
          simp only [Except.ok.injEq, Bool.true_eq_false, false_iff] at hfree ⊢
          exact fun h => hfree (h s (by simp) hs)
        | false =>
          have hf : FreeOfAutochangelog s.data := hfree.1 rfl
          simp only [List.mem_cons, forall_eq_or_imp]
          rw [ih]
          exact ⟨fun h => ⟨fun _ => hf, h⟩, fun h => h.2⟩
    · rw [if_neg hs, ih]
      rw [isChangelog_iff] at hs
      simp only [List.mem_cons, forall_eq_or_imp]
      exact ⟨fun h => ⟨fun h => absurd h hs, h⟩, fun h => h.2⟩

/-- C76: the spec file has an automatic changelog if one of its changelogs uses `%autochangelog`; changelogs before it that
cannot be parsed raise an exception. The sections stay as they are. -/
theorem C76_has_autochangelog [Uni] {W : World} {lines : List Str} {ss : Sections}
    (hp : Sections.parse (W.oracle lines) lines = .ok ss) :
    (hasAutochangelog W lines).1 = Sections.raw ss ∧
    ((hasAutochangelog W lines).2 = .ok true ↔ ∃ pre s post, ss = pre ++ s :: post ∧
      Sections.normalizedId s = s% "changelog" ∧ UsesAutochangelog s.data ∧
      ∀ x ∈ pre, Sections.normalizedId x = s% "changelog" → FreeOfAutochangelog x.data) ∧
    ((hasAutochangelog W lines).2 = .ok false ↔
      ∀ x ∈ ss, Sections.normalizedId x = s% "changelog" → FreeOfAutochangelog x.data) := by
  unfold hasAutochangelog withSections
  rw [hp]
  exact ⟨rfl, anyAutochangelog_true ss, anyAutochangelog_false ss⟩

section
attribute [local instance] asciiUni

/-- expansions are not needed; the packager is known -/
def sampleEnv : List Str → Env := fun _ => ⟨fun s => .ok s, (.ok (s% "P")), sampleStamp, sampleStamp⟩

/-- a spec file with two changelogs -/
def twoChangelogs : List Str :=
  [s% "Name: a", s% "%changelog", s% "* Mon Jan 01 2024 B", s% "- old", s% "%Changelog", s% "%prep"]

/-- C76: entries of both changelogs -/
example : addChangelogEntry sampleWorld sampleEnv [s% "- new"] ⟨some (s% "A"), none, none, some (s% "1-1")⟩ twoChangelogs =
    ([s% "Name: a", s% "%changelog", s% "* Tue Feb 06 2024 A - 1-1", s% "- new", s% "", s% "* Mon Jan 01 2024 B", s% "- old",
      s% "%Changelog", s% "* Tue Feb 06 2024 A - 1-1", s% "- new", s% "%prep"], .ok ()) := by decide +kernel

/-- C76 fails with several changelogs and an e-mail: the address is appended again for every changelog. -/
theorem C76_email_violation :
    (addChangelogEntry sampleWorld sampleEnv [s% "- new"] ⟨some (s% "A"), some (s% "a@b"), none, some (s% "1-1")⟩
      twoChangelogs).1 =
    [s% "Name: a", s% "%changelog", s% "* Tue Feb 06 2024 A <a@b> - 1-1", s% "- new", s% "", s% "* Mon Jan 01 2024 B",
      s% "- old", s% "%Changelog", s% "* Tue Feb 06 2024 A <a@b> <a@b> - 1-1", s% "- new", s% "%prep"] := by decide +kernel

/-- C76 fails with an e-mail and no author: the first changelog has the packager, the second one has the packager with
this e-mail. -/
theorem C76_packager_violation :
    (addChangelogEntry sampleWorld sampleEnv [s% "- new"] ⟨none, some (s% "a@b"), none, some (s% "1-1")⟩
      twoChangelogs).1 =
    [s% "Name: a", s% "%changelog", s% "* Tue Feb 06 2024 P - 1-1", s% "- new", s% "", s% "* Mon Jan 01 2024 B",
      s% "- old", s% "%Changelog", s% "* Tue Feb 06 2024 P <a@b> - 1-1", s% "- new", s% "%prep"] := by decide +kernel

/-- C76 fails if the EVR contains an escaped macro: it is expanded once for every changelog. -/
theorem C76_evr_violation :
    (addChangelogEntry sampleWorld
      (fun _ => ⟨fun s => .ok (if s = s% "%%a" then s% "%a" else if s = s% "%a" then s% "1" else s), .error .keyError,
        sampleStamp, sampleStamp⟩)
      [s% "- new"] ⟨some (s% "A"), none, none, some (s% "%%a")⟩ twoChangelogs).1 =
    [s% "Name: a", s% "%changelog", s% "* Tue Feb 06 2024 A - %a", s% "- new", s% "", s% "* Mon Jan 01 2024 B",
      s% "- old", s% "%Changelog", s% "* Tue Feb 06 2024 A - 1", s% "- new", s% "%prep"] := by decide +kernel

theorem sample_good : GoodStamp sampleStamp := by
  constructor <;> simp [sampleStamp]

/-- the hypotheses of `C76_add` -/
example : ∃ ss ss' a', Sections.parse (sampleWorld.oracle twoChangelogs) twoChangelogs = .ok ss ∧
    EntryAdded (sampleEnv twoChangelogs) [s% "- new"] ⟨none, none, none, none⟩ ss a' ss' := by
  have hp : ∃ ss, Sections.parse (sampleWorld.oracle twoChangelogs) twoChangelogs = .ok ss := by
    cases h : Sections.parse (sampleWorld.oracle twoChangelogs) twoChangelogs with
    | ok ss => exact ⟨ss, rfl⟩
    | error e =>
      have : (Sections.parse (sampleWorld.oracle twoChangelogs) twoChangelogs).toOption.isSome = true := by decide +kernel
      rw [h] at this
      cases this
  obtain ⟨ss, hp⟩ := hp
  obtain ⟨ss', a', h, -⟩ := C76_add (W := sampleWorld) (env := sampleEnv) (entry := [s% "- new"])
    (a := ⟨none, none, none, none⟩) hp ⟨sample_good, sample_good, by simp⟩ (by decide +kernel)
  exact ⟨ss, ss', a', hp, h⟩

/-- C74 fails for values with whitespace at their ends, and for values that are empty: the former are read without it, after
the latter the tag is gone. -/
theorem C74_violation :
    setTag sampleWorld (s% "version") (s% "2 ") [s% "Name: a", s% "Version: 1"] = ([s% "Name: a", s% "Version: 2 "], .ok ()) ∧
    (tagValue sampleWorld (s% "version") [s% "Name: a", s% "Version: 2 "]).2 = .ok (some (s% "2")) ∧
    setTag sampleWorld (s% "version") [] [s% "Name: a", s% "Version: 1"] = ([s% "Name: a", s% "Version: "], .ok ()) ∧
    (tagValue sampleWorld (s% "version") [s% "Name: a", s% "Version: "]).2 = .ok none := by decide +kernel

end

end Specfile.Props
