import Verif.Proof.Blocks
import Verif.Props.Operations
/-
C99: blocks that access different parts of a spec file can be run in any order.
-/
namespace Specfile.Props
open Py Spec Update Ops
open Specfile.Blocks Proof.Blocks

section
variable [Uni] {α : Type} {W : World}

/-- C99 (full claim: edits of different parts of a spec file do not influence each other). Blocks of different sections: after
all of them, each section has the lines its block made of the original lines, all other sections are as they were, and each
block ended the way it would have ended alone. Missing: blocks that put headers into sections, or change what conditions in
other sections mean (`C99_violation_headers`, `C99_violation_conditions`); macro definitions, which can be anywhere. -/
theorem C99_blocks_partial {lines : List Str} {ss : Sections} {bs : List (Block α)} (hne : bs ≠ [])
    (hp : Sections.parse (W.oracle lines) lines = .ok ss) (hg : GoodSections ss) (sep : Separate W lines ss bs) :
    ∃ ss', Merged W lines bs ss ss' ∧ (runAll W bs lines).1 = Sections.raw ss' ∧ (runAll W bs lines).2.length = bs.length ∧
      ∀ (k : Nat) (b : Block α) r, bs[k]? = some b → (runAll W bs lines).2[k]? = some r → BlockEnds W lines ss b r := by
  obtain ⟨ss', h1, h2, h3, h4⟩ := runAll_from sep bs [] lines ss (fun _ h => h) (by simp) sep.different (by simp) hp
    (merged_nil ss) hg (fun _ _ _ _ _ _ => rfl) (.inr rfl)
  simp only [List.append_nil] at h1 h2
  exact ⟨ss', h1, h2.resolve_right hne, h3, h4⟩

/-- C99: the order of such blocks does not matter. -/
theorem C99_order_partial {lines : List Str} {ss : Sections} {bs bs' : List (Block α)} (hperm : bs.Perm bs')
    (hp : Sections.parse (W.oracle lines) lines = .ok ss) (hg : GoodSections ss) (sep : Separate W lines ss bs) :
    (runAll W bs lines).1 = (runAll W bs' lines).1 := by
  cases bs with
  | nil => rw [List.nil_perm.1 hperm]
  | cons b bs =>
    have hmem : ∀ c, c ∈ b :: bs ↔ c ∈ bs' := fun c => hperm.mem_iff
    have hne' : bs' ≠ [] := by
      rintro rfl
      simpa using (hmem b).1 (by simp)
    have congr : ∀ {part : List (Block α)}, part ⊆ bs' → part ⊆ b :: bs := fun h c hc => (hmem c).2 (h hc)
    have sep' : Separate W lines ss bs' := by
      refine ⟨?_, fun c hc => sep.text c ((hmem c).2 hc), fun part t h => sep.outside part t (congr h),
        fun part t h hm name body hb => sep.alike part t (congr h) hm name body ((hmem _).2 hb)⟩
      exact hperm.pairwise sep.different (fun h e => h e.symm)
    obtain ⟨s1, h1, h2, -⟩ := C99_blocks_partial (by simp) hp hg sep
    obtain ⟨s2, k1, k2, -⟩ := C99_blocks_partial hne' hp hg sep'
    rw [h2, k2, merged_unique hmem h1 k1]

theorem merged_mem {lines : List Str} {bs : List (Block α)} {ss ss' : Sections} (h : Merged W lines bs ss ss') {s' : Section}
    (hs : s' ∈ ss') : s' ∈ ss ∨ ∃ b ∈ bs, ∃ s ∈ ss, Sections.normalizedId s = Uni.lower (sectionOf b) ∧
      ∃ d r, BlockMakes W lines b s.data d r ∧ s' = { s with data := d } := by
  obtain ⟨i, hi⟩ := List.getElem?_of_mem hs
  by_cases hb : ∃ b ∈ bs, FirstNamed ss (sectionOf b) i
  · obtain ⟨b, hb, hf⟩ := hb
    obtain ⟨s, hx, he⟩ := hf.1
    obtain ⟨d, r, h1, h2⟩ := h.edited b hb i s hf hx
    rw [h2] at hi
    cases hi
    exact .inr ⟨b, hb, s, List.mem_of_getElem? hx, he, d, r, h1, rfl⟩
  · rw [h.kept i fun b hm hf => hb ⟨b, hm, hf⟩] at hi
    exact .inl (List.mem_of_getElem? hi)

theorem merged_good {lines : List Str} {bs : List (Block α)} {ss ss' : Sections} (h : Merged W lines bs ss ss')
    (hg : GoodSections ss)
    (ht : ∀ b ∈ bs, ∀ s ∈ ss, Sections.normalizedId s = Uni.lower (sectionOf b) → ∀ d r, BlockMakes W lines b s.data d r →
      ∀ l ∈ d, OneLine l ∧ ¬ HeaderLine l) : ∀ s ∈ ss', (∃ data, s = preambleOf data) ∨ GoodSection s := by
  obtain ⟨data, rest, rfl, h1, h2⟩ := hg
  intro s hs
  rcases merged_mem h hs with hs | ⟨b, hb, x, hx, he, d, r, hm, rfl⟩
  · rcases List.mem_cons.1 hs with rfl | hs
    · exact .inl ⟨_, rfl⟩
    · exact .inr (h2 s hs)
  · have hd := ht b hb x hx he d r hm
    rcases List.mem_cons.1 hx with rfl | hx
    · exact .inl ⟨d, rfl⟩
    · have g := h2 x hx
      exact .inr ⟨g.name, g.known, g.optstring, g.defaults, g.options, g.separator, g.oneLine, g.notPackage, hd⟩

/-- C99: blocks of different sections that put no headers into them are separate if macros mean the same whatever the blocks
do, and neither the sections nor the new lines define macros. -/
theorem C99_separate {lines : List Str} {ss : Sections} {bs : List (Block α)} (hg : GoodSections ss)
    (hd : bs.Pairwise (fun a b => Uni.lower (sectionOf a) ≠ Uni.lower (sectionOf b)))
    (ht : ∀ b ∈ bs, ∀ s ∈ ss, Sections.normalizedId s = Uni.lower (sectionOf b) → ∀ d r, BlockMakes W lines b s.data d r →
      ∀ l ∈ d, (OneLine l ∧ ¬ HeaderLine l) ∧ ¬ (s% "global" <:+: l ∨ s% "define" <:+: l))
    (hn : ∀ s ∈ ss, ∀ l ∈ sectionLines s, ¬ (s% "global" <:+: l ∨ s% "define" <:+: l))
    (ho : ∀ l, W.oracle l = W.oracle lines) : Separate W lines ss bs where
  different := hd
  text b hb s hs he d r hm l hl := (ht b hb s hs he d r hm l hl).1
  alike part ss' _ _ name body _ s _ _ := by rw [ho]
  outside part ss' hsub hm := by
    refine C19_headers_outside _ fun l hl => ?_
    simp only [Sections.raw, List.mem_flatten, List.mem_map] at hl
    obtain ⟨_, ⟨s, hs, rfl⟩, hl⟩ := hl
    have hl' : l ∈ sectionLines s := by
      rcases merged_good hm hg (fun b hb s hs he d r hm l hl => (ht b (hsub hb) s hs he d r hm l hl).1) s hs with ⟨data, rfl⟩ | g
      · rw [Sections.raw_preamble] at hl
        exact List.mem_cons_of_mem _ hl
      · rw [Sections.good_raw g] at hl
        exact hl
    rcases merged_mem hm hs with hs | ⟨b, hb, x, hx, he, d, r, hm, rfl⟩
    · exact hn s hs l hl'
    · rcases List.mem_cons.1 hl' with rfl | hl'
      · exact hn x hx (headerOf x) (by simp [sectionLines])
      · exact (ht b (hsub hb) x hx he d r hm l hl').2

/-- setting a property is a block of the preamble -/
theorem setTag_block (name v : Str) (lines : List Str) :
    setTag W name v lines = run W (.tags (s% "package") (assignTag name v)) lines := rfl

/-! ### two tags of the preamble -/

/-- the tags can be read after the tag with index `k` was given the value `v` -/
def ReadAfter (W : World) (lines : List Str) (t : Tags) (k : Nat) (x : Tag) (v : Str) : Prop :=
  (PlainTag { x with value := v } ∧ ¬ OpenBracket v ∨ WrappedTag { x with value := v }) ∧ HeadersOutside lines ∧
    ∀ t', TagSet t k v t' → CleanTagLines (Tags.raw t') ∧ (∀ l ∈ Tags.raw t', OneLine l ∧ ¬ HeaderLine l) ∧
      ∀ e, Conditions.processConditions (W.oracle lines) (MacroDefinitions.parseLines (Tags.raw t')).excluded (Tags.raw t')
        ≠ .error e

theorem set_set {hN : Tags.IsTagNames W.names} {lines : List Str} {t : Tags} {rest : Sections} (h : FileTags W lines t rest)
    {name name' : Str} {k j : Nat} {x y : Tag} (hx : t.data[k]? = some x) (hk : OnlyTag name t k) (hy : t.data[j]? = some y)
    (hj : OnlyTag name' t j) (v w : Str) (hm : ReadableTags t) (hr : ReadAfter W (setTag W name v lines).1 t k x v)
    (hg : ∀ s ∈ rest, GoodSection s) :
    setTag W name' w (setTag W name v lines).1 =
      (Tags.raw ((t.setValueAt k v).setValueAt j w) ++ Sections.raw rest, .ok ()) := by
  obtain ⟨hv, ho, hc⟩ := hr
  obtain ⟨hc1, hc2, hc3⟩ := hc _ (tagSet_iff.2 rfl)
  generalize hl : (setTag W name v lines).1 = lines' at *
  rw [setTag, withTags_ok h, assignTag_named v (hk.named hx)] at hl
  simp only at hl
  have hraw := raw_cons (Tags.raw (t.setValueAt k v)) rest
  have hp : Sections.parse (W.oracle lines') lines' = .ok (preambleOf (Tags.raw (t.setValueAt k v)) :: rest) := by
    rw [← hl, ← hraw]
    refine C19_read_back _ _ ⟨_, _, rfl, hc2, hg⟩ ?_
    rw [hraw, hl]
    exact ho
  cases ht : Tags.parse W.names (W.oracle lines') (Tags.raw (t.setValueAt k v)) with
  | error e =>
    exact absurd ((C52_read_back_succeeds _ hN _ _ (C52_set_readable t hm k x v hx hv) hc1 e).1 ht) (hc3 e)
  | ok t' =>
    obtain ⟨⟨s1, s2⟩, -⟩ := C52_set_and_read_back _ hN _ t t' hm k x v hx hv hc1 ht
    have hft : FileTags W lines' t' rest := ⟨_, hp, ht⟩
    have hname : ∀ (i : Nat), (t'.data[i]?).map (·.name) = (t.data[i]?).map (·.name) := by
      intro i
      have e := congrArg (fun l => (l[i]?).map (·.name)) s1
      simp only [List.getElem?_map, Option.map_map, Tags.setValueAt, List.getElem?_modify] at e
      have e2 : (t'.data[i]?).map (·.name) = _ := e
      rw [e2]
      cases t.data[i]? with
      | none => rfl
      | some z =>
        simp only [Option.map_some]
        split <;> rfl
    have hon : OnlyTag name' t' j := by
      intro i z hz
      have e := hname i
      rw [hz] at e
      cases hq : t.data[i]? with
      | none => rw [hq] at e; cases e
      | some q =>
        rw [hq] at e
        simp only [Option.map_some, Option.some.injEq] at e
        rw [e]
        exact hj i q hq
    obtain ⟨z, hz⟩ : ∃ z, t'.data[j]? = some z := by
      have e := hname j
      rw [hy] at e
      cases hq : t'.data[j]? with
      | none => rw [hq] at e; cases e
      | some q => exact ⟨q, rfl⟩
    rw [setTag, withTags_ok hft, assignTag_named w (hon.named hz)]
    congr 2
    have comm : ∀ l : List Tag, (l.modify j (fun x => { x with value := w })).map (fun t => { t with valid := true }) =
        (l.map (fun t => { t with valid := true })).modify j (fun x => { x with value := w }) := by
      intro l
      apply List.ext_getElem?
      intro i
      simp only [List.getElem?_map, List.getElem?_modify]
      cases l[i]? with
      | none => rfl
      | some q =>
        simp only [Option.map_some]
        split <;> rfl
    have same : ((t'.setValueAt j w).data).map (fun t => { t with valid := true }) =
        (((t.setValueAt k v).setValueAt j w).data).map (fun t => { t with valid := true }) := by
      show (t'.data.modify j _).map _ = ((t.setValueAt k v).data.modify j _).map _
      rw [comm, comm, s1]
    have := congrArg (List.map Tags.tagRaw) same
    rw [List.map_map, List.map_map] at this
    unfold Tags.raw
    have hr2 : (t'.setValueAt j w).remainder = ((t.setValueAt k v).setValueAt j w).remainder := s2
    rw [hr2]
    congr 2

/-- C99: two different tags of the preamble can be set in any order. The text is that of both values. -/
theorem C99_tags_partial (hN : Tags.IsTagNames W.names) {lines : List Str} {t : Tags} {rest : Sections}
    (h : FileTags W lines t rest) {name name' : Str} {k j : Nat} {x y : Tag} (hkj : k ≠ j) (hx : t.data[k]? = some x)
    (hk : OnlyTag name t k) (hy : t.data[j]? = some y) (hj : OnlyTag name' t j) (v w : Str) (hm : ReadableTags t)
    (hr : ReadAfter W (setTag W name v lines).1 t k x v) (hr' : ReadAfter W (setTag W name' w lines).1 t j y w)
    (hg : ∀ s ∈ rest, GoodSection s) :
    ∃ t', t'.remainder = t.remainder ∧ t'.data = (t.data.set k { x with value := v }).set j { y with value := w } ∧
      setTag W name' w (setTag W name v lines).1 = (Tags.raw t' ++ Sections.raw rest, .ok ()) ∧
      setTag W name v (setTag W name' w lines).1 = (Tags.raw t' ++ Sections.raw rest, .ok ()) := by
  have e : (t.setValueAt j w).setValueAt k v = (t.setValueAt k v).setValueAt j w := by
    unfold Tags.setValueAt
    congr 1
    apply List.ext_getElem?
    intro i
    simp only [List.getElem?_modify]
    cases t.data[i]? with
    | none => rfl
    | some q => by_cases h1 : k = i <;> by_cases h2 : j = i <;> simp_all
  refine ⟨(t.setValueAt k v).setValueAt j w, rfl, ?_, set_set (hN := hN) h hx hk hy hj v w hm hr hg, ?_⟩
  · show (t.data.modify k _).modify j _ = _
    apply List.ext_getElem?
    intro i
    obtain ⟨lk, ek⟩ := List.getElem?_eq_some_iff.1 hx
    obtain ⟨lj, ej⟩ := List.getElem?_eq_some_iff.1 hy
    simp only [List.getElem?_modify, List.getElem?_set, List.length_set]
    by_cases h1 : j = i
    · subst h1
      simp [hkj, lj, ej]
    · by_cases h2 : k = i
      · subst h2
        simp [h1, lk, ek]
      · simp [h1, h2]
  · rw [← e]
    exact set_set (hN := hN) h hy hj hx hk w v hm hr' hg

end

section
attribute [local instance] asciiUni

/-! ### examples -/

/-- a spec file with three sections -/
def blockSpec : List Str :=
  [s% "Name: a", s% "Version: 1", s% "%prep", s% "%setup -q", s% "%changelog", s% "* Mon Jan 01 2024 B", s% "- old"]

/-- its sections after the preamble -/
def blockSections : Sections :=
  [⟨s% "prep", ⟨[], [], []⟩, [], ['\n'], [s% "%setup -q"]⟩,
    ⟨s% "changelog", ⟨[], [], []⟩, [], ['\n'], [s% "* Mon Jan 01 2024 B", s% "- old"]⟩]

theorem block_sections : Sections.parse (sampleWorld.oracle blockSpec) blockSpec =
    .ok (preambleOf (blockSpec.take 2) :: blockSections) := by decide +kernel

/-- set the version -/
def blockVersion : Block Unit := .tags (s% "Package") (assignTag (s% "version") (s% "2"))
/-- add lines to `%prep` -/
def blockPrep : Block Unit := .prep (fun p => ({ p with remainder := p.remainder ++ [s% "make"] }, .ok ())) (.error .valueError)
/-- add an entry -/
def blockChangelog : Block Unit :=
  .changelog (fun c => ({ c with data := c.data ++ [⟨s% "* Tue Jan 02 2024 C", [s% "- new"], [[]]⟩] }, .ok ())) (.error .valueError)

theorem block_plain {ls : List Str} (h : ∀ l ∈ ls, '\n' ∉ l ∧ Sections.isHeader l = false)
    (h' : ∀ l ∈ ls, ∀ c ∈ l, isLineBreak c = false) : ∀ l ∈ ls, OneLine l ∧ ¬ HeaderLine l := by
  intro l hl
  refine ⟨h' l hl, fun hh => ?_⟩
  rw [← Sections.isHeader_iff (h l hl).1, (h l hl).2] at hh
  cases hh

theorem block_good : GoodSections (preambleOf (blockSpec.take 2) :: blockSections) := by
  refine ⟨_, _, rfl, block_plain (by decide +kernel) (by decide +kernel), ?_⟩
  intro s hs
  simp only [blockSections, List.mem_cons, List.not_mem_nil, or_false] at hs
  rcases hs with rfl | rfl
  · exact ⟨⟨s% "prep", by decide +kernel, by simp only [SameLetters]; decide +kernel⟩, by decide +kernel, by decide +kernel, rfl,
      .inl ⟨rfl, rfl⟩, rfl, by unfold OneLine; decide +kernel, by decide +kernel, block_plain (by decide +kernel) (by decide +kernel)⟩
  · exact ⟨⟨s% "changelog", by decide +kernel, by simp only [SameLetters]; decide +kernel⟩, by decide +kernel, by decide +kernel,
      rfl, .inl ⟨rfl, rfl⟩, rfl, by unfold OneLine; decide +kernel, by decide +kernel,
      block_plain (by decide +kernel) (by decide +kernel)⟩

theorem block_separate : Separate sampleWorld blockSpec (preambleOf (blockSpec.take 2) :: blockSections)
    [blockVersion, blockPrep, blockChangelog] := by
  have one : ∀ (b : Block Unit) (data d : List Str) (r : Except Err Unit), BlockMakes sampleWorld blockSpec b data d r →
      (∀ l ∈ d, '\n' ∉ l ∧ Sections.isHeader l = false) → (∀ l ∈ d, ∀ c ∈ l, isLineBreak c = false) →
      (∀ l ∈ d, ¬ (s% "global" <:+: l ∨ s% "define" <:+: l)) →
      ∀ d' r', BlockMakes sampleWorld blockSpec b data d' r' →
      ∀ l ∈ d', (OneLine l ∧ ¬ HeaderLine l) ∧ ¬ (s% "global" <:+: l ∨ s% "define" <:+: l) := by
    intro b data d r h h1 h2 h3 d' r' h' l hl
    rw [← (makes_unique h h').1] at hl
    exact ⟨block_plain h1 h2 l hl, h3 l hl⟩
  refine C99_separate block_good (by decide +kernel) ?_ (by decide +kernel) (fun _ => rfl)
  intro b hb s hs he
  simp only [List.mem_cons, List.not_mem_nil, or_false, blockSections] at hb hs
  rcases hb with rfl | rfl | rfl
  · rcases hs with rfl | rfl | rfl
    · exact one _ _ _ _ (.tags (t := ⟨[⟨s% "Name", s% "a", s% ": ", ⟨[], []⟩, true, [], []⟩,
        ⟨s% "Version", s% "1", s% ": ", ⟨[], []⟩, true, [], []⟩], []⟩) (by decide +kernel)) (by decide +kernel) (by decide +kernel)
        (by decide +kernel)
    · exact absurd he (by decide +kernel)
    · exact absurd he (by decide +kernel)
  · rcases hs with rfl | rfl | rfl
    · exact absurd he (by decide +kernel)
    · obtain ⟨p, hp, hq⟩ : ∃ p, Prep.parse [s% "%setup -q"] = .ok p ∧ Prep.raw { p with remainder := p.remainder ++ [s% "make"] } =
          [s% "%setup -q", s% "make"] := ⟨_, rfl, by decide +kernel⟩
      have := BlockMakes.prep (W := sampleWorld) (lines := blockSpec)
        (body := fun p => ({ p with remainder := p.remainder ++ [s% "make"] }, .ok ())) (absent := .error .valueError) hp
      simp only [hq] at this
      exact one _ _ _ _ this (by decide +kernel) (by decide +kernel) (by decide +kernel)
    · exact absurd he (by decide +kernel)
  · rcases hs with rfl | rfl | rfl
    · exact absurd he (by decide +kernel)
    · exact absurd he (by decide +kernel)
    · exact one _ _ _ _ .changelog (by decide +kernel) (by decide +kernel) (by decide +kernel)

/-- the hypotheses of `C99_order_partial` -/
example (bs : List (Block Unit)) (h : [blockVersion, blockPrep, blockChangelog].Perm bs) :
    (runAll sampleWorld bs blockSpec).1 = [s% "Name: a", s% "Version: 2", s% "%prep", s% "%setup -q", s% "make", s% "%changelog",
      s% "* Tue Jan 02 2024 C", s% "- new", s% "", s% "* Mon Jan 01 2024 B", s% "- old"] := by
  rw [← C99_order_partial h block_sections block_good block_separate]
  decide +kernel

/-- C99 fails for lines that are headers: after `%changelog` has got a line `%prep`, this is another section. -/
theorem C99_violation_headers : ∃ lines, ∃ a b : Block Unit, sectionOf a = s% "changelog" ∧ sectionOf b = s% "prep" ∧
    (runAll sampleWorld [a, b] lines).1 ≠ (runAll sampleWorld [b, a] lines).1 :=
  ⟨[s% "%changelog", s% "%prep", s% "a"], .changelog (fun c => ({ c with predecessor := [s% "%prep"] }, .ok ())) (.ok ()),
    .prep (fun p => ({ p with remainder := [s% "b"] }, .ok ())) (.ok ()), rfl, rfl, by decide +kernel⟩

/-- a world in which the version is known to conditions -/
def versionWorld : World :=
  { sampleWorld with oracle := fun lines _ s => .ok (if s = s% "%{expr:v}" then
      (if lines.contains (s% "Version: 1") then s% "1" else s% "0") else s) }

/-- C99 fails if a block changes what conditions mean: which of two tags is set depends on the version, so it matters
whether the version is set before. -/
theorem C99_violation_conditions : ∃ (W : World) (lines : List Str) (a b : Block Unit), sectionOf a = s% "package" ∧
    sectionOf b = s% "package x" ∧ (runAll W [a, b] lines).1 ≠ (runAll W [b, a] lines).1 :=
  ⟨versionWorld, [s% "Version: 1", s% "%package x", s% "%if v", s% "Name: a", s% "%else", s% "Name: b", s% "%endif"],
    .tags (s% "package") (assignTag (s% "version") (s% "2")), .tags (s% "package x") (assignTag (s% "name") (s% "c")), rfl, rfl,
    by decide +kernel⟩

/-! the hypotheses of `C99_tags_partial` -/

theorem small_named : PlainTag { (⟨s% "Name", s% "x", s% ": ", ⟨[], []⟩, true, [], s% " "⟩ : Tag) with value := s% "y" } where
  name := ⟨s% "name", by decide +kernel, s% "Name", [], rfl, by simp [SameLetters]; decide +kernel, by
    rw [NameExtension, if_neg (by decide +kernel), if_neg (by decide +kernel)]⟩
  sep := small_set.sep
  oneLine := by decide +kernel
  value := by decide +kernel
  start := by decide +kernel
  pfx := rfl
  sfx := by simp [InlineSpaces]; decide +kernel
  stop := by
    rw [Tags.not_endsInBlank (by decide +kernel)]
    decide +kernel
  lines := by
    intro x y h
    have h : s% "y" = x ++ '\n' :: y := h
    have : '\n' ∈ s% "y" := by rw [h]; simp
    exact absurd this (by decide +kernel)
  first := ⟨s% "Name: y", s% " ", by decide +kernel, by simp [InlineSpaces]; decide +kernel, by
    rw [Tags.not_endsInBlank (by decide +kernel)]
    decide +kernel, by constructor <;> decide +kernel⟩

/-- the preamble with the new name -/
def smallPreamble3 : List Str := [s% "Name: y ", s% "", s% "# why", s% "Epoch: 1"]

theorem small_clean3 : CleanTagLines smallPreamble3 where
  noNl := by decide +kernel
  singleSpaced := by
    intro l hl a b c h
    have hm : '%' ∈ l := by rw [h]; simp
    have : ∀ l ∈ smallPreamble3, '%' ∉ l := by decide +kernel
    exact absurd hm (this l hl)
  noStale := by
    intro pre b mid z post h hb ho
    rw [← Tags.open_iff] at ho
    have hlen : pre.length + mid.length ≤ 2 := by
      have := congrArg List.length h
      simp [smallPreamble3] at this
      omega
    have hb' : b :: mid = (smallPreamble3.drop pre.length).take (mid.length + 1) := by
      rw [h, List.drop_left, show b :: (mid ++ z :: post) = (b :: mid) ++ z :: post by simp,
        show mid.length + 1 = (b :: mid).length by simp, List.take_left]
    rw [hb'] at ho
    have hall : ∀ i ≤ 2, ∀ j ≤ 2, Tags.open_ (joinC '\n' ((smallPreamble3.drop i).take (j + 1))) = false := by
      decide +kernel
    rw [hall _ (by omega) _ (by omega)] at ho
    cases ho

theorem small_after {k : Nat} {x : Tag} {v : Str} {ls : List Str} (hp : PlainTag { x with value := v }) (ho : Tags.open_ v = false)
    (hr : Tags.raw (smallTags.setValueAt k v) = ls) (hc : CleanTagLines ls)
    (h : ∀ l ∈ ls, '\n' ∉ l ∧ Sections.isHeader l = false) (h' : ∀ l ∈ ls, ∀ c ∈ l, isLineBreak c = false)
    (he : (Conditions.processConditions noExpansion (MacroDefinitions.parseLines ls).excluded ls).toOption.isSome = true) :
    ReadAfter smallWorld ls smallTags k x v := by
  refine ⟨.inl ⟨hp, by rw [← Tags.open_iff, ho]; simp⟩, ?_, ?_⟩
  · intro i l hl hh
    exact absurd hh (block_plain h h' l (List.mem_of_getElem? hl)).2
  · intro t' ht
    rw [tagSet_iff.1 ht, hr]
    refine ⟨hc, block_plain h h', fun e hx => ?_⟩
    have hx : Conditions.processConditions noExpansion (MacroDefinitions.parseLines ls).excluded ls = .error e := hx
    rw [hx] at he
    cases he

/-- name and epoch -/
example : ∃ t' : Tags, t'.remainder = [] ∧ t'.data.map (·.value) = [s% "y", s% "2"] ∧
    setTag smallWorld (s% "epoch") (s% "2") (setTag smallWorld (s% "name") (s% "y") smallPreamble).1 = (Tags.raw t' ++ [], .ok ()) ∧
    setTag smallWorld (s% "name") (s% "y") (setTag smallWorld (s% "epoch") (s% "2") smallPreamble).1 = (Tags.raw t' ++ [], .ok ()) := by
  have hs : Sections.parse (smallWorld.oracle smallPreamble) smallPreamble = .ok [preambleOf smallPreamble] := by
    decide +kernel
  have only : ∀ (name : Str) (k : Nat), (Uni.capitalize (s% "Name") = Uni.capitalize name ↔ 0 = k) →
      (Uni.capitalize (s% "Epoch") = Uni.capitalize name ↔ 1 = k) → OnlyTag name smallTags k := by
    intro name k h0 h1 j x hx
    match j, hx with
    | 0, hx => cases hx; exact h0
    | 1, hx => cases hx; exact h1
    | j + 2, hx => cases hx
  have e1 : (setTag smallWorld (s% "name") (s% "y") smallPreamble).1 = smallPreamble3 := by decide +kernel
  have e2 : (setTag smallWorld (s% "epoch") (s% "2") smallPreamble).1 = smallPreamble2 := by decide +kernel
  obtain ⟨t', h1, h2, h3, h4⟩ := C99_tags_partial (W := smallWorld) (fun _ => Iff.rfl) (lines := smallPreamble) (t := smallTags)
    (rest := []) (name := s% "name") (name' := s% "epoch") (k := 0) (j := 1) ⟨_, hs, small_parse⟩ (by decide) rfl
    (only _ _ (by decide +kernel) (by decide +kernel)) rfl (only _ _ (by decide +kernel) (by decide +kernel)) (s% "y") (s% "2")
    small_readable
    (by rw [e1]; exact small_after small_named (by decide +kernel) (by decide +kernel) small_clean3 (by decide +kernel)
          (by decide +kernel) (by decide +kernel))
    (by rw [e2]; exact small_after small_two (by decide +kernel) (by decide +kernel) small_clean2 (by decide +kernel)
          (by decide +kernel) (by decide +kernel))
    (by simp)
  exact ⟨t', h1, by rw [h2]; rfl, h3, h4⟩

end
end Specfile.Props
