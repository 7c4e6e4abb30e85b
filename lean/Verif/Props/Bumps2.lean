import Verif.Props.Bumps
import Verif.Props.History
/-
C103: calls of bump_release on a spec file.
-/
namespace Specfile.Props
open Py Spec Update Ops Release

section
variable [Uni] {W : World}

/-- `n` calls of `bump_release`; the first exception ends it -/
def bumpCalls (W : World) : Nat → List Str → Out Unit
  | 0, lines => (lines, .ok ())
  | n + 1, lines =>
    match bumpCalls W n lines with
    | (lines', .error e) => (lines', .error e)
    | (lines', .ok ()) => bumpRelease W lines'

theorem bumps_succ (n : Nat) (s : Str) : bumps (n + 1) s = bump (bumps n s) := by
  induction n generalizing s with
  | zero => rfl
  | succ n ih => rw [bumps, ih]; rfl

/-- the preamble with this release, followed by the other sections -/
def releaseText (t : Tags) (k : Nat) (rest : Sections) (v : Str) : List Str := Tags.raw (t.setValueAt k v) ++ Sections.raw rest

/-- a text with this release is read as it was made, has no macro definition that seems to define the release, and the
release does not use `%autorelease` -/
structure BumpReady (W : World) (t : Tags) (k : Nat) (x : Tag) (rest : Sections) (v : Str) : Prop where
  back : ReadsBack W (releaseText t k rest v)
  reads : ReadsAgain W (t.setValueAt k v) rest
  value : PlainTag { x with value := v } ∧ ¬ OpenBracket v ∨ WrappedTag { x with value := v }
  nodes : ∃ ns, ValueParser.parse v = .ok ns ∧ ¬ ∃ n ∈ ns, Refers (s% "autorelease") n
  macros : ∃ m, MacroDefinitions.parse (W.oracle (releaseText t k rest v)) true (releaseText t k rest v) = .ok m ∧
    ∀ d ∈ m.data, ¬ ReleaseMacro d

omit [Uni] in
theorem set_again (t : Tags) (k : Nat) (v w : Str) : (t.setValueAt k v).setValueAt k w = t.setValueAt k w := by
  unfold Tags.setValueAt
  congr 1
  apply List.ext_getElem?
  intro i
  simp only [List.getElem?_modify]
  cases t.data[i]? with
  | none => rfl
  | some q => by_cases h : k = i <;> simp [h]

/-- one call -/
theorem bump_once (hN : Tags.IsTagNames W.names) {t : Tags} {rest : Sections} (hm : ReadableTags t)
    (hg : ∀ s ∈ rest, GoodSection s) {k : Nat} {x : Tag} (hx : t.data[k]? = some x) (ho : OnlyTag (s% "release") t k) {v : Str}
    (hr : BumpReady W t k x rest v) :
    bumpRelease W (releaseText t k rest v) = (releaseText t k rest (bump v), .ok ()) := by
  obtain ⟨r1, r2, r3, ⟨ns, r4, r5⟩, m, r6, r7⟩ := hr
  have hmv : ReadableTags (t.setValueAt k v) := C52_set_readable t hm k x v hx r3
  obtain ⟨t', hft, hs⟩ := reads_again hN hmv r2 hg
  have hxv : (t.setValueAt k v).data[k]? = some { x with value := v } := by
    simp [Tags.setValueAt, hx]
  have hov : OnlyTag (s% "release") (t.setValueAt k v) k := by
    intro j z hz
    simp only [Tags.setValueAt, List.getElem?_modify] at hz
    cases hq : t.data[j]? with
    | none => rw [hq] at hz; simp at hz
    | some q =>
      rw [hq] at hz
      have : z.name = q.name := by
        by_cases h : k = j <;> simp [h] at hz <;> rw [← hz]
      rw [this]
      exact ho j q hq
  have hmap : ∀ (i : Nat), (t'.data[i]?).map (fun y => (y.name, y.value)) =
      ((t.setValueAt k v).data[i]?).map (fun y => (y.name, y.value)) := by
    intro i
    have e := congrArg (fun l => (l[i]?).map (fun y : Tag => (y.name, y.value))) hs.1
    simpa only [List.getElem?_map, Option.map_map, Function.comp_def] using e
  obtain ⟨z, hz, hzv⟩ : ∃ z, t'.data[k]? = some z ∧ z.value = v := by
    have e := hmap k
    rw [hxv] at e
    cases hq : t'.data[k]? with
    | none => rw [hq] at e; cases e
    | some q =>
      rw [hq] at e
      simp only [Option.map_some, Option.some.injEq, Prod.mk.injEq] at e
      exact ⟨q, rfl, e.2⟩
  have hot : OnlyTag (s% "release") t' k := by
    intro j y hy
    have e := hmap j
    rw [hy] at e
    cases hq : (t.setValueAt k v).data[j]? with
    | none => rw [hq] at e; cases e
    | some q =>
      rw [hq] at e
      simp only [Option.map_some, Option.some.injEq, Prod.mk.injEq] at e
      rw [e.1]
      exact hov j q hq
  obtain ⟨w, hw, hbump⟩ := C75_bump_tag (W := W) hft r1 (hot.named hz) hz (by rw [hzv]; exact r4) r5 r6 r7
  rw [hzv, ← C36_bump] at hw
  subst hw
  unfold releaseText
  rw [hbump]
  have := set_same hft hs hxv hov (bump v)
  rw [this, set_again]

/-- C103 for spec files: the release is that of the only tag Release, no macro definition seems to define it and it does not
use `%autorelease`. Then no call of bump_release raises, and after `n` calls the text is the one with the release that was
bumped `n` times and everything else as it was; what this release is says `C103_once_more_partial`. Missing: releases in macro
definitions, for which C75 fails in part. -/
theorem C103_file_partial (hN : Tags.IsTagNames W.names) {lines : List Str} {t : Tags} {rest : Sections}
    (h : FileTags W lines t rest) (hb : ReadsBack W lines) (hm : ReadableTags t) (hg : ∀ s ∈ rest, GoodSection s) {k : Nat} {x : Tag}
    (hx : t.data[k]? = some x) (ho : OnlyTag (s% "release") t k) (n : Nat)
    (hr : ∀ i, i < n → BumpReady W t k x rest (bumps i x.value)) :
    bumpCalls W n lines = (Tags.raw (t.setValueAt k (bumps n x.value)) ++ Sections.raw rest, .ok ()) := by
  induction n with
  | zero =>
    have : t.setValueAt k x.value = t := by
      unfold Tags.setValueAt
      cases t
      simp only [Tags.mk.injEq, and_true] at *
      apply List.ext_getElem?
      intro i
      rw [List.getElem?_modify]
      by_cases hk : k = i
      · subst hk; simp [hx]
      · simp [hk]
    rw [bumpCalls, bumps, this, hb.tags t rest h]
  | succ n ih =>
    rw [bumpCalls, ih (fun i hi => hr i (by omega)), bumps_succ]
    exact bump_once hN hm hg hx ho (hr n (by omega))

end

section
attribute [local instance] asciiUni

/-- a preamble with this release -/
def relLines (v : Str) : List Str := [s% "Name: x", s% "Release: " ++ v]

/-- the tag with the release -/
def relTag (v : Str) : Tag := ⟨s% "Release", v, s% ": ", ⟨[], []⟩, true, [], []⟩

/-- its tags -/
def relTags (v : Str) : Tags := ⟨[⟨s% "Name", s% "x", s% ": ", ⟨[], []⟩, true, [], []⟩, relTag v], []⟩

theorem rel_clean {v : Str} (hv : v = s% "1" ∨ v = s% "2") : CleanTagLines (relLines v) where
  noNl := by rcases hv with rfl | rfl <;> decide +kernel
  singleSpaced := by
    intro l hl a b c h
    have hm : '%' ∈ l := by rw [h]; simp
    have : ∀ l ∈ relLines v, '%' ∉ l := by rcases hv with rfl | rfl <;> decide +kernel
    exact absurd hm (this l hl)
  noStale := by
    intro pre b mid z post h hb ho
    rw [← Tags.open_iff] at ho
    have hlen : pre.length + mid.length = 0 := by
      have := congrArg List.length h
      simp [relLines] at this
      omega
    have hb' : b :: mid = ((relLines v).drop pre.length).take (mid.length + 1) := by
      rw [h, List.drop_left, show b :: (mid ++ z :: post) = (b :: mid) ++ z :: post by simp,
        show mid.length + 1 = (b :: mid).length by simp, List.take_left]
    rw [hb', show pre.length = 0 by omega, show mid.length = 0 by omega] at ho
    have : Tags.open_ (joinC '\n' (((relLines v).drop 0).take (0 + 1))) = false := by
      rcases hv with rfl | rfl <;> decide +kernel
    rw [this] at ho
    cases ho

theorem rel_parse {v : Str} (hv : v = s% "1" ∨ v = s% "2") :
    Tags.parse Constants.tagNames noExpansion (relLines v) = .ok (relTags v) := by
  rcases hv with rfl | rfl <;> decide +kernel

theorem rel_sections {v : Str} (hv : v = s% "1" ∨ v = s% "2") :
    Sections.parse noExpansion (relLines v) = .ok [preambleOf (relLines v)] := by
  rcases hv with rfl | rfl <;> decide +kernel

theorem rel_readable {v : Str} (hv : v = s% "1" ∨ v = s% "2") : ReadableTags (relTags v) :=
  C52_parsed_is_readable Constants.tagNames (fun _ => Iff.rfl) noExpansion (relLines v) (rel_clean hv) (by
    intro l hl a w w' h
    have hm : '}' ∈ l := by rw [h]; simp
    have : ∀ l ∈ relLines v, '}' ∉ l := by rcases hv with rfl | rfl <;> decide +kernel
    exact absurd hm (this l hl)) _ (rel_parse hv)

theorem rel_macros {v : Str} (hv : v = s% "1" ∨ v = s% "2") :
    MacroDefinitions.parse noExpansion true (relLines v) = .ok ⟨[], relLines v⟩ := by
  rcases hv with rfl | rfl <;> decide +kernel

theorem rel_back {v : Str} (hv : v = s% "1" ∨ v = s% "2") : ReadsBack smallWorld (relLines v) where
  macros := by
    intro m hm
    cases (rel_macros hv).symm.trans hm
    simp [MacroDefinitions.raw]
  sections := by
    intro ss hs
    cases (rel_sections hv).symm.trans hs
    rcases hv with rfl | rfl <;> decide +kernel
  tags := by
    rintro t rest ⟨data, h1, h2⟩
    have h1 := (rel_sections hv).symm.trans h1
    simp only [Except.ok.injEq, List.cons.injEq] at h1
    obtain ⟨h0, rfl⟩ := h1
    have hd : relLines v = data := congrArg Section.data h0
    subst hd
    cases (rel_parse hv).symm.trans h2
    rcases hv with rfl | rfl <;> decide +kernel

theorem rel_ready {v : Str} (hv : v = s% "1" ∨ v = s% "2") : BumpReady smallWorld (relTags (s% "1")) 1 (relTag (s% "1")) [] v := by
  have hraw : Tags.raw ((relTags (s% "1")).setValueAt 1 v) = relLines v := by rcases hv with rfl | rfl <;> decide +kernel
  have htext : releaseText (relTags (s% "1")) 1 [] v = relLines v := by
    rw [releaseText, hraw]
    simp [Sections.raw]
  refine ⟨by rw [htext]; exact rel_back hv, ?_, ?_, ?_, ?_⟩
  · refine small_reads hraw (rel_clean hv) ?_ ?_ ?_ <;> rcases hv with rfl | rfl <;> decide +kernel
  · have ho : ¬ OpenBracket v := by
      rw [← Tags.open_iff]
      rcases hv with rfl | rfl <;> decide +kernel
    rcases (rel_readable hv).tag (relTag v) (by simp [relTags]) with h | h
    · exact .inl ⟨h, ho⟩
    · exact .inr h
  · exact (C51_no_autorelease v).1 (by rcases hv with rfl | rfl <;> decide +kernel)
  · rw [htext]
    exact ⟨_, rel_macros hv, by simp⟩

/-- the hypotheses of `C103_file_partial` -/
example : bumpCalls smallWorld 2 (relLines (s% "1")) = (relLines (s% "3"), .ok ()) := by
  have h1 : s% "1" = s% "1" ∨ s% "1" = s% "2" := .inl rfl
  rw [C103_file_partial (W := smallWorld) (fun _ => Iff.rfl) ⟨_, rel_sections h1, rel_parse h1⟩ (rel_back h1) (rel_readable h1)
    (by simp) (k := 1) (x := relTag (s% "1")) rfl ?_ 2 ?_]
  · decide +kernel
  · intro j x hx
    match j, hx with
    | 0, hx => cases hx; decide +kernel
    | 1, hx => cases hx; decide +kernel
    | j + 2, hx => cases hx
  · intro i hi
    match i, hi with
    | 0, _ => exact rel_ready (.inl rfl)
    | 1, _ => exact rel_ready (.inr (by decide +kernel))
end

end Specfile.Props
