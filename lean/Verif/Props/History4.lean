import Verif.Props.History3
import Verif.Props.Operations
/-
C102: sequences of calls of add_changelog_entry on a spec file.
-/
namespace Specfile.Props
open Py Spec Update Ops

section
variable [Uni] {W : World}

/-- a call of `add_changelog_entry` with an author, a timestamp and an EVR; `label` is what the EVR expands to -/
structure Call where
  entry : List Str
  author : Str
  email : Option Str
  stamp : Changelog.Timestamp
  evr : Str
  label : Str

/-- the arguments -/
def Call.args (c : Call) : Args := ⟨some c.author, c.email, some c.stamp, some c.evr⟩

/-- what it adds: the e-mail is written after the author -/
def Call.addition (c : Call) : Addition :=
  ⟨c.stamp, match c.email with
    | none => c.author
    | some e => c.author ++ s% " <" ++ e ++ s% ">", c.entry, c.label⟩

/-- the calls one after the other; the first exception ends it -/
def addCalls (W : World) (env : List Str → Env) : List Call → List Str → Out Unit
  | [], lines => (lines, .ok ())
  | c :: cs, lines =>
    match addChangelogEntry W env c.entry c.args lines with
    | (lines', .error e) => (lines', .error e)
    | (lines', .ok ()) => addCalls W env cs lines'

/-- the section with the additions -/
def sectionWith (s : Section) (cs : List Call) : Section := { s with data := addAll s.data (cs.map Call.addition) }

/-- the text after the calls `p` can be read, does not use `%autochangelog`, and there the EVR of the next call `c`
expands to its label -/
structure Ready (env : List Str → Env) (pre : Sections) (s : Section) (post : Sections) (p : List Call) (c : Call) : Prop where
  headers : HeadersOutside (Sections.raw (pre ++ sectionWith s p :: post))
  plain : ∀ l ∈ (sectionWith s p).data, OneLine l ∧ ¬ HeaderLine l
  free : FreeOfAutochangelog (sectionWith s p).data
  label : (env (Sections.raw (pre ++ sectionWith s p :: post))).expand c.evr = .ok c.label

theorem good_with_data {pre post : Sections} {s : Section} (h : GoodSections (pre ++ s :: post)) {data : List Str}
    (hd : ∀ l ∈ data, OneLine l ∧ ¬ HeaderLine l) : GoodSections (pre ++ { s with data := data } :: post) := by
  obtain ⟨d, rest, he, h1, h2⟩ := h
  cases pre with
  | nil =>
    simp only [List.nil_append, List.cons.injEq] at he
    obtain ⟨rfl, rfl⟩ := he
    exact ⟨data, post, rfl, hd, h2⟩
  | cons x pre =>
    simp only [List.cons_append, List.cons.injEq] at he
    obtain ⟨rfl, rfl⟩ := he
    refine ⟨d, pre ++ { s with data := data } :: post, rfl, h1, ?_⟩
    intro y hy
    simp only [List.mem_append, List.mem_cons] at hy
    rcases hy with hy | rfl | hy
    · exact h2 y (by simp [hy])
    · have hs := h2 s (by simp)
      exact { hs with data := hd }
    · exact h2 y (by simp [hy])

theorem addLoop_only {env : Env} {entry : List Str} {a a' : Args} {c' : Changelog} {post : Sections} {s : Section}
    (h2 : ∀ x ∈ post, Sections.normalizedId x ≠ s% "changelog")
    (hs : Sections.normalizedId s = s% "changelog") (hf : FreeOfAutochangelog s.data)
    (h : addTo env entry a (Changelog.parse s.data) = (c', .ok a')) (pre : Sections)
    (h1 : ∀ x ∈ pre, Sections.normalizedId x ≠ s% "changelog") :
    addLoop env entry a (pre ++ s :: post) = (pre ++ { s with data := Changelog.raw c' } :: post, .ok ()) := by
  have none : ∀ (ss : Sections) a, (∀ s ∈ ss, Sections.normalizedId s ≠ s% "changelog") →
      addLoop env entry a ss = (ss, .ok ()) := by
    intro ss a
    induction ss with
    | nil => intro _; rfl
    | cons s ss ih =>
      intro hn
      have hs : isChangelog s ≠ true := fun h => hn s (by simp) ((isChangelog_iff s).1 h)
      unfold addLoop
      rw [if_neg hs, ih (fun x hx => hn x (by simp [hx]))]
  induction pre with
  | nil =>
    rw [List.nil_append, addLoop, if_pos ((isChangelog_iff s).2 hs), (C51_no_autochangelog _).2 hf]
    simp only [h, none post a' h2, List.nil_append]
  | cons x pre ih =>
    have hx : isChangelog x ≠ true := fun h => h1 x (by simp) ((isChangelog_iff x).1 h)
    rw [List.cons_append, addLoop, if_neg hx, ih (fun y hy => h1 y (by simp [hy]))]
    rfl

/-- C102 for spec files with one changelog: no call raises, and the text is the one of the sections with the additions in the
changelog and everything else as it was; what the changelog then contains is `C102_entries_partial`. Missing: authors that
are guessed, and current times; for several changelogs see `C102_all_partial`. -/
theorem C102_calls_partial {env : List Str → Env} {pre post : Sections} (h1 : ∀ x ∈ pre, Sections.normalizedId x ≠ s% "changelog")
    (h2 : ∀ x ∈ post, Sections.normalizedId x ≠ s% "changelog") (calls : List Call) :
    ∀ {s : Section}, Sections.normalizedId s = s% "changelog" → GoodSections (pre ++ s :: post) →
    (∀ p c q, calls = p ++ c :: q → Ready env pre s post p c) →
    addCalls W env calls (Sections.raw (pre ++ s :: post)) =
      (Sections.raw (pre ++ { s with data := addAll s.data (calls.map Call.addition) } :: post), .ok ()) := by
  induction calls with
  | nil => intro s _ _ _; rfl
  | cons c cs ih =>
    intro s hs hg hr
    have h0 := hr [] c cs rfl
    obtain ⟨r1, r2, r3, r4⟩ := h0
    have e0 : sectionWith s [] = s := rfl
    rw [e0] at r1 r2 r3 r4
    have hto : addTo (env (Sections.raw (pre ++ s :: post))) c.entry c.args (Changelog.parse s.data) =
        (Changelog.add (Changelog.parse s.data) c.addition.stamp c.addition.author c.addition.content c.addition.evr,
          .ok ⟨some c.addition.author, c.email, some c.stamp, some c.label⟩) := by
      unfold addTo
      simp only [Call.args, Option.getD_some, r4, authorOf]
      cases he : c.email <;> simp [Call.addition, he, Changelog.newTimestamp]
    have hone : addChangelogEntry W env c.entry c.args (Sections.raw (pre ++ s :: post)) =
        (Sections.raw (pre ++ sectionWith s [c] :: post), .ok ()) := by
      unfold addChangelogEntry withSections
      rw [C19_read_back _ _ hg r1]
      simp only [addLoop_only h2 hs r3 hto pre h1]
      rfl
    rw [addCalls, hone]
    cases cs with
    | nil => rfl
    | cons c' cs =>
      have hr1 := hr [c] c' cs rfl
      refine ih (s := sectionWith s [c]) hs (good_with_data hg hr1.plain) ?_
      intro p d q hq
      have h := hr (c :: p) d q (by rw [hq]; rfl)
      exact ⟨h.headers, h.plain, h.free, h.label⟩

end

section
attribute [local instance] asciiUni

/-- a spec file with a changelog -/
def changelogFile : List Str :=
  [s% "Name: a", s% "%changelog", s% "* Mon Jan 01 2024 B - 1-1", s% "- old", s% "%prep"]

/-- two calls -/
def twoCalls : List Call :=
  [⟨[s% "- one"], s% "A", some (s% "a@b"), ⟨1, 1, 6, 2024, none⟩, s% "1-2", s% "1-2"⟩,
    ⟨[s% "- two"], s% "C", none, ⟨2, 1, 7, 2024, none⟩, s% "1-3", s% "1-3"⟩]

example : addCalls sampleWorld sampleEnv twoCalls changelogFile =
    ([s% "Name: a", s% "%changelog", s% "* Wed Feb 07 2024 C - 1-3", s% "- two", [], s% "* Tue Feb 06 2024 A <a@b> - 1-2",
      s% "- one", [], s% "* Mon Jan 01 2024 B - 1-1", s% "- old", s% "%prep"], .ok ()) := by decide +kernel

theorem plain_of_check {ls : List Str} (h : ls.all (fun l => l.all (fun c => !isLineBreak c) && !Sections.isHeader l && !l.contains '\n') = true) :
    ∀ l ∈ ls, OneLine l ∧ ¬ HeaderLine l := by
  intro l hl
  have := List.all_eq_true.1 h l hl
  simp only [Bool.and_eq_true, List.all_eq_true, Bool.not_eq_true', List.contains_eq_mem, decide_eq_false_iff_not] at this
  obtain ⟨⟨a, b⟩, c⟩ := this
  refine ⟨a, fun hh => ?_⟩
  rw [(Sections.isHeader_iff c).mpr hh] at b
  cases b

/-- the changelog of the spec file -/
def fileChangelog : Section := ⟨s% "changelog", ⟨[], [], []⟩, [], ['\n'], [s% "* Mon Jan 01 2024 B - 1-1", s% "- old"]⟩

/-- the section after it -/
def filePrep : Section := ⟨s% "prep", ⟨[], [], []⟩, [], ['\n'], []⟩

theorem bare_good {n : Str} {data : List Str} (h1 : n ∈ Constants.sectionNames) (h2 : SameLetters n n) (h3 : Uni.lower n = n)
    (h4 : acceptedOptions n = []) (h5 : OneLine ('%' :: n)) (h6 : n ≠ s% "package")
    (hd : ∀ l ∈ data, OneLine l ∧ ¬ HeaderLine l) : GoodSection ⟨n, ⟨[], [], []⟩, [], ['\n'], data⟩ := by
  refine ⟨⟨n, h1, h2⟩, by rw [h3]; exact h1, by rw [h3]; exact h4.symm, rfl, .inl ⟨rfl, rfl⟩, rfl, ?_, ?_, hd⟩
  · simpa [headerOf, Options.tokensStr] using h5
  · intro _
    rw [h3]
    exact h6

/-- the hypotheses of `C102_calls_partial` -/
example : GoodSections ([preambleOf [s% "Name: a"]] ++ fileChangelog :: [filePrep]) ∧
    Sections.raw ([preambleOf [s% "Name: a"]] ++ fileChangelog :: [filePrep]) = changelogFile ∧
    Sections.normalizedId fileChangelog = s% "changelog" ∧
    (∀ x ∈ [preambleOf [s% "Name: a"]], Sections.normalizedId x ≠ s% "changelog") ∧
    (∀ x ∈ [filePrep], Sections.normalizedId x ≠ s% "changelog") ∧
    ∀ p c q, twoCalls = p ++ c :: q → Ready sampleEnv [preambleOf [s% "Name: a"]] fileChangelog [filePrep] p c := by
  refine ⟨⟨_, _, rfl, plain_of_check (by decide +kernel), ?_⟩, by decide +kernel, by decide +kernel, by decide +kernel,
    by decide +kernel, ?_⟩
  · intro s hs
    have hs : s = fileChangelog ∨ s = filePrep := by simpa using hs
    obtain rfl | rfl := hs
    · exact bare_good (by decide +kernel) (by simp only [SameLetters]; decide +kernel) (by decide +kernel) (by decide +kernel)
        (by unfold OneLine; decide +kernel) (by decide) (plain_of_check (by decide +kernel))
    · exact bare_good (by decide +kernel) (by simp only [SameLetters]; decide +kernel) (by decide +kernel) (by decide +kernel)
        (by unfold OneLine; decide +kernel) (by decide) (plain_of_check (by decide +kernel))
  · intro p c q hq
    match p with
    | [] =>
      simp only [twoCalls, List.nil_append, List.cons.injEq] at hq
      obtain ⟨rfl, -⟩ := hq
      exact ⟨C19_headers_outside _ (by decide +kernel), plain_of_check (by decide +kernel),
        (C51_no_autochangelog _).1 (by decide +kernel), rfl⟩
    | [d] =>
      simp only [twoCalls, List.cons_append, List.nil_append, List.cons.injEq] at hq
      obtain ⟨rfl, rfl, -⟩ := hq
      exact ⟨C19_headers_outside _ (by decide +kernel), plain_of_check (by decide +kernel),
        (C51_no_autochangelog _).1 (by decide +kernel), rfl⟩
    | _ :: _ :: p => simp [twoCalls] at hq
end

end Specfile.Props
