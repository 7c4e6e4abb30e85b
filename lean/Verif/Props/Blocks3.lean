import Verif.Proof.Local
import Verif.Props.Blocks
import Verif.Props.Operations2
/-
C99: whole operations on different sections, such as adding patches and changelog entries, can be done in any order.
-/
namespace Specfile.Props
open Py Spec Update Ops
open Specfile.Blocks Proof.Local

section
variable [Uni] {α β : Type} {W : World}

theorem unrelated_run {P : Section → Prop} {lines : List Str} {ss : Sections} {f : Sections → Sections × Except Err α}
    {g : List Str → Sections → Sections × Except Err β} (hp : Sections.parse (W.oracle lines) lines = .ok ss)
    (hg : GoodSections ss) (hf : LocalTo P f) (hu : Unrelated W lines ss f g) :
    withSections W (withSections W lines f).1 (g (withSections W lines f).1) =
      (Sections.raw (g lines (f ss).1).1, (g lines (f ss).1).2) := by
  have h1 : (withSections W lines f).1 = Sections.raw (f ss).1 := by simp only [withSections, hp]
  have h2 := Sections.parse_good (ex := W.oracle (Sections.raw (f ss).1)) (good_after (hf.headers ss) hg hu.text) hu.outside
  rw [h1]
  simp only [withSections, h2, hu.alike]

/-- C99: two operations that have to do with different sections. Done one after the other, they make the same lines in both
orders, with the sections each of them makes alone, and each ends the way it ends alone. Missing: operations that put headers
into sections or change what macros mean for the other one, `C99_violation_version`. -/
theorem C99_operations_partial {P Q : Section → Prop} {lines : List Str} {ss : Sections}
    {f : List Str → Sections → Sections × Except Err α} {g : List Str → Sections → Sections × Except Err β}
    (hp : Sections.parse (W.oracle lines) lines = .ok ss) (hg : GoodSections ss)
    (hf : LocalTo P (f lines)) (hq : LocalTo Q (g lines)) (hd : ∀ s, P s → ¬ Q s)
    (h1 : Unrelated W lines ss (f lines) g) (h2 : Unrelated W lines ss (g lines) f) :
    let a := withSections W lines (f lines)
    let b := withSections W lines (g lines)
    ∃ ss', MadeOf P Q ss (f lines ss).1 (g lines ss).1 ss' ∧
      withSections W a.1 (g a.1) = (Sections.raw ss', b.2) ∧ withSections W b.1 (f b.1) = (Sections.raw ss', a.2) := by
  intro a b
  have e1 : withSections W a.1 (g a.1) = _ := unrelated_run hp hg hf h1
  have e2 : withSections W b.1 (f b.1) = _ := unrelated_run hp hg hq h2
  have hb : b.2 = (g lines ss).2 := by simp only [b, withSections, hp]
  have ha : a.2 = (f lines ss).2 := by simp only [a, withSections, hp]
  have hd' : ∀ s, Q s → ¬ P s := fun s hq hp => hd s hp hq
  have hc := local_comm hf hq hd ss
  rw [e1, e2, ha, hb]
  refine ⟨(g lines (f lines ss).1).1, ⟨?_, ?_, ?_, ?_⟩, ?_, ?_⟩
  · have := congrArg List.length ((hq.headers (f lines ss).1).trans (hf.headers ss))
    simpa using this
  · intro i s hs h
    exact kept_after hq (hf.headers ss) hs (hd _ h)
  · intro i s hs h
    rw [hc]
    exact kept_after hf (hq.headers ss) hs (hd' _ h)
  · intro i s hs h h'
    rw [kept_after hq (hf.headers ss) hs h']
    exact hf.kept ss i s hs h
  · rw [(local_after hq hf hd' ss).1]
  · rw [(local_after hf hq hd ss).1, hc]

/-! ### the operations -/

theorem lower_word {s : Str} (h : s.all isAscii = true) (h' : s.map asciiLowerC = s) : Uni.lower s = s :=
  (Uni.lower_ascii s h).trans h'

theorem normalized_same {s : Section} {w : Str} (h : Sections.id s = w) (ha : w.all isAscii = true)
    (hl : ∀ c ∈ w, asciiLowerC c = c) : Sections.normalizedId s = w := by
  have hsub : ∀ c ∈ s.name, c ∈ w := by
    intro c hc
    rw [← h]
    simp [Sections.id, hc]
  rw [← h]
  unfold Sections.normalizedId Sections.id
  rw [lower_word]
  · rw [List.all_eq_true] at ha ⊢
    exact fun c hc => ha c (hsub c hc)
  · conv => rhs; rw [← List.map_id s.name]
    exact List.map_congr_left fun c hc => hl c (hsub c hc)

/-- no changelog has sources -/
theorem sources_not_changelog (a : SourceArgs) (s : Section) : HasSources a s → ¬ IsChangelog s := by
  intro h hc
  have hc : Sections.normalizedId s = s% "changelog" := hc
  rcases h with h | h
  · unfold Called at h
    rw [hc, lower_word (by decide +kernel) (by decide +kernel)] at h
    revert h
    decide +kernel
  · have ha : a.id = s% "patchlist" ∨ a.id = s% "sourcelist" := by
      unfold SourceArgs.id
      split
      · exact .inl rfl
      · exact .inr rfl
    rcases ha with ha | ha
    · rw [normalized_same (h.trans ha) (by decide +kernel) (by decide +kernel)] at hc
      revert hc
      decide +kernel
    · rw [normalized_same (h.trans ha) (by decide +kernel) (by decide +kernel)] at hc
      revert hc
      decide +kernel

theorem called_apart {n m : Str} (h : Uni.lower n ≠ Uni.lower m) (s : Section) : Called n s → ¬ Called m s :=
  fun h1 h2 => h (h1.symm.trans h2)

/-- C99: sources or patches can be changed before or after a changelog entry is added. -/
theorem C99_sources_entry_partial {lines : List Str} {ss : Sections} (hp : Sections.parse (W.oracle lines) lines = .ok ss)
    (hg : GoodSections ss) (a : SourceArgs) (body : Sources → Sources × Except Err α) (env : List Str → Env) (entry : List Str)
    (args : Args) (h1 : Unrelated W lines ss (sourcesBlock W a lines body) (fun l => addLoop (env l) entry args))
    (h2 : Unrelated W lines ss (addLoop (env lines) entry args) (fun l => sourcesBlock W a l body)) :
    ∃ ss', MadeOf (HasSources a) IsChangelog ss (sourcesBlock W a lines body ss).1 (addLoop (env lines) entry args ss).1 ss' ∧
      addChangelogEntry W env entry args (withSources W a lines body).1 =
        (Sections.raw ss', (addChangelogEntry W env entry args lines).2) ∧
      withSources W a (addChangelogEntry W env entry args lines).1 body = (Sections.raw ss', (withSources W a lines body).2) :=
  C99_operations_partial (f := fun l => sourcesBlock W a l body) (g := fun l => addLoop (env l) entry args) hp hg
    (sourcesBlock_local W a lines body) (addLoop_local _ _ _) (sources_not_changelog a) h1 h2

/-- C99: tags of the preamble can be set before or after a changelog entry is added, unless the entry depends on them. -/
theorem C99_tags_entry_partial {lines : List Str} {ss : Sections} (hp : Sections.parse (W.oracle lines) lines = .ok ss)
    (hg : GoodSections ss) (body : Tags → Tags × Except Err α) (env : List Str → Env) (entry : List Str)
    (args : Args) (h1 : Unrelated W lines ss (inTags W lines (s% "package") body) (fun l => addLoop (env l) entry args))
    (h2 : Unrelated W lines ss (addLoop (env lines) entry args) (fun l => inTags W l (s% "package") body)) :
    ∃ ss', MadeOf (Called (s% "package")) IsChangelog ss (inTags W lines (s% "package") body ss).1
        (addLoop (env lines) entry args ss).1 ss' ∧
      addChangelogEntry W env entry args (run W (.tags (s% "package") body) lines).1 =
        (Sections.raw ss', (addChangelogEntry W env entry args lines).2) ∧
      run W (.tags (s% "package") body) (addChangelogEntry W env entry args lines).1 =
        (Sections.raw ss', (run W (.tags (s% "package") body) lines).2) :=
  C99_operations_partial (f := fun l => inTags W l (s% "package") body) (g := fun l => addLoop (env l) entry args) hp hg
    (inTags_local W lines _ body) (addLoop_local _ _ _)
    (fun s h => sources_not_changelog ⟨true, false, false, 1⟩ s (.inl h)) h1 h2

/-- C99: sources or patches can be changed before or after `%prep`. -/
theorem C99_sources_prep_partial {lines : List Str} {ss : Sections} (hp : Sections.parse (W.oracle lines) lines = .ok ss)
    (hg : GoodSections ss) (a : SourceArgs) (body : Sources → Sources × Except Err α) (edit : Prep → Prep × Except Err β)
    (absent : Except Err β) (h1 : Unrelated W lines ss (sourcesBlock W a lines body) (fun _ => inPrep edit absent))
    (h2 : Unrelated W lines ss (inPrep edit absent) (fun l => sourcesBlock W a l body)) :
    ∃ ss', MadeOf (HasSources a) (Called (s% "prep")) ss (sourcesBlock W a lines body ss).1 (inPrep edit absent ss).1 ss' ∧
      run W (.prep edit absent) (withSources W a lines body).1 = (Sections.raw ss', (run W (.prep edit absent) lines).2) ∧
      withSources W a (run W (.prep edit absent) lines).1 body = (Sections.raw ss', (withSources W a lines body).2) := by
  refine C99_operations_partial (f := fun l => sourcesBlock W a l body) (g := fun _ => inPrep edit absent) hp hg
    (sourcesBlock_local W a lines body) (inPrep_local _ _) (fun s h hc => ?_) h1 h2
  unfold Called at hc
  rw [lower_word (s := s% "prep") (by decide +kernel) (by decide +kernel)] at hc
  rcases h with h | h
  · unfold Called at h
    rw [hc, lower_word (by decide +kernel) (by decide +kernel)] at h
    revert h
    decide +kernel
  · have ha : a.id = s% "patchlist" ∨ a.id = s% "sourcelist" := by
      unfold SourceArgs.id
      split
      · exact .inl rfl
      · exact .inr rfl
    rcases ha with ha | ha
    · rw [normalized_same (h.trans ha) (by decide +kernel) (by decide +kernel)] at hc
      revert hc
      decide +kernel
    · rw [normalized_same (h.trans ha) (by decide +kernel) (by decide +kernel)] at hc
      revert hc
      decide +kernel

end

section
attribute [local instance] asciiUni

/-- a spec file with a patch and a changelog -/
def orderSpec : List Str := s% "Name: a" :: s% "Patch1: p" :: blockSpec.drop 2

theorem order_sections : Sections.parse (patchWorld.oracle orderSpec) orderSpec =
    .ok (preambleOf (orderSpec.take 2) :: blockSections) := by decide +kernel

theorem order_good : GoodSections (preambleOf (orderSpec.take 2) :: blockSections) := by
  obtain ⟨_, _, h, _, h2⟩ := block_good
  simp only [List.cons.injEq] at h
  exact ⟨_, _, rfl, block_plain (by decide +kernel) (by decide +kernel), by rw [h.2]; exact h2⟩

/-- lines without headers or macro definitions that are written -/
theorem order_unrelated {α β : Type} {W : World} {lines : List Str} {ss : Sections} {f : Sections → Sections × Except Err α}
    {g : List Str → Sections → Sections × Except Err β}
    (h : ∀ s ∈ (f ss).1, ∀ l ∈ s.data, '\n' ∉ l ∧ Sections.isHeader l = false)
    (h' : ∀ s ∈ (f ss).1, ∀ l ∈ s.data, ∀ c ∈ l, isLineBreak c = false)
    (ho : ∀ l ∈ Sections.raw (f ss).1, ¬ (s% "global" <:+: l ∨ s% "define" <:+: l))
    (ha : ∀ ss', g (Sections.raw (f ss).1) ss' = g lines ss') : Unrelated W lines ss f g where
  text s hs := block_plain (h s hs) (h' s hs)
  outside := C19_headers_outside _ ho
  alike := ha

/-- what is done with patches -/
def orderPatch (s : Sources) : Sources × Except Err Unit :=
  ((s.addPatch (s% "q") none none 1).1, result () (s.addPatch (s% "q") none none 1).2)

/-- the arguments for an entry -/
def orderArgs : Args := ⟨some (s% "B"), none, some ⟨0, 0, 8, 2024, none⟩, some (s% "1-2")⟩

/-- the hypotheses of `C99_sources_entry_partial`: a patch and an entry are added -/
example : ∃ ss', addChangelogEntry patchWorld sampleEnv [s% "- new"] orderArgs
        (addPatch patchWorld (s% "q") none none 1 1 orderSpec).1 = (Sections.raw ss', .ok ()) ∧
      addPatch patchWorld (s% "q") none none 1 1
        (addChangelogEntry patchWorld sampleEnv [s% "- new"] orderArgs orderSpec).1 = (Sections.raw ss', .ok ()) := by
  obtain ⟨ss', -, h1, h2⟩ := C99_sources_entry_partial order_sections order_good ⟨true, false, false, 1⟩ orderPatch sampleEnv
    [s% "- new"] orderArgs
    (order_unrelated (by decide +kernel) (by decide +kernel) (by decide +kernel) (fun _ => rfl))
    (order_unrelated (by decide +kernel) (by decide +kernel) (by decide +kernel) (fun _ => rfl))
  refine ⟨ss', h1.trans ?_, h2.trans ?_⟩
  · rw [show (addChangelogEntry patchWorld sampleEnv [s% "- new"] orderArgs orderSpec).2 = .ok () by decide +kernel]
  · rw [show (withSources patchWorld ⟨true, false, false, 1⟩ orderSpec orderPatch).2 = .ok () by decide +kernel]

/-- the hypotheses of `C99_tags_entry_partial` and of `C99_sources_prep_partial` -/
example : Unrelated patchWorld orderSpec (preambleOf (orderSpec.take 2) :: blockSections)
      (inTags patchWorld orderSpec (s% "package") (assignTag (s% "name") (s% "b")))
      (fun l => addLoop (sampleEnv l) [s% "- new"] orderArgs) ∧
    Unrelated patchWorld orderSpec (preambleOf (orderSpec.take 2) :: blockSections)
      (sourcesBlock patchWorld ⟨true, false, false, 1⟩ orderSpec orderPatch)
      (fun _ => inPrep (fun p => ({ p with remainder := p.remainder ++ [s% "make"] }, .ok ())) (.ok ())) ∧
    Unrelated patchWorld orderSpec (preambleOf (orderSpec.take 2) :: blockSections)
      (inPrep (fun p => ({ p with remainder := p.remainder ++ [s% "make"] }, .ok ())) (.ok ()))
      (fun l => sourcesBlock patchWorld ⟨true, false, false, 1⟩ l orderPatch) :=
  ⟨order_unrelated (by decide +kernel) (by decide +kernel) (by decide +kernel) (fun _ => rfl),
    order_unrelated (by decide +kernel) (by decide +kernel) (by decide +kernel) (fun _ => rfl),
    order_unrelated (by decide +kernel) (by decide +kernel) (by decide +kernel) (fun _ => rfl)⟩

/-- an environment in which the version of the entry is that of the spec file -/
def versionEnv (lines : List Str) : Env :=
  { sampleEnv lines with expand := fun _ => .ok (if lines.contains (s% "Version: 1") then s% "1-1" else s% "2-1") }

/-- C99 fails for a changelog entry with the current version: it is not the same before and after the version is set. -/
theorem C99_violation_version : ∃ (W : World) (env : List Str → Env) (lines : List Str) (args : Args),
    (addChangelogEntry W env [s% "- new"] args (setTag W (s% "version") (s% "2") lines).1).1 ≠
      (setTag W (s% "version") (s% "2") (addChangelogEntry W env [s% "- new"] args lines).1).1 :=
  ⟨sampleWorld, versionEnv, blockSpec, { orderArgs with evr := none }, by decide +kernel⟩

end
end Specfile.Props
