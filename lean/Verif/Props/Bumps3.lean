import Verif.Props.Bumps2
/-
C103: calls of bump_release on a spec file with a macro definition that seems to define the release.
-/
namespace Specfile.Props
open Py Spec Update Ops Release

section
variable [Uni] {W : World}

/-- the definitions with this body -/
def withRelease (m : MacroDefinitions) (j : Nat) (v : Str) : MacroDefinitions :=
  ⟨m.data.modify j (fun x => { x with body := v }), m.remainder⟩

/-- a text with this body is read as it was made, and its release does not use `%autorelease` -/
structure BodyReady (W : World) (m : MacroDefinitions) (j : Nat) (d : MacroDefinition) (v : Str) : Prop where
  back : ReadsBack W (MacroDefinitions.raw (withRelease m j v))
  reads : DefinitionsRead W (withRelease m j v)
  body : Readable { d with body := v, valid := true }
  release : ∃ t rest k x ns, FileTags W (MacroDefinitions.raw (withRelease m j v)) t rest ∧ TagNamed (s% "release") t k ∧
    t.data[k]? = some x ∧ ValueParser.parse x.value = .ok ns ∧ ¬ ∃ n ∈ ns, Refers (s% "autorelease") n

omit [Uni] in
theorem modify_valid (l : List MacroDefinition) (j : Nat) (w : Str) :
    (l.modify j (fun x => { x with body := w })).map (fun t => { t with valid := true }) =
      (l.map (fun t => { t with valid := true })).modify j (fun x => { x with body := w }) := by
  apply List.ext_getElem?
  intro i
  simp only [List.getElem?_map, List.getElem?_modify]
  cases l[i]? with
  | none => rfl
  | some q =>
    simp only [Option.map_eq_map, Option.map_some]
    split <;> rfl

/-- one call -/
theorem bump_body_once {m : MacroDefinitions} (hm : ∀ d ∈ m.data, Readable { d with valid := true })
    (hr : ∀ l ∈ m.remainder, ¬ s% "global" <:+: l ∧ ¬ s% "define" <:+: l) {j : Nat} {d : MacroDefinition}
    (hd : m.data[j]? = some d) (hrel : ReleaseMacro d) (hf : ∀ (i : Nat) y, i < j → m.data[i]? = some y → ¬ ReleaseMacro y)
    {v : Str} (h : BodyReady W m j d v) :
    bumpRelease W (MacroDefinitions.raw (withRelease m j v)) = (MacroDefinitions.raw (withRelease m j (bump v)), .ok ()) := by
  obtain ⟨r1, ⟨m', r2⟩, r3, t, rest, k, x, ns, r4, r5, r6, r7, r8⟩ := h
  have hmv : ∀ d ∈ (withRelease m j v).data, Readable { d with valid := true } := by
    intro y hy
    obtain ⟨i, hi⟩ := List.getElem?_of_mem hy
    simp only [withRelease, List.getElem?_modify] at hi
    cases hq : m.data[i]? with
    | none => rw [hq] at hi; simp at hi
    | some q =>
      rw [hq] at hi
      simp only [Option.map_eq_map, Option.map_some, Option.some.injEq] at hi
      split at hi
      · rename_i hji
        rw [← hji, hd] at hq
        cases hq
        subst hi
        exact r3
      · subst hi
        exact hm _ (List.mem_of_getElem? hq)
  have hs := parse_allValid hmv (by exact hr) r2
  simp only [allValid, MacroDefinitions.mk.injEq] at hs
  have hmap : ∀ i : Nat, (m'.data[i]?).map (fun y => (y.name, y.body)) =
      ((withRelease m j v).data[i]?).map (fun y => (y.name, y.body)) := by
    intro i
    have e2 := congrArg (fun l => (l[i]?).map (fun y : MacroDefinition => (y.name, y.body))) hs.1
    simpa only [List.getElem?_map, Option.map_map, Function.comp_def] using e2
  have hj : (withRelease m j v).data[j]? = some { d with body := v } := by simp [withRelease, hd]
  obtain ⟨z, hz, hzn, hzb⟩ : ∃ z, m'.data[j]? = some z ∧ z.name = d.name ∧ z.body = v := by
    have e := hmap j
    rw [hj] at e
    cases hq : m'.data[j]? with
    | none => rw [hq] at e; cases e
    | some q =>
      rw [hq] at e
      simp only [Option.map_some, Option.some.injEq, Prod.mk.injEq] at e
      exact ⟨q, rfl, e.1, e.2⟩
  have hi : m'.data.findIdx? definesRelease = some j := by
    rw [List.findIdx?_eq_some_iff_getElem]
    obtain ⟨hlt, hz'⟩ := List.getElem?_eq_some_iff.1 hz
    refine ⟨hlt, ?_, fun i hi hc => ?_⟩
    · rw [hz', definesRelease_iff, ReleaseMacro, hzn]
      exact hrel
    · have hlt' : i < m'.data.length := by omega
      have e := hmap i
      rw [List.getElem?_eq_getElem hlt'] at e
      have hne : j ≠ i := by omega
      simp only [withRelease, List.getElem?_modify, if_neg hne, Option.map_eq_map, Option.map_id_fun', id_eq] at e
      cases hq : m.data[i]? with
      | none => rw [hq] at e; cases e
      | some q =>
        rw [hq] at e
        simp only [Option.map_some, Option.some.injEq, Prod.mk.injEq] at e
        refine hf i q hi hq ?_
        rw [definesRelease_iff, ReleaseMacro, e.1] at hc
        exact hc
  have hraw := rawRelease_named r4 r5 r6
  rw [r1.tags t rest r4] at hraw
  unfold bumpRelease
  rw [hraw]
  simp only [(C51_no_autorelease x.value).2 ⟨ns, r7, r8⟩, withMacros, r2, bumpMacros, hi]
  congr 1
  have hmod : m'.data.modify j (fun d => { d with body := bump d.body }) = m'.data.modify j (fun d => { d with body := bump v }) := by
    apply List.ext_getElem?
    intro i
    simp only [List.getElem?_modify]
    by_cases hij : j = i
    · subst hij
      simp [hz, hzb]
    · simp [hij]
  rw [hmod, ← raw_allValid, ← raw_allValid (withRelease m j (bump v))]
  congr 1
  have hagain : (withRelease m j v).data.modify j (fun d => { d with body := bump v }) =
      m.data.modify j (fun d => { d with body := bump v }) := by
    apply List.ext_getElem?
    intro i
    simp only [withRelease, List.getElem?_modify]
    cases m.data[i]? with
    | none => rfl
    | some q => by_cases hij : j = i <;> simp [hij]
  simp only [allValid]
  rw [modify_valid, hs.1, ← modify_valid, hagain, hs.2]
  rfl

/-- C103 for spec files with macro definitions that seem to define the release: the first of them is changed. No call of
bump_release raises, and after `n` calls the text is the one with the body that was bumped `n` times and everything else as
it was; what this body is says `C103_once_more_partial`. Missing: the definition need not be in effect
(`C75_bump_violation`). -/
theorem C103_macro_partial {lines : List Str} {m : MacroDefinitions}
    (h : MacroDefinitions.parse (W.oracle lines) true lines = .ok m) (hb : ReadsBack W lines)
    (hm : ∀ d ∈ m.data, Readable { d with valid := true })
    (hr : ∀ l ∈ m.remainder, ¬ s% "global" <:+: l ∧ ¬ s% "define" <:+: l) {j : Nat} {d : MacroDefinition}
    (hd : m.data[j]? = some d) (hrel : ReleaseMacro d) (hf : ∀ (i : Nat) y, i < j → m.data[i]? = some y → ¬ ReleaseMacro y)
    (n : Nat) (hn : ∀ i, i < n → BodyReady W m j d (bumps i d.body)) :
    bumpCalls W n lines =
      (MacroDefinitions.raw ⟨m.data.modify j (fun x => { x with body := bumps n d.body }), m.remainder⟩, .ok ()) := by
  induction n with
  | zero =>
    have : m.data.modify j (fun x => { x with body := d.body }) = m.data := by
      apply List.ext_getElem?
      intro i
      rw [List.getElem?_modify]
      by_cases hk : j = i
      · subst hk; simp [hd]
      · simp [hk]
    rw [bumpCalls, bumps, this, hb.macros m h]
  | succ n ih =>
    rw [bumpCalls, ih (fun i hi => hn i (by omega)), bumps_succ]
    exact bump_body_once hm hr hd hrel hf (hn n (by omega))

end

section
attribute [local instance] asciiUni

/-- a spec file with this release in a macro definition -/
def baseLines (v : Str) : List Str :=
  [s% "%global a 1", s% "%global baserelease " ++ v, s% "Name: x", s% "Release: %{baserelease}"]

/-- its tags -/
def baseTags (v : Str) : Tags :=
  ⟨[⟨s% "Name", s% "x", s% ": ", ⟨[], (baseLines v).take 2⟩, true, [], []⟩,
    ⟨s% "Release", s% "%{baserelease}", s% ": ", ⟨[], []⟩, true, [], []⟩], []⟩

/-- its macro definitions -/
def baseMacros (v : Str) : MacroDefinitions :=
  ⟨[⟨s% "a", s% "1", true, false, .dnl, [], [' '], [' '], [], [], true, []⟩,
    ⟨s% "baserelease", v, true, false, .dnl, [], [' '], [' '], [], [], true, []⟩], (baseLines v).drop 2⟩

theorem base_sections {v : Str} (hv : v = s% "7" ∨ v = s% "8") :
    Sections.parse (sampleWorld.oracle (baseLines v)) (baseLines v) = .ok [preambleOf (baseLines v)] := by
  rcases hv with rfl | rfl <;> decide +kernel

theorem base_parsed {v : Str} (hv : v = s% "7" ∨ v = s% "8") :
    Tags.parse sampleWorld.names (sampleWorld.oracle (baseLines v)) (baseLines v) = .ok (baseTags v) := by
  rcases hv with rfl | rfl <;> decide +kernel

theorem base_macros {v : Str} (hv : v = s% "7" ∨ v = s% "8") :
    MacroDefinitions.parse (sampleWorld.oracle (baseLines v)) true (baseLines v) = .ok (baseMacros v) := by
  rcases hv with rfl | rfl <;> decide +kernel

theorem base_back {v : Str} (hv : v = s% "7" ∨ v = s% "8") : ReadsBack sampleWorld (baseLines v) where
  macros := by
    intro m hm
    cases (base_macros hv).symm.trans hm
    rcases hv with rfl | rfl <;> decide +kernel
  sections := by
    intro ss hs
    cases (base_sections hv).symm.trans hs
    rcases hv with rfl | rfl <;> decide +kernel
  tags := by
    rintro t rest ⟨data, h1, h2⟩
    have h1 := (base_sections hv).symm.trans h1
    simp only [Except.ok.injEq, List.cons.injEq] at h1
    obtain ⟨h0, rfl⟩ := h1
    have hd : baseLines v = data := congrArg Section.data h0
    subst hd
    cases (base_parsed hv).symm.trans h2
    rcases hv with rfl | rfl <;> decide +kernel

theorem base_name : MacroName (s% "baserelease") := ⟨s% "baserelease", [], rfl, by decide, by decide, .inl rfl⟩

theorem base_ready {v : Str} (hv : v = s% "7" ∨ v = s% "8") :
    BodyReady sampleWorld (baseMacros (s% "7")) 1
      ⟨s% "baserelease", s% "7", true, false, .dnl, [], [' '], [' '], [], [], true, []⟩ v := by
  have htext : MacroDefinitions.raw (withRelease (baseMacros (s% "7")) 1 v) = baseLines v := by
    rcases hv with rfl | rfl <;> decide +kernel
  refine ⟨by rw [htext]; exact base_back hv, ⟨_, by rw [htext]; exact base_macros hv⟩, ?_, ?_⟩
  · rcases hv with rfl | rfl <;>
      exact plain_readable (preceding := []) base_name (by decide) (by decide +kernel) (by simp)
  · obtain ⟨ns, hp, ha⟩ := (C51_no_autorelease (s% "%{baserelease}")).1 (by decide +kernel)
    refine ⟨baseTags v, [], 1, _, ns, by rw [htext]; exact ⟨_, base_sections hv, base_parsed hv⟩, ?_, rfl, hp, ha⟩
    refine ⟨_, rfl, by decide +kernel, .inl ⟨rfl, ?_⟩⟩
    intro j x hj hx hn
    match j, hx with
    | 0, hx => cases hx; exact absurd hn (by show ¬ Uni.capitalize (s% "Name") = Uni.capitalize (s% "release"); decide +kernel)
    | j + 1, _ => omega

/-- the hypotheses of `C103_macro_partial` -/
example : bumpCalls sampleWorld 2 (baseLines (s% "7")) = (baseLines (s% "9"), .ok ()) := by
  have h1 : s% "7" = s% "7" ∨ s% "7" = s% "8" := .inl rfl
  rw [C103_macro_partial (W := sampleWorld) (base_macros h1) (base_back h1)
    (by
      intro d hd
      simp only [baseMacros, List.mem_cons, List.not_mem_nil, or_false] at hd
      rcases hd with rfl | rfl
      · exact plain_readable (preceding := []) ⟨s% "a", [], rfl, by decide, by decide, .inl rfl⟩ (by decide)
          (by decide +kernel) (by simp)
      · exact plain_readable (preceding := []) base_name (by decide) (by decide +kernel) (by simp))
    (noDefinition (by decide +kernel)) (j := 1) rfl (.inr (by decide +kernel))
    (by
      intro i y hi hy
      match i, hy with
      | 0, hy => cases hy; unfold ReleaseMacro; decide +kernel
      | i + 1, _ => omega) 2
    (by
      intro i hi
      match i, hi with
      | 0, _ => exact base_ready (.inl rfl)
      | 1, _ => exact base_ready (.inr (by decide +kernel)))]
  decide +kernel
end

end Specfile.Props
