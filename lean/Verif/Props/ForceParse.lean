import Verif.Props.SpecParser
/-
C72: parsing a spec file whose included files do not exist.
-/
namespace Specfile.Props
open Py SpecParser Spec

theorem getRpmSpec_ok [Uni] {E : Env} {inp : Inputs} {extra : List (Str × Option Str)} {content : Str} {forced : Bool}
    {w : World} {spec : E.Spec} (h : (getRpmSpec E inp extra content forced w).2 = .ok spec) :
    ∃ T, prepare E inp extra w.table = (T, none) ∧
      (E.build content forced (inCLocale ⟨T, w.files, w.env⟩)).2 = .ok spec := by
  unfold getRpmSpec at h
  cases hp : prepare E inp extra w.table with
  | mk T o =>
    rw [hp] at h
    cases o with
    | some e => cases h
    | none =>
      simp only at h
      split at h
      · rw [sanitize_runRpm] at h
        refine ⟨T, rfl, ?_⟩
        simp only at h
        cases hb : (E.build content forced (inCLocale ⟨T, w.files, w.env⟩)).2 with
        | ok x => rw [hb] at h; exact h
        | error e => rw [hb] at h; cases e <;> cases h
      · cases h

theorem fullParse_ok [Uni] {E : Env} (hF : Benign E.faults) {inp : Inputs} {extra : List (Str × Option Str)} {content : Str}
    {sources nonEmpty : List Str} {tainted t : Bool} {w : World} (hw : NoDangling w.files) {spec : E.Spec}
    (h : (fullParse E inp extra content sources nonEmpty tainted w).2 = .ok (spec, t)) :
    t = tainted ∧ ∃ T, prepare E inp extra w.table = (T, none) ∧
      (E.build content false (inCLocale ⟨T, faked E.faults sources nonEmpty w.files, w.env⟩)).2 = .ok spec := by
  unfold fullParse at h
  obtain ⟨made, -, e⟩ := withDummies_files hF sources nonEmpty (fun _ => getRpmSpec E inp extra content false) w hw
    (fun _ w => (getRpmSpec_keeps E inp extra content false w).2)
  rw [e] at h
  simp only at h
  cases hr : (getRpmSpec E inp extra content false { w with files := faked E.faults sources nonEmpty w.files }).2 with
  | error e => rw [hr] at h; cases h
  | ok x =>
    rw [hr] at h
    cases h
    exact ⟨rfl, getRpmSpec_ok hr⟩

/-- The result of a successful parse was built by RPM without the flag to ignore missing sources, in the prepared
macro context and the C locale, with dummies for sources that do not exist. It is marked as tainted exactly if the
first attempt had failed, which requires `force_parse`. Then RPM has told the sources when there were dummies for the
collected files, and at least one of these files had been missing. -/
theorem C72_result_partial [Uni] (E : Env) (hF : Benign E.faults) (inp : Inputs) (extra : List (Str × Option Str))
    (content : Str) (w : World) (hw : NoDangling w.files) (spec : E.Spec) (t : Bool)
    (h : (doParse E inp extra content w).2 = .ok (spec, t)) :
    (t = true ↔ (getRpmSpec E inp extra content true w).2 = .error .rpmException) ∧ (t = true → inp.force = true) ∧
    ∃ T sources nonEmpty, prepare E inp extra w.table = (T, none) ∧
      (E.build content false (inCLocale ⟨T, faked E.faults sources nonEmpty w.files, w.env⟩)).2 = .ok spec ∧
      (t = false → nonEmpty = [] ∧
        ∃ spec', (E.build content true (inCLocale ⟨T, w.files, w.env⟩)).2 = .ok spec' ∧ sources = E.sources spec') ∧
      (t = true → ∃ collected spec',
        collect E inp (E.build content true (inCLocale ⟨T, w.files, w.env⟩)).1 content = .ok (collected, nonEmpty) ∧
        (E.build content true (inCLocale ⟨T, faked E.faults collected nonEmpty w.files, w.env⟩)).2 = .ok spec' ∧
        (∃ n, w.files n = none ∧ faked E.faults collected nonEmpty w.files n ≠ none) ∧
        ∀ n, n ∈ sources ↔ n ∈ E.sources spec' ∧ n ∉ nonEmpty) := by
  unfold doParse at h
  have hk := getRpmSpec_keeps E inp extra content true w
  cases h1 : getRpmSpec E inp extra content true w with
  | mk w1 r =>
    rw [h1] at h hk
    obtain ⟨T1, fs1, env1⟩ := w1
    simp only at hk
    obtain ⟨rfl, rfl⟩ := hk
    cases r with
    | ok spec1 =>
      simp only at h
      obtain ⟨rfl, T, hp, hb⟩ := fullParse_ok (w := ⟨T1, w.files, w.env⟩) hF hw h
      obtain ⟨T', hp', hb'⟩ := getRpmSpec_ok (congrArg (·.2) h1)
      have hp'' : prepare E inp extra w.table = (T, none) := hp
      rw [hp''] at hp'
      cases hp'
      exact ⟨by simp, by simp, T, E.sources spec1, [], hp'', hb, fun _ => ⟨rfl, spec1, hb', rfl⟩, by simp⟩
    | error e =>
      cases e <;> first | cases h | skip
      simp only at h
      cases hf : inp.force with
      | false => rw [hf] at h; cases h
      | true =>
        rw [hf] at h
        simp only [if_true] at h
        unfold forcedParse at h
        simp only at h
        split at h
        · cases h
        · next sources nonEmpty hc =>
          split at h
          · cases h
          · obtain ⟨made, hmade, hd⟩ := withDummies_files hF sources nonEmpty (retry E inp extra content)
              ⟨T1, w.files, w.env⟩ hw (fun l w => (retry_keeps E inp extra content l w).2)
            have he := withDummies_env E.faults sources nonEmpty (retry E inp extra content)
              ⟨T1, w.files, w.env⟩ (fun l w => (retry_keeps E inp extra content l w).1)
            split at h
            · cases h
            · next w2 spec2 h2 =>
              have hf2 : w2.files = w.files := by
                have := congrArg (·.1.files) hd
                rw [h2] at this
                exact this
              have he2 : w2.env = w.env := by rw [h2] at he; exact he
              obtain ⟨rfl, T, hp, hb⟩ := fullParse_ok hF (by rw [hf2]; exact hw) h
              rw [hf2, he2] at hb
              have hp0 : prepare E inp extra w.table = (T, none) := hp
              have hT1 : T1 = (E.build content true (inCLocale ⟨T, w.files, w.env⟩)).1 := by
                unfold getRpmSpec at h1
                rw [hp0] at h1
                simp only at h1
                split at h1
                · rw [sanitize_runRpm] at h1
                  simp only [Prod.mk.injEq] at h1
                  exact (congrArg (·.table) h1.1).symm
                · simp at h1
              have hr : (retry E inp extra content made
                  ⟨T1, faked E.faults sources nonEmpty w.files, w.env⟩).2 = .ok spec2 := by
                rw [hd] at h2
                exact congrArg (·.2) h2
              unfold retry at hr
              split at hr
              · cases hr
              · rename_i hne
                obtain ⟨T', hp', hb'⟩ := getRpmSpec_ok hr
                have : T' = T := by
                  have hp'' : prepare E inp extra w.table = (T', none) := hp'
                  rw [hp0] at hp''; cases hp''; rfl
                subst this
                refine ⟨by simp, fun _ => rfl, T', _, _, hp, hb, by simp, fun _ => ⟨sources, spec2, by rw [← hT1]; exact hc,
                  hb', ?_, ?_⟩⟩
                · cases made with
                  | nil => simp at hne
                  | cons n made =>
                    have hm := (hmade n).1 (.head _)
                    refine ⟨n, hm.1, ?_⟩
                    obtain ⟨h3, h4, h5⟩ := hm
                    have h3' : w.files n = none := h3
                    unfold faked
                    rw [h3']
                    rcases h4 with h4 | h4
                    · simp [h4, h5]
                    · by_cases h6 : Named sources n <;> simp [h4, h5, h6]
                · intro n
                  rw [List.mem_filter]
                  simp

/-- With `force_parse`, if all that RPM needs is that the collected files exist, and for the full parse also the
sources, which include the collected files, then parsing succeeds and the result is marked as tainted. -/
theorem C72_force_partial [Uni] (E : Env) (inp : Inputs) (extra : List (Str × Option Str)) (content : Str) (w : World)
    (hF : ∀ n, E.faults.write n = .none ∧ E.faults.unlink n = none) (hw : NoDangling w.files)
    (he : E.encodable content = true) (T : Macros.Table) (hp : prepare E inp extra w.table = (T, none))
    (hforce : inp.force = true)
    (hfirst : (E.build content true (inCLocale ⟨T, w.files, w.env⟩)).2 = .error .valueError)
    (sources nonEmpty : List Str)
    (hc : collect E inp (E.build content true (inCLocale ⟨T, w.files, w.env⟩)).1 content = .ok (sources, nonEmpty))
    (hmissing : ∃ n, Named (sources ++ nonEmpty) n ∧ w.files n = none)
    (hforced : ∀ files, NoDangling files → (∀ n, Named (sources ++ nonEmpty) n → files n ≠ none) →
      ∃ spec, (E.build content true (inCLocale ⟨T, files, w.env⟩)).2 = .ok spec ∧
        ∀ n, Named sources n → Named (E.sources spec) n)
    (hbuild : ∀ files files' spec, NoDangling files → (E.build content true (inCLocale ⟨T, files', w.env⟩)).2 = .ok spec →
      (∀ n, Named (E.sources spec) n ∨ Named nonEmpty n → files n ≠ none) →
      ∃ spec', (E.build content false (inCLocale ⟨T, files, w.env⟩)).2 = .ok spec') :
    ∃ spec, (doParse E inp extra content w).2 = .ok (spec, true) := by
  have hB : Benign E.faults := ⟨fun n => .inl (hF n).1, fun n => (hF n).2⟩
  have napp : ∀ (a b : List Str) n, Named (a ++ b) n ↔ Named a n ∨ Named b n := by
    intro a b n
    unfold Named
    constructor
    · rintro ⟨h, s, hs, e⟩
      rcases List.mem_append.1 hs with hs | hs
      · exact .inl ⟨h, s, hs, e⟩
      · exact .inr ⟨h, s, hs, e⟩
    · rintro (⟨h, s, hs, e⟩ | ⟨h, s, hs, e⟩)
      · exact ⟨h, s, List.mem_append_left _ hs, e⟩
      · exact ⟨h, s, List.mem_append_right _ hs, e⟩
  have hfaked : ∀ (a b : List Str) n, Named a n ∨ Named b n → faked E.faults a b w.files n ≠ none := by
    intro a b n h
    unfold faked
    split
    · simp
    · rcases h with h | h
      · rw [if_pos ⟨h, (hF n).1⟩]; simp
      · split
        · simp
        · rw [if_pos ⟨h, (hF n).1⟩]; simp
  have hdang : ∀ (a b : List Str), NoDangling (faked E.faults a b w.files) := by
    intro a b
    refine extends_noDangling ?_ hw
    intro n
    unfold faked
    cases hn : w.files n with
    | some e => exact .inl rfl
    | none =>
      simp only
      split
      · exact .inr ⟨trivial, _, rfl⟩
      · split
        · exact .inr ⟨trivial, _, rfl⟩
        · exact .inl rfl
  have h1 := getRpmSpec_eq E inp extra content true w T hp he
  rw [hfirst] at h1
  have hdo : doParse E inp extra content w = forcedParse E inp extra content
      ⟨(E.build content true (inCLocale ⟨T, w.files, w.env⟩)).1, w.files, w.env⟩ := by
    unfold doParse
    rw [h1]
    simp only [asRpm, hforce, if_true]
  rw [hdo]
  unfold forcedParse
  rw [show (collect E inp (World.table ⟨(E.build content true (inCLocale ⟨T, w.files, w.env⟩)).1, w.files, w.env⟩)
    content) = _ from hc]
  obtain ⟨n, hn, hnf⟩ := hmissing
  have hne : (sources.isEmpty && nonEmpty.isEmpty) = false := by
    obtain ⟨-, s, hs, -⟩ := hn
    cases sources <;> cases nonEmpty <;> first | rfl | simp at hs
  simp only [hne, Bool.false_eq_true, if_false]
  obtain ⟨made, hmade, hd⟩ := withDummies_files hB sources nonEmpty (retry E inp extra content)
    ⟨(E.build content true (inCLocale ⟨T, w.files, w.env⟩)).1, w.files, w.env⟩ hw
    (fun l w => (retry_keeps E inp extra content l w).2)
  have hmadene : made.isEmpty = false := by
    have := (hmade n).2 ⟨hnf, (napp _ _ _).1 hn, (hF n).1⟩
    cases made with
    | nil => cases this
    | cons a l => rfl
  obtain ⟨spec2, hb2, hs2⟩ := hforced (faked E.faults sources nonEmpty w.files)
    (hdang _ _) (fun n hn => hfaked _ _ n ((napp _ _ _).1 hn))
  have hr : retry E inp extra content made
      ⟨(E.build content true (inCLocale ⟨T, w.files, w.env⟩)).1, faked E.faults sources nonEmpty w.files, w.env⟩ =
      (⟨(E.build content true (inCLocale ⟨T, faked E.faults sources nonEmpty w.files, w.env⟩)).1,
        faked E.faults sources nonEmpty w.files, w.env⟩, .ok spec2) := by
    unfold retry
    rw [hmadene]
    simp only [Bool.false_eq_true, if_false]
    have := getRpmSpec_eq E inp extra content true ⟨(E.build content true (inCLocale ⟨T, w.files, w.env⟩)).1,
      faked E.faults sources nonEmpty w.files, w.env⟩ T hp he
    simp only at this
    rw [this, hb2]
    rfl
  simp only at hd
  rw [hr] at hd
  rw [hd]
  simp only
  unfold fullParse
  obtain ⟨made3, -, hd3⟩ := withDummies_files hB ((E.sources spec2).filter (fun s => !nonEmpty.contains s)) nonEmpty
    (fun _ => getRpmSpec E inp extra content false)
    ⟨(E.build content true (inCLocale ⟨T, faked E.faults sources nonEmpty w.files, w.env⟩)).1, w.files, w.env⟩ hw
    (fun _ w => (getRpmSpec_keeps E inp extra content false w).2)
  rw [hd3]
  obtain ⟨spec3, hb3⟩ := hbuild
    (faked E.faults ((E.sources spec2).filter (fun s => !nonEmpty.contains s)) nonEmpty w.files) _ spec2 (hdang _ _) hb2 (by
      intro n hn
      apply hfaked
      rcases hn with hn | hn
      · obtain ⟨h0, s, hs, e⟩ := hn
        by_cases hc : s ∈ nonEmpty
        · exact .inr ⟨h0, s, hc, e⟩
        · exact .inl ⟨h0, s, List.mem_filter.2 ⟨hs, by simp [hc]⟩, e⟩
      · exact .inr hn)
  refine ⟨spec3, ?_⟩
  have := congrArg (·.2) (getRpmSpec_eq E inp extra content false
    ⟨(E.build content true (inCLocale ⟨T, faked E.faults sources nonEmpty w.files, w.env⟩)).1,
      faked E.faults ((E.sources spec2).filter (fun s => !nonEmpty.contains s)) nonEmpty w.files, w.env⟩ T hp he)
  simp only at this
  simp only
  rw [this, hb3]
  rfl

/-! ### examples -/

section
attribute [local instance] asciiUni

instance : DecidableEq tinyEnv.Spec := inferInstanceAs (DecidableEq (List Str))

def tinyForce : Inputs := ⟨s% "/src", [], true⟩

/-- an included file that is also a source -/
example : ∃ spec, (doParse tinyEnv tinyForce [] (s% "%include a.inc") tinyWorld).2 = .ok (spec, true) := by
  refine C72_force_partial tinyEnv tinyForce [] _ _ (fun n => ⟨rfl, rfl⟩) tiny_noDangling (by decide +kernel)
    (prepare tinyEnv tinyForce [] tinyWorld.table).1 (Prod.ext rfl (by decide +kernel)) rfl (by decide +kernel)
    [s% "a.inc"] [] (by decide +kernel) ⟨s% "a.inc", ⟨by decide, s% "a.inc", by simp, by decide +kernel⟩, by decide +kernel⟩ ?_ ?_
  · intro files hd h
    have h1 : pathExists files (s% "a.inc") = true :=
      (pathExists_iff hd _).2 (h _ ⟨by decide, s% "a.inc", by simp, by decide +kernel⟩)
    refine ⟨[s% "https://example.org/a.gz", s% "a.inc"], ?_, ?_⟩
    · simp [tinyEnv, tinyBuild, inCLocale, h1, startsWith]
    · rintro n ⟨h0, s, hs, e⟩
      exact ⟨h0, s, by simp at hs; subst hs; decide +kernel, e⟩
  · intro files files' spec hd hb h
    have hspec : spec = [s% "https://example.org/a.gz", s% "a.inc"] := by
      simp [tinyEnv, tinyBuild, inCLocale, startsWith] at hb
      split at hb
      · cases hb
      · cases hb; rfl
    subst hspec
    have h1 : pathExists files (s% "a.inc") = true :=
      (pathExists_iff hd _).2 (h _ (.inl ⟨by decide, s% "a.inc", by decide +kernel, by decide +kernel⟩))
    have h2 : pathExists files (s% "a.gz") = true :=
      (pathExists_iff hd _).2 (h _ (.inl ⟨by decide, s% "https://example.org/a.gz", by decide +kernel, by decide +kernel⟩))
    exact ⟨[s% "https://example.org/a.gz", s% "a.inc"], by simp [tinyEnv, tinyBuild, inCLocale, h1, h2, startsWith]⟩

example : ∃ spec, (doParse tinyEnv tinyInputs [] (s% "v1") tinyWorld).2 = .ok (spec, false) :=
  ⟨[s% "https://example.org/a.gz", s% "b.xz"], by decide +kernel⟩

/-- the same RPM, but the included file is no source -/
def strictEnv : Env := { tinyEnv with
  build := fun _ _ w => (w.table,
    if !pathExists w.files (s% "a.inc") then .error .valueError
    else .ok [])
  sources := fun _ => [] }

/-- An included file that is not a source as well is missing again when RPM parses the spec file for the last time. -/
theorem C72_violation : (doParse strictEnv tinyForce [] (s% "%include a.inc") tinyWorld).2.map (·.2) = .error .rpmException ∧
    collect strictEnv tinyForce tinyConfig (s% "%include a.inc") = .ok ([s% "a.inc"], []) ∧
    ∀ T files env forced, pathExists files (s% "a.inc") = true →
      (strictEnv.build (s% "%include a.inc") forced ⟨T, files, env⟩).2 = .ok [] := by
  refine ⟨by decide +kernel, by decide +kernel, fun T files env forced h => ?_⟩
  simp [strictEnv, h]

end

end Specfile.Props
