import Verif.Proof.SpecParser
/-
What parsing leaves unchanged, and what it does not depend on.
-/
namespace Specfile.SpecParser
open Py Spec

/-! ### the environment -/

theorem setEnv_same (env : Str → Option Str) (k : Str) (v : Option Str) : setEnv env k v k = v := by simp [setEnv]

theorem setEnv_ne (env : Str → Option Str) {k x : Str} (v : Option Str) (h : x ≠ k) : setEnv env k v x = env x := by
  simp [setEnv, h]

theorem restore_some (old env : Str → Option Str) (k : Str) (h : env k ≠ none) :
    restore old env k = .ok (setEnv env k (old k)) := by
  unfold restore
  cases e : old k with
  | some v => rfl
  | none =>
    cases e' : env k with
    | none => exact absurd e' h
    | some => rfl

/-- a body that keeps the two variables defined finds its other changes kept and the two variables restored -/
theorem sanitize_spec {α : Type} (body : World → World × Except Err α) (w : World)
    (h1 : (body (inCLocale w)).1.env (s% "LANG") ≠ none) (h2 : (body (inCLocale w)).1.env (s% "LC_ALL") ≠ none) :
    sanitize body w =
      (⟨(body (inCLocale w)).1.table, (body (inCLocale w)).1.files,
        setEnv (setEnv (body (inCLocale w)).1.env (s% "LANG") (w.env (s% "LANG"))) (s% "LC_ALL") (w.env (s% "LC_ALL"))⟩,
        (body (inCLocale w)).2) := by
  unfold sanitize
  have e : (⟨w.table, w.files, setEnv (setEnv w.env (s% "LANG") (some (s% "C.UTF-8"))) (s% "LC_ALL")
    (some (s% "C.UTF-8"))⟩ : World) = inCLocale w := rfl
  rw [e]
  generalize hb : body (inCLocale w) = r at *
  obtain ⟨w', r⟩ := r
  simp only at h1 h2 ⊢
  rw [restore_some _ _ _ h1]
  simp only
  rw [restore_some _ _ _ (by rw [setEnv_ne _ _ (by decide)]; exact h2)]

theorem sanitize_runRpm (E : Env) (content : Str) (forced : Bool) (w : World) :
    sanitize (runRpm E content forced) w =
      (⟨(E.build content forced (inCLocale w)).1, w.files, w.env⟩, (E.build content forced (inCLocale w)).2) := by
  rw [sanitize_spec]
  · simp only [runRpm]
    congr 2
    funext x
    by_cases h1 : x = s% "LC_ALL"
    · subst h1; rw [setEnv_same]
    · rw [setEnv_ne _ _ h1]
      by_cases h2 : x = s% "LANG"
      · subst h2; rw [setEnv_same]
      · rw [setEnv_ne _ _ h2]
        simp only [inCLocale, h1, h2, if_false]
  · simp [runRpm, inCLocale]
  · simp [runRpm, inCLocale]

theorem getRpmSpec_keeps [Uni] (E : Env) (inp : Inputs) (extra : List (Str × Option Str)) (content : Str) (forced : Bool)
    (w : World) : (getRpmSpec E inp extra content forced w).1.env = w.env ∧
      (getRpmSpec E inp extra content forced w).1.files = w.files := by
  unfold getRpmSpec
  split
  · exact ⟨rfl, rfl⟩
  · split
    · rw [sanitize_runRpm]; exact ⟨rfl, rfl⟩
    · exact ⟨rfl, rfl⟩

/-- RPM is run with the two variables set -/
theorem getRpmSpec_eq [Uni] (E : Env) (inp : Inputs) (extra : List (Str × Option Str)) (content : Str) (forced : Bool)
    (w : World) (T : Macros.Table) (hp : prepare E inp extra w.table = (T, none)) (he : E.encodable content = true) :
    getRpmSpec E inp extra content forced w =
      (⟨(E.build content forced (inCLocale ⟨T, w.files, w.env⟩)).1, w.files, w.env⟩,
        asRpm (E.build content forced (inCLocale ⟨T, w.files, w.env⟩)).2) := by
  unfold getRpmSpec
  rw [hp]
  simp only [he, if_true, sanitize_runRpm]

theorem withDummies_env {α : Type} (F : Faults) (sources nonEmpty : List Str)
    (body : List Str → World → World × Except Err α) (w : World) (hb : ∀ l w, (body l w).1.env = w.env) :
    (withDummies F sources nonEmpty body w).1.env = w.env := by
  unfold withDummies
  split
  · rfl
  · split
    · rfl
    · next fs made _ =>
      have := hb made { w with files := fs }
      split
      next w' r hbody =>
      rw [hbody] at this
      split
      · exact this
      · exact this

theorem retry_keeps [Uni] (E : Env) (inp : Inputs) (extra : List (Str × Option Str)) (content : Str) (made : List Str)
    (w : World) : (retry E inp extra content made w).1.env = w.env ∧
      (retry E inp extra content made w).1.files = w.files := by
  unfold retry
  split
  · exact ⟨rfl, rfl⟩
  · exact getRpmSpec_keeps ..

theorem fullParse_env [Uni] (E : Env) (inp : Inputs) (extra : List (Str × Option Str)) (content : Str)
    (sources nonEmpty : List Str) (tainted : Bool) (w : World) :
    (fullParse E inp extra content sources nonEmpty tainted w).1.env = w.env := by
  unfold fullParse
  exact withDummies_env _ _ _ _ _ (fun _ w => (getRpmSpec_keeps E inp extra content false w).1)

theorem doParse_env [Uni] (E : Env) (inp : Inputs) (extra : List (Str × Option Str)) (content : Str) (w : World) :
    (doParse E inp extra content w).1.env = w.env := by
  have h0 := (getRpmSpec_keeps E inp extra content true w).1
  unfold doParse
  split
  · next w' spec h => rw [fullParse_env, ← h0, h]
  · next w' h =>
    rw [h] at h0
    split
    · unfold forcedParse
      split
      · exact h0
      · next sources nonEmpty hc =>
        split
        · exact h0
        · have h1 := withDummies_env E.faults sources nonEmpty (retry E inp extra content) w'
            (fun l w => (retry_keeps E inp extra content l w).1)
          split
          · next h2 => rw [h2] at h1; rw [h1]; exact h0
          · next h2 => rw [h2] at h1; rw [fullParse_env, h1]; exact h0
    · exact h0
  · next h => rw [h] at h0; exact h0

/-! ### the source directory -/

theorem fullParse_files [Uni] (E : Env) (hF : Benign E.faults) (inp : Inputs) (extra : List (Str × Option Str))
    (content : Str) (sources nonEmpty : List Str) (tainted : Bool) (w : World) (hw : NoDangling w.files) :
    (fullParse E inp extra content sources nonEmpty tainted w).1.files = w.files := by
  obtain ⟨made, -, h⟩ := withDummies_files hF sources nonEmpty (fun _ => getRpmSpec E inp extra content false) w hw
    (fun _ w => (getRpmSpec_keeps E inp extra content false w).2)
  unfold fullParse
  rw [h]

theorem doParse_files [Uni] (E : Env) (hF : Benign E.faults) (inp : Inputs) (extra : List (Str × Option Str))
    (content : Str) (w : World) (hw : NoDangling w.files) : (doParse E inp extra content w).1.files = w.files := by
  have h0 := (getRpmSpec_keeps E inp extra content true w).2
  unfold doParse
  split
  · next w' spec h =>
    rw [h] at h0
    rw [fullParse_files E hF _ _ _ _ _ _ _ (by rw [h0]; exact hw)]; exact h0
  · next w' h =>
    rw [h] at h0
    simp only at h0
    split
    · unfold forcedParse
      split
      · exact h0
      · next sources nonEmpty hc =>
        split
        · exact h0
        · obtain ⟨made, -, h1⟩ := withDummies_files hF sources nonEmpty (retry E inp extra content) w'
            (by rw [h0]; exact hw) (fun l w => (retry_keeps E inp extra content l w).2)
          split
          · next h2 => rw [h2] at h1; rw [(congrArg (·.1.files) h1)]; exact h0
          · next h2 =>
            rw [h2] at h1
            have h3 := congrArg (·.1.files) h1
            simp only at h3
            rw [fullParse_files E hF _ _ _ _ _ _ _ (by rw [h3, h0]; exact hw), h3]; exact h0
    · exact h0
  · next h => rw [h] at h0; exact h0

/-! ### the macro context -/

theorem getRpmSpec_table [Uni] (E : Env) (inp : Inputs) (extra : List (Str × Option Str)) (content : Str) (forced : Bool)
    (w : World) (T : Macros.Table) : getRpmSpec E inp extra content forced { w with table := T } =
      getRpmSpec E inp extra content forced w := rfl

theorem doParse_table [Uni] (E : Env) (inp : Inputs) (extra : List (Str × Option Str)) (content : Str)
    (w : World) (T : Macros.Table) : doParse E inp extra content { w with table := T } = doParse E inp extra content w := by
  unfold doParse
  rw [getRpmSpec_table]

/-- parsing again gives the same -/
theorem doParse_again [Uni] (E : Env) (inp : Inputs) (extra : List (Str × Option Str))
    (content : Str) (w w' : World) (h1 : w'.files = w.files) (h2 : w'.env = w.env) :
    doParse E inp extra content w' = doParse E inp extra content w := by
  obtain ⟨T, fs, env⟩ := w'
  obtain ⟨T', fs', env'⟩ := w
  simp only at h1 h2
  subst h1 h2
  exact doParse_table E inp extra content ⟨T', fs, env⟩ T

end Specfile.SpecParser
