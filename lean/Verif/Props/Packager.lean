import Verif.Spec.Packager
import Verif.Proof.Stderr
import Verif.Model.Operations
/-
C87: how the packager is found.
-/
namespace Specfile.Props
open Py Spec Packager

theorem stripped_iff (s t : Str) : strip s = t ↔ Stripped s t := by
  have hl : s = s.takeWhile isSpace ++ lstrip s := List.takeWhile_append_dropWhile.symm
  have hh : ∀ c ∈ (lstrip s).head?, isSpace c = false := by
    intro c hc
    have := List.head?_dropWhile_not isSpace s
    rw [show (lstrip s).head? = (s.dropWhile isSpace).head? from rfl] at hc
    rw [hc] at this
    simpa using this
  constructor
  · rintro rfl
    obtain ⟨w, e, hw⟩ := Stderr.rstrip_parts (lstrip s)
    refine ⟨s.takeWhile isSpace, w, ?_, ?_, ?_, ?_⟩
    · unfold strip
      rw [List.append_assoc, ← e]
      exact hl
    · intro c hc
      rcases List.mem_append.1 hc with hc | hc
      · exact List.all_eq_true.1 List.all_takeWhile c hc
      · exact hw c hc
    · intro c hc
      apply hh
      rw [e, List.head?_append]
      unfold strip at hc
      rw [hc]; rfl
    · intro c hc
      unfold strip rstrip at hc
      rw [List.getLast?_reverse] at hc
      have := List.head?_dropWhile_not isSpace (lstrip s).reverse
      rw [hc] at this
      simpa using this
  · rintro ⟨a, b, rfl, h1, h2, h3⟩
    unfold strip
    have e1 : lstrip (a ++ t ++ b) = lstrip (t ++ b) := by
      unfold lstrip
      rw [List.append_assoc, List.dropWhile_append_of_pos (fun c hc => h1 c (by simp [hc]))]
    rw [e1]
    cases t with
    | nil =>
      have : lstrip ([] ++ b) = [] := by
        unfold lstrip
        rw [List.nil_append]
        have := List.dropWhile_append_of_pos (l₂ := []) (p := isSpace) (l₁ := b) (fun c hc => h1 c (by simp [hc]))
        simpa using this
      rw [this]; rfl
    | cons c cs =>
      have : lstrip ((c :: cs) ++ b) = (c :: cs) ++ b := by
        unfold lstrip
        rw [List.cons_append, List.dropWhile_cons_of_neg (by rw [h2 c rfl]; decide)]
      rw [this, Stderr.rstrip_append (fun c hc => h1 c (by simp [hc])), Stderr.rstrip_self h3]

/-- what is found, given what git says -/
theorem fromParts_ok (h : Host) (email fullname x : Str) : fromParts h email fullname = .ok x ↔
    ∃ n, ((fullname ≠ [] ∧ n = fullname) ∨ (fullname = [] ∧ UserName h n)) ∧
      ((n ≠ [] ∧ email ≠ [] ∧ x = n ++ s% " <" ++ email ++ s% ">") ∨ (email = [] ∧ x = n) ∨ (n = [] ∧ email ≠ [] ∧ x = email)) := by
  have hu : ∀ n, getentName h = .ok n ↔ UserName h n := by
    intro n
    unfold getentName UserName
    cases h1 : h.user with
    | error e => simp
    | ok u =>
      cases h2 : h.gecos u with
      | error e => simp [h2]
      | ok g => cases g <;> simp [h2, eq_comm]
  have tail : ∀ n : Str, (.ok (if !n.isEmpty && !email.isEmpty then n ++ s% " <" ++ email ++ s% ">"
      else if email.isEmpty then n else email) : Except Err Str) = .ok x ↔
      ((n ≠ [] ∧ email ≠ [] ∧ x = n ++ s% " <" ++ email ++ s% ">") ∨ (email = [] ∧ x = n) ∨ (n = [] ∧ email ≠ [] ∧ x = email)) := by
    intro n
    cases n <;> cases email <;> simp [eq_comm]
  unfold fromParts
  cases fullname with
  | nil =>
    simp only [List.isEmpty_nil, if_true, ne_eq, not_true_eq_false, false_and, true_and, false_or]
    cases hg : getentName h with
    | error e =>
      simp only [reduceCtorEq, false_iff]
      rintro ⟨n, hn, -⟩
      rw [← hu, hg] at hn; cases hn
    | ok n =>
      simp only
      rw [tail n]
      constructor
      · intro hx; exact ⟨n, (hu n).1 hg, hx⟩
      · rintro ⟨m, hm, hx⟩
        rw [← hu, hg] at hm
        cases hm
        exact hx
  | cons c cs =>
    simp only [List.isEmpty_cons, Bool.false_eq_true, if_false]
    have := tail (c :: cs)
    simp only [List.isEmpty_cons] at this
    rw [this]
    constructor
    · intro hx; exact ⟨c :: cs, .inl ⟨by simp, rfl⟩, hx⟩
    · rintro ⟨m, ⟨-, rfl⟩ | ⟨hm, -⟩, hx⟩
      · exact hx
      · simp at hm

/-- C87: the packager is the one that is found first in the documented places. -/
theorem C87_found (h : Host) (x : Str) : guessPackager h = .ok x ↔ PackagerIs h x := by
  -- the part that is configured in git
  have parts : ∃ email fullname, (∀ y, Configured h (s% "user.email") y ↔ y = email) ∧
      (∀ y, Configured h (s% "user.name") y ↔ y = fullname) ∧
      (match h.git with
        | none => fromParts h [] []
        | some config => fromParts h (strip (config (s% "user.email"))) (strip (config (s% "user.name")))) =
        fromParts h email fullname := by
    cases hg : h.git with
    | none => exact ⟨[], [], by simp [Configured, hg], by simp [Configured, hg], rfl⟩
    | some config =>
      exact ⟨_, _, fun y => by simp [Configured, hg, ← stripped_iff, eq_comm],
        fun y => by simp [Configured, hg, ← stripped_iff, eq_comm], rfl⟩
  obtain ⟨email, fullname, he, hn, hp⟩ := parts
  unfold guessPackager
  cases hv : h.variable_ with
  | some v =>
    simp only [Except.ok.injEq]
    constructor
    · rintro rfl; exact .environment hv
    · intro hx
      cases hx with
      | environment h1 => rw [hv] at h1; simpa using h1
      | _ h1 => rw [hv] at h1; cases h1
  | none =>
    simp only
    cases hm : h.expand (s% "%packager") with
    | error e =>
      simp only [reduceCtorEq, false_iff]
      intro hx
      cases hx with
      | environment h1 => rw [hv] at h1; cases h1
      | _ _ h1 => rw [hm] at h1; cases h1
    | ok p =>
      simp only
      by_cases hpk : p = s% "%packager"
      · subst hpk
        rw [if_neg (by simp)]
        refine Iff.trans (Eq.to_iff (congrArg (· = Except.ok x) hp)) ?_
        rw [fromParts_ok]
        constructor
        · rintro ⟨n, h1, h2⟩
          rcases h1 with ⟨h1, rfl⟩ | ⟨rfl, h1⟩
          · rcases h2 with ⟨_, h3, rfl⟩ | ⟨rfl, rfl⟩ | ⟨h3, _⟩
            · exact .full hv hm ((he _).2 rfl) h3 ((hn _).2 rfl) h1
            · exact .nameOnly hv hm ((he _).2 rfl) ((hn _).2 rfl) h1
            · exact absurd h3 h1
          · rcases h2 with ⟨h2, h3, rfl⟩ | ⟨rfl, rfl⟩ | ⟨rfl, h3, rfl⟩
            · exact .userFull hv hm ((he _).2 rfl) h3 ((hn _).2 rfl) h1 h2
            · exact .userOnly hv hm ((he _).2 rfl) ((hn _).2 rfl) h1
            · exact .emailOnly hv hm ((he _).2 rfl) h3 ((hn _).2 rfl) h1
        · intro hx
          cases hx with
          | environment h1 => rw [hv] at h1; cases h1
          | macro_ _ h1 h2 => rw [hm] at h1; cases h1; exact absurd rfl h2
          | full _ _ h1 h2 h3 h4 =>
            rw [he] at h1; rw [hn] at h3; subst h1 h3
            exact ⟨_, .inl ⟨h4, rfl⟩, .inl ⟨h4, h2, rfl⟩⟩
          | nameOnly _ _ h1 h3 h4 =>
            rw [he] at h1; rw [hn] at h3; subst h1 h3
            exact ⟨_, .inl ⟨h4, rfl⟩, .inr (.inl ⟨rfl, rfl⟩)⟩
          | userFull _ _ h1 h2 h3 h4 h5 =>
            rw [he] at h1; rw [hn] at h3; subst h1 h3
            exact ⟨_, .inr ⟨rfl, h4⟩, .inl ⟨h5, h2, rfl⟩⟩
          | userOnly _ _ h1 h3 h4 =>
            rw [he] at h1; rw [hn] at h3; subst h1 h3
            exact ⟨_, .inr ⟨rfl, h4⟩, .inr (.inl ⟨rfl, rfl⟩)⟩
          | emailOnly _ _ h1 h2 h3 h4 =>
            rw [he] at h1; rw [hn] at h3; subst h1 h3
            exact ⟨_, .inr ⟨rfl, h4⟩, .inr (.inr ⟨rfl, h2, rfl⟩)⟩
      · rw [if_pos (by simpa using hpk)]
        simp only [Except.ok.injEq]
        constructor
        · rintro rfl; exact .macro_ hv hm hpk
        · intro hx
          cases hx with
          | environment h1 => rw [hv] at h1; cases h1
          | macro_ _ h1 _ => rw [hm] at h1; simpa using h1
          | _ _ h1 => rw [hm] at h1; cases h1; exact absurd rfl hpk

/-- C87: exceptions come from the expansion of the macro, or from looking up the name of the user, which happens only if
no name is configured in git. The full claim is that there is none, but an empty result. -/
theorem C87_raises_partial (h : Host) (e : Err) (hg : guessPackager h = .error e) : h.variable_ = none ∧
    (h.expand (s% "%packager") = .error e ∨
      (h.expand (s% "%packager") = .ok (s% "%packager") ∧ Configured h (s% "user.name") [] ∧
        (h.user = .error e ∨ ∃ u, h.user = .ok u ∧ h.gecos u = .error e))) := by
  have key : ∀ email fullname, fromParts h email fullname = .error e →
      fullname = [] ∧ (h.user = .error e ∨ ∃ u, h.user = .ok u ∧ h.gecos u = .error e) := by
    intro email fullname hf
    unfold fromParts at hf
    cases fullname with
    | cons => simp at hf
    | nil =>
      refine ⟨rfl, ?_⟩
      simp only [List.isEmpty_nil, if_true] at hf
      unfold getentName at hf
      cases hu : h.user with
      | error e' => rw [hu] at hf; simp at hf; exact .inl (by rw [hf])
      | ok u =>
        rw [hu] at hf
        simp only at hf
        cases hc : h.gecos u with
        | error e' => rw [hc] at hf; simp at hf; exact .inr ⟨u, rfl, by rw [hc, hf]⟩
        | ok g => rw [hc] at hf; simp at hf
  unfold guessPackager at hg
  cases hv : h.variable_ with
  | some v => rw [hv] at hg; cases hg
  | none =>
    rw [hv] at hg
    refine ⟨rfl, ?_⟩
    simp only at hg
    cases hm : h.expand (s% "%packager") with
    | error e' => rw [hm] at hg; simp at hg; exact .inl (by rw [hg])
    | ok p =>
      rw [hm] at hg
      simp only at hg
      split at hg
      · cases hg
      · rename_i hp
        have hp : p = s% "%packager" := by simpa using hp
        subst hp
        right
        cases hgit : h.git with
        | none =>
          rw [hgit] at hg
          exact ⟨rfl, .inl ⟨hgit, rfl⟩, (key _ _ hg).2⟩
        | some config =>
          rw [hgit] at hg
          obtain ⟨k1, k2⟩ := key _ _ hg
          exact ⟨rfl, .inr ⟨config, hgit, (stripped_iff _ _).1 k1⟩, k2⟩

/-- a user without entry in the user database, as in a container -/
def unknownUser : Host := ⟨none, fun s => .ok s, some (fun k => if k = s% "user.email" then s% "a@b\n" else []),
  .ok (s% "1000"), fun _ => .error .keyError⟩

/-- C87 fails: if the user is unknown an exception is raised, even though the e-mail address has been found. -/
theorem C87_violation : guessPackager unknownUser = .error .keyError ∧
    Configured unknownUser (s% "user.email") (s% "a@b") := by
  refine ⟨by decide, .inr ⟨_, rfl, ?_⟩⟩
  rw [← stripped_iff]
  decide

example : PackagerIs ⟨none, fun s => .ok s, some (fun k => if k = s% "user.email" then s% "a@b\n" else s% "A\n"),
    .error .keyError, fun _ => .error .keyError⟩ (s% "A <a@b>") := by
  rw [← C87_found]
  decide

example : PackagerIs ⟨none, fun s => .ok s, none, .ok (s% "root"), fun _ => .ok []⟩ (s% "root") := by
  rw [← C87_found]
  decide

end Specfile.Props
