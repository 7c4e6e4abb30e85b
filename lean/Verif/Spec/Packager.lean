import Verif.Model.Packager
/-
How the packager is found.
-/
namespace Specfile.Spec
open Py Packager

/-- `t` is `s` without the whitespace around it -/
def Stripped (s t : Str) : Prop :=
  ∃ a b, s = a ++ t ++ b ∧ (∀ c ∈ a ++ b, isSpace c = true) ∧ (∀ c ∈ t.head?, isSpace c = false) ∧
    ∀ c ∈ t.getLast?, isSpace c = false

/-- the name of the user: the full name, or else the login name -/
def UserName (h : Host) (x : Str) : Prop :=
  ∃ u g, h.user = .ok u ∧ h.gecos u = .ok g ∧ ((g ≠ [] ∧ x = g) ∨ (g = [] ∧ x = u))

/-- the user's name or e-mail address as configured in git; empty if they are not configured or git is not installed -/
def Configured (h : Host) (key x : Str) : Prop :=
  (h.git = none ∧ x = []) ∨ ∃ config, h.git = some config ∧ Stripped (config key) x

/-- Where the packager comes from: the environment, else the macro `%packager`, else name and e-mail address, where the
name comes from git, else from the user database. -/
inductive PackagerIs (h : Host) : Str → Prop
  | environment {v} : h.variable_ = some v → PackagerIs h v
  | macro_ {p} : h.variable_ = none → h.expand (s% "%packager") = .ok p → p ≠ s% "%packager" → PackagerIs h p
  | full {e n} : h.variable_ = none → h.expand (s% "%packager") = .ok (s% "%packager") →
      Configured h (s% "user.email") e → e ≠ [] → Configured h (s% "user.name") n → n ≠ [] →
      PackagerIs h (n ++ s% " <" ++ e ++ s% ">")
  | nameOnly {n} : h.variable_ = none → h.expand (s% "%packager") = .ok (s% "%packager") →
      Configured h (s% "user.email") [] → Configured h (s% "user.name") n → n ≠ [] → PackagerIs h n
  | userFull {e n} : h.variable_ = none → h.expand (s% "%packager") = .ok (s% "%packager") →
      Configured h (s% "user.email") e → e ≠ [] → Configured h (s% "user.name") [] → UserName h n → n ≠ [] →
      PackagerIs h (n ++ s% " <" ++ e ++ s% ">")
  | userOnly {n} : h.variable_ = none → h.expand (s% "%packager") = .ok (s% "%packager") →
      Configured h (s% "user.email") [] → Configured h (s% "user.name") [] → UserName h n → PackagerIs h n
  | emailOnly {e} : h.variable_ = none → h.expand (s% "%packager") = .ok (s% "%packager") →
      Configured h (s% "user.email") e → e ≠ [] → Configured h (s% "user.name") [] → UserName h [] → PackagerIs h e

end Specfile.Spec
