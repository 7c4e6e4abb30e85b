import Verif.Proof.Url
/-
C91: remote sources.
-/
namespace Specfile.Props
open Py Spec Url

/-- C91: a source is remote exactly if its expanded location is a URL with a scheme and a host, unless the host is malformed. -/
theorem C91_remote_partial (ch : Checks) (location : Str) :
    remote ch (some location) = .ok true ↔
      ∃ host, UrlWith location host ∧ host ≠ [] ∧ ¬ BadHost ch.bracketed ch.normalized host := by
  unfold remote
  simp only [Option.getD_some]
  constructor
  · intro h
    split at h
    · cases h
    · rename_i hm
      simp only [Except.ok.injEq, Bool.and_eq_true, Bool.not_eq_true', List.isEmpty_eq_false_iff] at h
      rcases scheme_or (clean location) with ⟨s, r, h1, h2⟩ | hn
      · rw [h1, splitScheme_of h2] at h hm
        refine ⟨netloc r, ⟨_, s, r, urlText_iff.2 rfl, h1, h2, ?_⟩, h.2, fun hb => hm (malformed_iff.2 hb)⟩
        by_cases hp : s% "//" <+: r
        · exact hostOf_of hp
        · exact absurd (netloc_nil hp) h.2
      · rw [splitScheme_none hn] at h
        exact absurd rfl h.1
  · rintro ⟨host, ⟨text, s, r, h1, h2, h3, h4⟩, hne, hb⟩
    rw [← urlText_iff.1 h1, h2, splitScheme_of h3]
    simp only [hostOf_netloc h4]
    rw [if_neg (fun hm => hb (malformed_iff.1 hm))]
    have : s ≠ [] := by
      rintro rfl
      obtain ⟨⟨c, hc, _⟩, _⟩ := h3
      simp at hc
    simp [hne, this]

/-- C91: the only error is `ValueError`; it is raised exactly if there is a malformed host, also without a scheme. A location
that cannot be expanded is not remote. -/
theorem C91_raises (ch : Checks) (location : Str) (e : Err) :
    (remote ch (some location) = .error e ↔ e = .valueError ∧
      ∃ host, HasHost location host ∧ BadHost ch.bracketed ch.normalized host) ∧
    remote ch none = .ok false := by
  refine ⟨?_, rfl⟩
  have key : ∀ b, HasHost location b → netloc (splitScheme (clean location)).2 = b := by
    rintro b (⟨text, s, r, h1, h2, h3, h4⟩ | ⟨text, h1, h2⟩)
    · rw [← urlText_iff.1 h1, h2, splitScheme_of h3]; exact hostOf_netloc h4
    · rw [← urlText_iff.1 h1, splitScheme_none (hostOf_no_scheme h2)]; exact hostOf_netloc h2
  unfold remote
  simp only [Option.getD_some]
  constructor
  · intro h
    split at h
    · rename_i hm
      refine ⟨by simpa using h.symm, _, ?_, malformed_iff.1 hm⟩
      have hb := malformed_iff.1 hm
      rcases scheme_or (clean location) with ⟨s, r, h1, h2⟩ | hn
      · rw [h1, splitScheme_of h2] at hb ⊢
        by_cases hp : s% "//" <+: r
        · exact .inl ⟨_, s, r, urlText_iff.2 rfl, h1, h2, hostOf_of hp⟩
        · simp only [netloc_nil hp] at hb
          exact absurd hb badHost_nil
      · rw [splitScheme_none hn] at hb ⊢
        by_cases hp : s% "//" <+: clean location
        · exact .inr ⟨_, urlText_iff.2 rfl, hostOf_of hp⟩
        · simp only [netloc_nil hp] at hb
          exact absurd hb badHost_nil
    · cases h
  · rintro ⟨rfl, host, h1, h2⟩
    rw [key host h1, if_pos (malformed_iff.2 h2)]

/-- C91 (violation): for a local file whose path starts with two slashes and has an opening bracket in the first directory,
`ValueError` is raised, whatever hosts are allowed. -/
theorem C91_violation (ch : Checks) : remote ch (some (s% "//[a/b.tar.gz")) = .error .valueError ∧
    ∀ host, ¬ UrlWith (s% "//[a/b.tar.gz") host := by
  constructor
  · have h : HostOf (s% "//[a/b.tar.gz") (s% "[a") := ⟨s% "/b.tar.gz", rfl, by decide, by decide⟩
    exact ((C91_raises ch _ _).1.2 ⟨rfl, _, .inr ⟨_, ⟨[], _, rfl, by simp, by decide, by decide⟩, h⟩, .unclosed (by decide) (by decide)⟩)
  · rintro host ⟨text, s, r, h1, h2, h3, -⟩
    rw [urlText_iff.1 h1] at h2
    have hh : HostOf (s% "//[a/b.tar.gz") (s% "[a") := ⟨s% "/b.tar.gz", rfl, by decide, by decide⟩
    have hc : clean (s% "//[a/b.tar.gz") = s% "//[a/b.tar.gz" := by decide
    rw [hc] at h2
    exact hostOf_no_scheme hh s r h2 h3

section
/-- takes every host -/
def anyHost : Checks := ⟨fun _ => true, fun _ => true⟩

example : remote anyHost (some (s% "https://example.org/a-1.0.tar.gz")) = .ok true := by decide
example : remote anyHost (some (s% "a-1.0.tar.gz")) = .ok false := by decide
example : remote anyHost (some (s% "file:///srv/a-1.0.tar.gz")) = .ok false := by decide
example : remote anyHost (some (s% "https://[::1]/a")) = .ok true := by decide
example : remote anyHost (some (s% "https://[::1/a")) = .error .valueError := by decide
example : remote anyHost (some (s% " ht\ntps://h")) = .ok true := by decide
example : UrlWith (s% "https://example.org/a") (s% "example.org") :=
  ⟨_, s% "https", s% "//example.org/a", ⟨[], _, rfl, by simp, by decide, rfl⟩, by decide, ⟨⟨'h', rfl, by decide⟩, by decide⟩,
    s% "/a", rfl, by decide, by decide⟩
example : BadHost (fun _ => true) (fun _ => true) (s% "[::1") := .unclosed (by decide) (by decide)
end

end Specfile.Props
