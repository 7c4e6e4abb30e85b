import Verif.Proof.Collect
import Verif.Props.ForceParse
/-
C82: which files a forced parse makes up.
-/
namespace Specfile.Props
open Py SpecParser Spec

/-- a file that the spec file includes or loads -/
def Wanted [Uni] (E : Env) (inp : Inputs) (T : Macros.Table) (content name : Str) : Prop :=
  ∃ text, ((∃ args, Includes (splitlines content) args ∧ text ∈ args) ∨ Loads content text) ∧ LocatedAt E inp T text name

/-- a file to which a shell expansion in the value of a tag refers, and the value is empty without the file -/
def WantedByTag [Uni] (E : Env) (inp : Inputs) (T : Macros.Table) (content name : Str) : Prop :=
  ∃ tags, Tags.parse E.tagNames (fun _ s => E.rpm.expand T s) (splitlines content) = .ok tags ∧
    ∃ t ∈ tags.data, E.rpm.expand T t.value = .ok [] ∧ ∃ text, ShellRefers t.value text ∧ LocatedAt E inp T text name

/-- The collected files are exactly those in the source directory that are included, loaded, or needed by tags. -/
theorem C82_collect [Uni] (E : Env) (inp : Inputs) (T : Macros.Table) (content : Str) (sources nonEmpty : List Str)
    (h : collect E inp T content = .ok (sources, nonEmpty)) (n : Str) :
    (n ∈ sources ↔ Wanted E inp T content n) ∧ (n ∈ nonEmpty ↔ WantedByTag E inp T content n) := by
  unfold collect at h
  split at h
  · cases h
  · rename_i included hi
    split at h
    · cases h
    · rename_i loaded hl
      split at h
      · cases h
      · rename_i referenced hr
        cases h
        unfold includedSources at hi
        split at hi
        · cases hi
        · rename_i args ha
          unfold loadedSources at hl
          split at hl
          · cases hl
          · rename_i nodes hn
            unfold referencedSources at hr
            split at hr
            · cases hr
            · rename_i tags ht
              have hinc := fun a => includes_iff _ (Nat.le_refl _)
                (fun l hl hc => absurd (Text.oneLine_splitlines content l hl '\n' hc) (by decide)) (args := a)
              have ha' := (hinc args).mp ha
              constructor
              · rw [List.mem_append, addSources_mem hi n, addSources_mem hl n]
                constructor
                · rintro ((h | ⟨x, hx, hp⟩) | (h | ⟨x, hx, hp⟩))
                  · cases h
                  · exact ⟨x, .inl ⟨args, ha', hx⟩, hp⟩
                  · cases h
                  · exact ⟨x, .inr ⟨nodes, hn, loadArg_mem.mp hx⟩, hp⟩
                · rintro ⟨x, ⟨args', ha2, hx⟩ | ⟨nodes', hn', hx⟩, hp⟩
                  · have := (hinc args').mpr ha2
                    rw [ha] at this
                    cases this
                    exact .inl (.inr ⟨x, hx, hp⟩)
                  · rw [hn] at hn'
                    cases hn'
                    exact .inr (.inr ⟨x, loadArg_mem.mpr hx, hp⟩)
              · rw [tagSources_mem hr n]
                constructor
                · rintro (h | h)
                  · cases h
                  · exact ⟨tags, ht, h⟩
                · rintro ⟨tags', ht', h⟩
                  rw [ht] at ht'
                  cases ht'
                  exact .inr h

/-- what is expanded can be expanded, and the directory can be compared -/
def Locatable (E : Env) (inp : Inputs) (T : Macros.Table) (text : Str) : Prop :=
  ∃ p b, E.rpm.expand T text = .ok p ∧ E.inSourcedir inp.sourcedir p = .ok b

/-- Collecting does not raise if every `%include` is complete and everything can be parsed, expanded and located.
Missing: a last line with `%include` that ends in a backslash, see `C82_violation_backslash`. -/
theorem C82_succeeds_partial [Uni] (E : Env) (inp : Inputs) (T : Macros.Table) (content : Str) (args : List Str)
    (hi : Includes (splitlines content) args) (hia : ∀ a ∈ args, Locatable E inp T a)
    (nodes : List Node) (hn : ValueParser.parse content = .ok nodes) (hl : ∀ a, Loads content a → Locatable E inp T a)
    (tags : Tags) (ht : Tags.parse E.tagNames (fun _ s => E.rpm.expand T s) (splitlines content) = .ok tags)
    (hv : ∀ t ∈ tags.data, (∃ v, E.rpm.expand T t.value = .ok v) ∧ ∃ nodes, ValueParser.parse t.value = .ok nodes)
    (hr : ∀ t ∈ tags.data, ∀ r, ShellRefers t.value r → Locatable E inp T r) :
    ∃ sources nonEmpty, collect E inp T content = .ok (sources, nonEmpty) := by
  have hinc := (includes_iff _ (Nat.le_refl _)
    (fun l hl hc => absurd (Text.oneLine_splitlines content l hl '\n' hc) (by decide)) (args := args)).mpr hi
  obtain ⟨a, ha⟩ := addSources_ok (E := E) (inp := inp) (T := T) (found := []) hia
  obtain ⟨b, hb⟩ := addSources_ok (E := E) (inp := inp) (T := T) (found := [])
    (xs := (ValueParser.flatten nodes).filterMap loadArg) (fun x hx => hl x ⟨nodes, hn, loadArg_mem.mp hx⟩)
  obtain ⟨c, hc⟩ := tagSources_ok (E := E) (inp := inp) (T := T) (found := []) hv hr
  unfold collect includedSources loadedSources referencedSources
  simp only [hinc, ha, hn, hb, ht, hc]
  exact ⟨_, _, rfl⟩

/-- The result of a parse that succeeded by force only: RPM has accepted the spec file when the missing ones of
exactly these files were made up. -/
theorem C82_forced [Uni] (E : Env) (hF : Benign E.faults) (inp : Inputs) (extra : List (Str × Option Str))
    (content : Str) (w : World) (hw : NoDangling w.files) (spec : E.Spec)
    (h : (doParse E inp extra content w).2 = .ok (spec, true)) :
    ∃ T T' collected nonEmpty spec', prepare E inp extra w.table = (T, none) ∧
      T' = (E.build content true (inCLocale ⟨T, w.files, w.env⟩)).1 ∧
      (E.build content true (inCLocale ⟨T, faked E.faults collected nonEmpty w.files, w.env⟩)).2 = .ok spec' ∧
      (∀ n, n ∈ collected ↔ Wanted E inp T' content n) ∧ (∀ n, n ∈ nonEmpty ↔ WantedByTag E inp T' content n) ∧
      ∃ n, (Named collected n ∨ Named nonEmpty n) ∧ w.files n = none := by
  obtain ⟨-, -, T, sources, nonEmpty, hp, -, -, ht⟩ := C72_result_partial E hF inp extra content w hw spec true h
  obtain ⟨collected, spec', hc, hb, ⟨n, h1, h2⟩, -⟩ := ht rfl
  refine ⟨T, _, collected, nonEmpty, spec', hp, rfl, hb, fun n => (C82_collect _ _ _ _ _ _ hc n).1,
    fun n => (C82_collect _ _ _ _ _ _ hc n).2, n, ?_, h1⟩
  unfold faked at h2
  rw [h1] at h2
  simp only at h2
  split at h2
  · rename_i h3; exact .inl h3.1
  · split at h2
    · rename_i h3; exact .inr h3.1
    · exact absurd rfl h2

/-! ### examples -/

section
attribute [local instance] asciiUni

/-- RPM knows two sources, a shell expansion gives nothing -/
def collectRpm : Macros.Rpm where
  expand := fun _ s =>
    if s = s% "%{SOURCE1}" then .ok (s% "b.txt")
    else if s = s% "%{S:12}" then .ok (s% "c.txt")
    else if s = s% "%(cat %{SOURCE1} %{S:12})" then .ok []
    else .ok s
  dump := fun _ => []
  config := tinyConfig

def collectEnv : Env := { tinyEnv with rpm := collectRpm, tagNames := [s% "version"] }

def collectText : Str := s% "%include a\\\n.inc\n %{?x:%{load:m.lua}}\nVersion: %(cat %{SOURCE1} %{S:12})\n"

example : collect collectEnv tinyForce tinyConfig collectText =
    .ok ([s% "a.inc", s% "m.lua"], [s% "b.txt", s% "c.txt"]) := by
  decide +kernel

example : Wanted collectEnv tinyForce tinyConfig collectText (s% "a.inc") :=
  ((C82_collect collectEnv tinyForce tinyConfig collectText [s% "a.inc", s% "m.lua"] [s% "b.txt", s% "c.txt"]
    (by decide +kernel) _).1).mp (.head _)

example : WantedByTag collectEnv tinyForce tinyConfig collectText (s% "c.txt") :=
  ((C82_collect collectEnv tinyForce tinyConfig collectText [s% "a.inc", s% "m.lua"] [s% "b.txt", s% "c.txt"]
    (by decide +kernel) _).2).mp (.tail _ (.head _))

/-- The spec file ends in a backslash after `%include`: parsing raises IndexError, not RPMException. -/
theorem C82_violation_backslash :
    (getRpmSpec tinyEnv tinyForce [] (s% "%include a.inc\\") true tinyWorld).2.toBool = false ∧
    (doParse tinyEnv tinyForce [] (s% "%include a.inc\\") tinyWorld).2.map (·.2) = .error .indexError := by
  decide +kernel

/-- the directory of the included file does not exist, so that it cannot be compared with the source directory -/
def elsewhereEnv : Env := { tinyEnv with
  build := fun _ _ w => (w.table, .error .valueError)
  inSourcedir := fun _ p => if startsWith p (s% "/") then .error .osError else .ok true }

/-- The included file is in a directory that does not exist: parsing raises OSError, not RPMException. -/
theorem C82_violation_directory :
    (getRpmSpec elsewhereEnv tinyForce [] (s% "%include /x/a.inc") true tinyWorld).2.toBool = false ∧
    (doParse elsewhereEnv tinyForce [] (s% "%include /x/a.inc") tinyWorld).2.map (·.2) = .error .osError := by
  decide +kernel

end

end Specfile.Props
