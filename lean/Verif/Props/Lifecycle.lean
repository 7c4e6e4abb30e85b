import Verif.Proof.Lifecycle
import Verif.Props.Text
/-
C92: files are written when they are saved, with the text of the object, and only then.
-/
namespace Specfile.Props
open Py Spec Text Lifecycle

variable {P : Type} {A : Views} [DecidableEq P] [DecidableEq A.V] {canWrite : P → Bool}

/-- C92: however a `with spec:` block ends, the text of the object is then in the file at the path that the object has at
the end, the object is what the block made of it, and the caller gets the exception of the block. No other file
changed at the end of the block. -/
theorem C92_with (p : Prog P A) (s : State P A) (h : canWrite (run canWrite p s).1.path = true) :
    let r := run canWrite (.withSpec p) s
    r.2 = (run canWrite p s).2 ∧ r.1.path = (run canWrite p s).1.path ∧ r.1.content = (run canWrite p s).1.content ∧
      r.1.disk r.1.path = some (text r.1.content) ∧ ∀ q, q ≠ r.1.path → r.1.disk q = (run canWrite p s).1.disk q := by
  simp only [run, andThen, Lifecycle.save, h, if_true]
  refine ⟨trivial, trivial, trivial, by simp [write], fun q hq => by simp [write, hq]⟩

/-- C92: an object that is loaded from the file after a `with spec:` block has the lines the block left, if these can
be loaded at all. -/
theorem C92_load_after_with (p : Prog P A) (s : State P A) (h : canWrite (run canWrite p s).1.path = true)
    (hst : Stable (run canWrite p s).1.content) (b : Bool) :
    ∃ t : State P A, load (run canWrite (.withSpec p) s).1.disk (run canWrite p s).1.path b = .ok t ∧
      t.content = (run canWrite p s).1.content := by
  obtain ⟨-, h2, h3, h4, -⟩ := C92_with p s h
  rw [h2, h3] at h4
  refine ⟨⟨(run canWrite (.withSpec p) s).1.disk, (run canWrite p s).1.path, (run canWrite p s).1.content, b, none, fun _ => none⟩, ?_, rfl⟩
  unfold load
  rw [h4]
  have := C68_save_load_partial hst
  unfold Text.save at this
  simp [this]

/-- C92: if the file cannot be written, the end of a `with spec:` block raises, no file changes, and the object keeps
everything, so that it can be saved at another path. -/
theorem C92_with_fails (p : Prog P A) (s : State P A) (h : canWrite (run canWrite p s).1.path = false) (q : P)
    (hq : canWrite q = true) :
    (run canWrite (.withSpec p) s).2 = some .osError ∧ (run canWrite (.withSpec p) s).1 = (run canWrite p s).1 ∧
    (run canWrite (.handle (.withSpec p) (.seq (.setPath q) .save)) s).2 = none ∧
    (run canWrite (.handle (.withSpec p) (.seq (.setPath q) .save)) s).1.disk q = some (text (run canWrite p s).1.content) := by
  have : run canWrite (.withSpec p) s = ((run canWrite p s).1, some .osError) := by simp [run, andThen, Lifecycle.save, h]
  refine ⟨by rw [this], by rw [this], ?_, ?_⟩ <;> rw [run, this] <;> simp [run, Lifecycle.save, hq, write]

/-- C92: edits in `lines()` blocks are made one after another on the lines of the object, saving in between changes
nothing, and what was edited before an exception stays; this is what is in the file after a `with spec:` block. -/
theorem C92_edits (hw : ∀ q, canWrite q = true) (p : Prog P A) (hp : LinesOnly p) (s : State P A) (hs : Shut s) :
    let r := run canWrite (.withSpec p) s
    r.2 = (does p false s.content.lines).2 ∧
    r.1.content = ⟨(does p false s.content.lines).1, s.content.newline⟩ ∧
    r.1.disk r.1.path = some (text ⟨(does p false s.content.lines).1, s.content.newline⟩) := by
  obtain ⟨h1, -, h3, h4, -⟩ := C92_with (canWrite := canWrite) p s (hw _)
  obtain ⟨g1, g2, -⟩ := run_does hw p hp s (by simp [hs.1])
  have g3 := run_newline (canWrite := canWrite) p s
    (everywhere_mono (fun p h => by cases p <;> first | exact h | trivial) p hp)
  rw [hs.1] at g1 g2
  have g4 : (run canWrite p s).1.content = ⟨(does p false s.content.lines).1, s.content.newline⟩ := by
    rw [← g3, show (does p false s.content.lines).1 = _ from g1.symm]
  refine ⟨h1.trans g2, h3.trans g4, ?_⟩
  rw [h4, h3, g4]

/-- C92: a file that is never the path of the object is not touched, whatever the program does and however it ends. -/
theorem C92_other_files (q : P) (p : Prog P A) (s : State P A) (hp : Spares q p) (hs : s.path ≠ q) :
    (run canWrite p s).1.disk q = s.disk q := (run_spares q p s hp hs).2

/-- C92: without autosave nothing is written unless the program asks for it. -/
theorem C92_no_save (p : Prog P A) (s : State P A) (hp : NeverSaves p) (ha : s.autosave = false) :
    (run canWrite p s).1.disk = s.disk := (run_neverSaves p s hp ha).2

/-- C92: with autosave the file has the text of the object whenever no block is open, also after exceptions. -/
theorem C92_autosave (q : P) (hq : canWrite q = true) (p : Prog P A) (s : State P A) (hp : Steady q p) (hs : Shut s)
    (hpath : s.path = q) (ha : s.autosave = true) (hf : s.disk q = some (text s.content)) :
    (run canWrite p s).1.path = q ∧ (run canWrite p s).1.disk q = some (text (run canWrite p s).1.content) := by
  obtain ⟨h1, h2⟩ := run_steady q hq p s hp ⟨hpath, ha⟩
  exact ⟨h1.1, h2 (fun _ => hf) hs.1⟩

/-- C92: whatever a program does and however it ends, no block stays open. -/
theorem C92_shut (p : Prog P A) (s : State P A) (hs : Shut s) : Shut (run canWrite p s).1 := by
  refine ⟨?_, fun v => ?_⟩
  · have := run_opened (canWrite := canWrite) p s
    rw [hs.1] at this
    simpa using this
  · have := run_views (canWrite := canWrite) p s v
    rw [hs.2 v] at this
    simpa using this

/-- C92: the final newline of the file is kept by everything except loading the file again. -/
theorem C92_final_newline (p : Prog P A) (s : State P A) (hp : NoReload p) :
    (run canWrite p s).1.content.newline = s.content.newline := run_newline p s hp

/-- C92: `reload` outside of blocks replaces the object by what is in the file, dropping all unsaved changes, and
writes nothing; if the file cannot be loaded, nothing changes. -/
theorem C92_reload_partial (p : Prog P A) (s : State P A) (hs : Shut s) (hp : (run canWrite p s).2 = none) :
    let t := (run canWrite p s).1
    let r := run canWrite (.seq p .reload) s
    (∀ u : State P A, load t.disk t.path t.autosave = .ok u → r = (u, none)) ∧
    (∀ e, load (A := A) t.disk t.path t.autosave = .error e → r = (t, some e)) := by
  have hsh := C92_shut (canWrite := canWrite) p s hs
  intro t r
  have hr : r = Lifecycle.reload t := by
    show run canWrite (.seq p .reload) s = _
    rw [run]
    rcases h : run canWrite p s with ⟨t', _ | e⟩
    · simp only [run, t, h]
    · rw [h] at hp; cases hp
  rw [hr]
  unfold load Lifecycle.reload
  have hv : t.views = fun _ => none := funext hsh.2
  have ho : t.opened = none := hsh.1
  clear_value t
  obtain ⟨d, q, c, a, o, v⟩ := t
  dsimp only at hv ho ⊢
  subst hv ho
  cases hd : d q with
  | none => simp
  | some f =>
    cases hf : readLines f with
    | error e => simp [hf]
    | ok c => simp [hf]

/-- C92: saving and loading again changes nothing, if the lines can be loaded. -/
theorem C92_save_reload (s : State P A) (hs : Shut s) (hw : canWrite s.path = true) (hst : Stable s.content) :
    run canWrite (.seq .save .reload) s = ((run canWrite .save s).1, none) := by
  have := C68_save_load_partial hst
  unfold Text.save at this
  obtain ⟨ho, -⟩ := hs
  obtain ⟨d, q, c, a, o, v⟩ := s
  dsimp only at ho hw this
  subst ho
  simp [run, Lifecycle.save, hw, Lifecycle.reload, write, this]

/-- C92: after a `reload` inside of a block nothing that is done in the block reaches the object any more: at the end the
object is what was loaded, whatever was edited in the block before and after, by lines or by any accessor. -/
theorem C92_reload_inside_violation (p q : Prog P A) (s : State P A) (hs : Shut s) (hq : NoReload q) (t u : State P A)
    (hp : run canWrite p { s with opened := some none } = (t, none)) (hu : load t.disk t.path t.autosave = .ok u) :
    (run canWrite (.withLines (.seq p (.seq .reload q))) s).1.content = u.content := by
  have ho : t.opened.isSome = true := by
    have := run_opened (canWrite := canWrite) p { s with opened := some none }
    rw [hp] at this
    exact this
  have hr : ∃ l, Lifecycle.reload t = ({ t with content := u.content, opened := some (some l) }, none) := by
    unfold load at hu
    unfold Lifecycle.reload
    cases hd : t.disk t.path with
    | none => rw [hd] at hu; cases hu
    | some f =>
      cases hf : readLines f with
      | error e => simp [hd, hf] at hu
      | ok c =>
        simp only [hd, hf, Except.ok.injEq] at hu
        subst hu
        simp only [hf]
        rcases h : t.opened with _ | _ | l
        · rw [h] at ho; cases ho
        · exact ⟨_, rfl⟩
        · exact ⟨_, rfl⟩
  obtain ⟨l, hr⟩ := hr
  obtain ⟨h1, -⟩ := run_stale (canWrite := canWrite) q _ hq l
    (show ({ t with content := u.content, opened := some (some l) } : State P A).opened = _ from rfl)
  have hb : run canWrite (.seq p (.seq .reload q)) { s with opened := some none } =
      run canWrite q { t with content := u.content, opened := some (some l) } := by
    rw [run, hp]
    simp only [run, hr]
  have hc := close_same (canWrite := canWrite) (run canWrite q { t with content := u.content, opened := some (some l) }).1
  rw [run]
  simp only [hs.1, needLines, andThen, hb, Option.isSome_none, Bool.false_eq_true, if_false]
  rcases hcl : closeLines canWrite (run canWrite q { t with content := u.content, opened := some (some l) }).1 with ⟨w, _ | e⟩ <;>
    rw [hcl] at hc <;> exact hc.2.1.trans h1

/-! ### examples -/

/-- an accessor of the lines, which are read as they are -/
abbrev sampleViews : Views := ⟨Bool, List Str, fun _ ls => .ok ls, fun _ ls => ls⟩

abbrev sampleDisk : Bool → Option Str := fun q => if q then some (s% "Name: a\n") else none

abbrev lifeState (autosave : Bool) : State Bool sampleViews := ⟨sampleDisk, true, ⟨[s% "Name: a"], true⟩, autosave, none, fun _ => none⟩

example : (load sampleDisk true false : Except Err (State Bool sampleViews)) = .ok (lifeState false) := by
  simp [load, sampleDisk, show readLines (s% "Name: a\n") = .ok ⟨[s% "Name: a"], true⟩ from by decide]

/-- two edits, the second one at another path, and an exception -/
abbrev lifeProg : Prog Bool sampleViews :=
  .seq (.withLines (.editLines (· ++ [s% "Version: 1"])))
    (.seq (.setPath false) (.withLines (.seq (.editLines (· ++ [s% "Release: 1"])) (.raise .valueError))))

example : Shut (lifeState true) := ⟨rfl, fun _ => rfl⟩
example : LinesOnly lifeProg := ⟨⟨trivial, trivial⟩, trivial, trivial, trivial, trivial⟩
example : does lifeProg false [s% "Name: a"] = ([s% "Name: a", s% "Version: 1", s% "Release: 1"], some .valueError) := by decide
example : (run (fun _ => true) (.withSpec lifeProg) (lifeState true)).1.disk false =
    some (s% "Name: a\nVersion: 1\nRelease: 1\n") := by decide
example : (run (fun _ => true) (.withSpec lifeProg) (lifeState true)).1.disk true = some (s% "Name: a\nVersion: 1\n") := by decide
example : (run (fun _ => true) (.withSpec lifeProg) (lifeState false)).1.disk true = some (s% "Name: a\n") := by decide
example : NeverSaves lifeProg := ⟨⟨trivial, trivial⟩, trivial, trivial, trivial, trivial⟩
/-- a spec file that cannot be written, with an edit through an accessor -/
example : (run (fun q => !q) (.withSpec (.withView true (.editView true (fun _ => [])))) (lifeState false)).2 = some .osError ∧
    (run (fun q => !q) (.withSpec (.withView true (.editView true (fun _ => [])))) (lifeState false)).1.content = ⟨[], true⟩ := by decide
/-- an accessor opened after the `reload` in a `lines()` block edits the old list -/
example : (run (fun _ => true) (.withLines (.seq (.editLines (fun _ => [s% "x"])) (.seq .reload
    (.withView true (.editView true (· ++ [s% "y"])))))) (lifeState true)).1.content = ⟨[s% "Name: a"], true⟩ := by decide
example : Steady true (.seq (.withLines (.editLines (fun _ => []))) .save : Prog Bool sampleViews) := ⟨⟨trivial, trivial⟩, trivial⟩
example : Spares false (.seq (.withSpec .save) (.foreign true []) : Prog Bool sampleViews) := ⟨⟨trivial, trivial⟩, (by decide : true ≠ false)⟩

end Specfile.Props
