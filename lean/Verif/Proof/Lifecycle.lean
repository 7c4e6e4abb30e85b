import Verif.Spec.Lifecycle
/-
Invariants of programs that use a `Specfile` object.
-/
namespace Specfile.Lifecycle
open Py Text Spec

variable {P : Type} {A : Views} [DecidableEq P] [DecidableEq A.V] {canWrite : P → Bool}

/-- to show a property of the state before and after a program, show it for the single steps -/
theorem run_induct (R : State P A → State P A → Prop) (f : Prog P A → Prop)
    (refl : ∀ s, R s s) (trans : ∀ {a b c}, R a b → R b c → R a c)
    (held : ∀ s l, s.opened.isSome → R s (setHeld s l))
    (view : ∀ s v x, R s (setView s v x))
    (enter : ∀ s t, s.opened = none → R { s with opened := some none } t → t.opened.isSome → R s (closeLines canWrite t).1)
    (keeps : ∀ s t, R s t → t.opened.isSome = s.opened.isSome)
    (hsave : f .save ∨ f (.withSpec .skip) → ∀ s, R s (save canWrite s).1)
    (hreload : f .reload → ∀ s, R s (reload s).1)
    (hpath : ∀ q, f (.setPath q) → ∀ s : State P A, R s { s with path := q })
    (hauto : ∀ b, f (.setAutosave b) → ∀ s : State P A, R s { s with autosave := b })
    (hforeign : ∀ q t, f (.foreign q t) → ∀ s : State P A, R s { s with disk := write s.disk q t })
    (p : Prog P A) : Everywhere f p → ∀ s, R s (run canWrite p s).1 := by
  have hneed : ∀ (s : State P A) (body : State P A → State P A × Option Err), (∀ s, R s (body s).1) →
      R s (needLines canWrite s body).1 := by
    intro s body hb
    unfold needLines
    split
    · exact hb s
    · rename_i hn
      have hn : s.opened = none := by simpa using hn
      have h := hb { s with opened := some none }
      have h2 := enter s _ hn h (by rw [keeps _ _ h]; rfl)
      unfold andThen
      rcases hc : closeLines canWrite (body { s with opened := some none }).1 with ⟨t, _ | e⟩ <;>
        rw [hc] at h2 <;> exact h2
  have hview : ∀ (v : A.V) (s : State P A) (body : State P A → State P A × Option Err), s.opened.isSome →
      (∀ s, R s (body s).1) → R s (inView v s body).1 := by
    intro v s body ho hb
    unfold inView
    split
    · exact refl s
    · rename_i x _
      have h := trans (view s v (some x)) (hb (setView s v (some x)))
      have ho' := keeps _ _ h
      rw [ho] at ho'
      simp only
      split
      · exact trans (trans h (held _ _ (by simp [ho']))) (view _ _ _)
      · exact trans h (view _ _ _)
  induction p with
  | skip => intro _ s; exact refl s
  | seq p q hp hq =>
    intro h s
    have h1 := hp h.1 s
    unfold run
    rcases hr : run canWrite p s with ⟨t, _ | e⟩ <;> rw [hr] at h1
    · exact trans h1 (hq h.2 t)
    · exact h1
  | raise e => intro _ s; exact refl s
  | handle p q hp hq =>
    intro h s
    have h1 := hp h.1 s
    unfold run
    rcases hr : run canWrite p s with ⟨t, _ | e⟩ <;> rw [hr] at h1
    · exact h1
    · exact trans h1 (hq h.2 t)
  | editLines u =>
    intro _ s
    unfold run
    split
    · exact held s _ ‹_›
    · exact refl s
  | editView v u => intro _ s; exact view s v _
  | withLines p hp =>
    intro h s
    unfold run
    split
    · exact hp h.2 s
    · exact hneed s _ (hp h.2)
  | withView v p hp =>
    intro h s
    unfold run
    split
    · exact hp h.2 s
    · unfold needLines
      split
      · exact hview v s _ ‹_› (hp h.2)
      · rename_i hn
        have hn : s.opened = none := by simpa using hn
        have h1 := hview v { s with opened := some none } _ rfl (hp h.2)
        have h2 := enter s _ hn h1 (by rw [keeps _ _ h1]; rfl)
        unfold andThen
        rcases hc : closeLines canWrite (inView v { s with opened := some none } (run canWrite p)).1 with ⟨t, _ | e⟩ <;>
          rw [hc] at h2 <;> exact h2
  | save => intro h s; exact hsave (.inl h) s
  | reload => intro h s; exact hreload h s
  | setPath q => intro h s; exact hpath q h s
  | setAutosave b => intro h s; exact hauto b h s
  | withSpec p hp =>
    intro h s
    have h1 := trans (hp h.2 s) (hsave (.inr h.1) (run canWrite p s).1)
    unfold run andThen
    rcases hc : save canWrite (run canWrite p s).1 with ⟨t, _ | e⟩ <;> rw [hc] at h1 <;> exact h1
  | foreign q t => intro h s; exact hforeign q t h s

omit [DecidableEq P] [DecidableEq A.V] in
@[simp] theorem setHeld_disk (s : State P A) (l : List Str) : (setHeld s l).disk = s.disk := by
  unfold setHeld; split <;> rfl
omit [DecidableEq P] [DecidableEq A.V] in
@[simp] theorem setHeld_path (s : State P A) (l : List Str) : (setHeld s l).path = s.path := by
  unfold setHeld; split <;> rfl
omit [DecidableEq P] [DecidableEq A.V] in
@[simp] theorem setHeld_autosave (s : State P A) (l : List Str) : (setHeld s l).autosave = s.autosave := by
  unfold setHeld; split <;> rfl
omit [DecidableEq P] [DecidableEq A.V] in
@[simp] theorem setHeld_views (s : State P A) (l : List Str) : (setHeld s l).views = s.views := by
  unfold setHeld; split <;> rfl
omit [DecidableEq P] [DecidableEq A.V] in
@[simp] theorem setHeld_newline (s : State P A) (l : List Str) : (setHeld s l).content.newline = s.content.newline := by
  unfold setHeld; split <;> rfl
omit [DecidableEq P] [DecidableEq A.V] in
@[simp] theorem setHeld_opened (s : State P A) (l : List Str) : (setHeld s l).opened.isSome = s.opened.isSome := by
  unfold setHeld; split <;> simp_all

omit [DecidableEq A.V] in
theorem save_same (s : State P A) : (save canWrite s).1.path = s.path ∧ (save canWrite s).1.content = s.content ∧
    (save canWrite s).1.autosave = s.autosave ∧ (save canWrite s).1.opened = s.opened ∧
    (save canWrite s).1.views = s.views := by
  unfold save; split <;> exact ⟨rfl, rfl, rfl, rfl, rfl⟩

omit [DecidableEq A.V] in
theorem save_disk {s : State P A} {q : P} (h : q ≠ s.path) : (save canWrite s).1.disk q = s.disk q := by
  unfold save; split
  · simp [write, h]
  · rfl

omit [DecidableEq A.V] in
theorem close_same (s : State P A) : (closeLines canWrite s).1.path = s.path ∧ (closeLines canWrite s).1.content = s.content ∧
    (closeLines canWrite s).1.autosave = s.autosave ∧ (closeLines canWrite s).1.opened = none ∧
    (closeLines canWrite s).1.views = s.views := by
  unfold closeLines; split
  · exact save_same _
  · exact ⟨rfl, rfl, rfl, rfl, rfl⟩

omit [DecidableEq A.V] in
theorem close_disk {s : State P A} {q : P} (h : q ≠ s.path) : (closeLines canWrite s).1.disk q = s.disk q := by
  unfold closeLines; split
  · exact save_disk (s := { s with opened := none }) h
  · rfl

omit [DecidableEq P] [DecidableEq A.V] in
theorem reload_same (s : State P A) : (reload s).1.path = s.path ∧ (reload s).1.disk = s.disk ∧
    (reload s).1.autosave = s.autosave ∧ (reload s).1.opened.isSome = s.opened.isSome ∧ (reload s).1.views = s.views := by
  unfold reload
  split
  · exact ⟨rfl, rfl, rfl, rfl, rfl⟩
  · split
    · exact ⟨rfl, rfl, rfl, rfl, rfl⟩
    · refine ⟨rfl, rfl, rfl, ?_, rfl⟩
      dsimp only
      split <;> simp_all

/-- blocks are closed at the end -/
theorem run_opened (p : Prog P A) (s : State P A) : (run canWrite p s).1.opened.isSome = s.opened.isSome := by
  refine run_induct (canWrite := canWrite) (fun s t => t.opened.isSome = s.opened.isSome) (fun _ => True)
    (fun _ => rfl) (fun h1 h2 => h2.trans h1) (fun s l _ => setHeld_opened s l) (fun _ _ _ => rfl)
    (fun s t h _ _ => by rw [(close_same t).2.2.2.1, h]) (fun _ _ h => h) (fun _ s => by rw [(save_same s).2.2.2.1])
    (fun _ s => (reload_same s).2.2.2.1) (fun _ _ _ => rfl) (fun _ _ _ => rfl) (fun _ _ _ _ => rfl) p ?_ s
  clear s
  induction p <;> simp_all [Everywhere]

omit [DecidableEq P] [DecidableEq A.V] in
theorem everywhere_mono {f g : Prog P A → Prop} (h : ∀ p, f p → g p) (p : Prog P A) : Everywhere f p → Everywhere g p := by
  induction p <;> simp_all [Everywhere]

omit [DecidableEq A.V] in
theorem needLines_views {s : State P A} {body : State P A → State P A × Option Err}
    (h : ∀ s w, ((body s).1.views w).isSome = (s.views w).isSome) (w : A.V) :
    ((needLines canWrite s body).1.views w).isSome = (s.views w).isSome := by
  unfold needLines
  split
  · exact h s w
  · have h1 := h { s with opened := some none } w
    have h2 := (close_same (canWrite := canWrite) (body { s with opened := some none }).1).2.2.2.2
    unfold andThen
    rcases hc : closeLines canWrite (body { s with opened := some none }).1 with ⟨t, _ | e⟩ <;> rw [hc] at h2 <;>
      exact (congrArg (fun f => (f w).isSome) h2).trans h1

/-- the objects of accessors exist during the blocks only -/
theorem run_views (p : Prog P A) : ∀ (s : State P A) (w : A.V),
    ((run canWrite p s).1.views w).isSome = (s.views w).isSome := by
  induction p with
  | skip => intro s w; rfl
  | seq p q hp hq =>
    intro s w
    have h1 := hp s w
    unfold run
    rcases hr : run canWrite p s with ⟨t, _ | e⟩ <;> rw [hr] at h1
    · exact (hq t w).trans h1
    · exact h1
  | raise e => intro s w; rfl
  | handle p q hp hq =>
    intro s w
    have h1 := hp s w
    unfold run
    rcases hr : run canWrite p s with ⟨t, _ | e⟩ <;> rw [hr] at h1
    · exact h1
    · exact (hq t w).trans h1
  | editLines u => intro s w; unfold run; split <;> simp
  | editView v u =>
    intro s w
    simp only [run, setView]
    split
    · subst_vars; simp
    · rfl
  | withLines p hp =>
    intro s w
    unfold run
    split
    · exact hp s w
    · exact needLines_views hp w
  | withView v p hp =>
    intro s w
    unfold run
    split
    · exact hp s w
    · rename_i hv
      have key : ∀ s : State P A, s.views v = none → ∀ w, ((inView v s (run canWrite p)).1.views w).isSome = (s.views w).isSome := by
        intro s hv w
        unfold inView
        split
        · rfl
        · rename_i x _
          have h1 := hp (setView s v (some x)) w
          simp only
          by_cases hw : w = v
          · subst hw
            split <;> simp [setView, hv]
          · split <;> simpa [setView, hw] using h1
      unfold needLines
      split
      · exact key s hv w
      · have h1 := key { s with opened := some none } hv w
        have h2 := (close_same (canWrite := canWrite) (inView v { s with opened := some none } (run canWrite p)).1).2.2.2.2
        unfold andThen
        rcases hc : closeLines canWrite (inView v { s with opened := some none } (run canWrite p)).1 with ⟨t, _ | e⟩ <;>
          rw [hc] at h2 <;> exact (congrArg (fun f => (f w).isSome) h2).trans h1
  | save => intro s w; simp only [run]; rw [(save_same s).2.2.2.2]
  | reload => intro s w; simp only [run]; rw [(reload_same s).2.2.2.2]
  | setPath q => intro s w; rfl
  | setAutosave b => intro s w; rfl
  | withSpec p hp =>
    intro s w
    have h1 := hp s w
    have h2 := (save_same (canWrite := canWrite) (run canWrite p s).1).2.2.2.2
    unfold run andThen
    rcases hc : save canWrite (run canWrite p s).1 with ⟨t, _ | e⟩ <;> rw [hc] at h2 <;> exact (congrArg (fun f => (f w).isSome) h2).trans h1
  | foreign q t => intro s w; rfl

/-- files that are not the spec file at any time are left alone -/
theorem run_spares (q : P) (p : Prog P A) (s : State P A) (hp : Spares q p) :
    s.path ≠ q → (run canWrite p s).1.path ≠ q ∧ (run canWrite p s).1.disk q = s.disk q := by
  refine (run_induct (canWrite := canWrite)
    (fun s t => t.opened.isSome = s.opened.isSome ∧ (s.path ≠ q → t.path ≠ q ∧ t.disk q = s.disk q)) _
    (fun _ => ⟨rfl, fun h => ⟨h, rfl⟩⟩)
    (fun h1 h2 => ⟨h2.1.trans h1.1, fun h => ⟨(h2.2 (h1.2 h).1).1, (h2.2 (h1.2 h).1).2.trans (h1.2 h).2⟩⟩)
    (fun s l _ => ⟨setHeld_opened s l, fun h => ⟨by simpa using h, by simp⟩⟩) (fun _ _ _ => ⟨rfl, fun h => ⟨h, rfl⟩⟩)
    (fun s t h1 h2 _ => ⟨by rw [(close_same t).2.2.2.1, h1], fun h => ?_⟩) (fun _ _ h => h.1)
    (fun _ s => ⟨by rw [(save_same s).2.2.2.1], fun h => ⟨by rw [(save_same s).1]; exact h, save_disk (Ne.symm h)⟩⟩)
    (fun _ s => ⟨(reload_same s).2.2.2.1, fun h => ⟨by rw [(reload_same s).1]; exact h, by rw [(reload_same s).2.1]⟩⟩)
    (fun r h _ => ⟨rfl, fun _ => ⟨h, rfl⟩⟩) (fun _ _ _ => ⟨rfl, fun h => ⟨h, rfl⟩⟩)
    (fun r t h _ => ⟨rfl, fun h' => ⟨h', ?_⟩⟩) p hp s).2
  · have h3 := h2.2 h
    exact ⟨by rw [(close_same t).1]; exact h3.1, (close_disk (Ne.symm h3.1)).trans h3.2⟩
  · have h : r ≠ q := h
    simp [write, Ne.symm h]

/-- nothing is written if nothing asks for it -/
theorem run_neverSaves (p : Prog P A) (s : State P A) (hp : NeverSaves p) :
    s.autosave = false → (run canWrite p s).1.autosave = false ∧ (run canWrite p s).1.disk = s.disk := by
  refine (run_induct (canWrite := canWrite)
    (fun s t => t.opened.isSome = s.opened.isSome ∧ (s.autosave = false → t.autosave = false ∧ t.disk = s.disk)) _
    (fun _ => ⟨rfl, fun h => ⟨h, rfl⟩⟩)
    (fun h1 h2 => ⟨h2.1.trans h1.1, fun h => ⟨(h2.2 (h1.2 h).1).1, (h2.2 (h1.2 h).1).2.trans (h1.2 h).2⟩⟩)
    (fun s l _ => ⟨setHeld_opened s l, fun h => ⟨by simpa using h, by simp⟩⟩) (fun _ _ _ => ⟨rfl, fun h => ⟨h, rfl⟩⟩)
    (fun s t h1 h2 _ => ⟨by rw [(close_same t).2.2.2.1, h1], fun h => ?_⟩) (fun _ _ h => h.1)
    (fun h => by rcases h with h | h <;> exact h.elim)
    (fun _ s => ⟨(reload_same s).2.2.2.1, fun h => ⟨by rw [(reload_same s).2.2.1]; exact h, (reload_same s).2.1⟩⟩)
    (fun r h _ => ⟨rfl, fun h => ⟨h, rfl⟩⟩) (fun _ h _ => ⟨rfl, fun _ => ⟨h, rfl⟩⟩)
    (fun r t h _ => h.elim) p hp s).2
  have h3 := h2.2 h
  simpa [closeLines, h3.1] using h3.2

/-- with autosave the file is up to date whenever no block is open -/
theorem run_steady (q : P) (hq : canWrite q = true) (p : Prog P A) (s : State P A) (hp : Steady q p) :
    s.path = q ∧ s.autosave = true → ((run canWrite p s).1.path = q ∧ (run canWrite p s).1.autosave = true) ∧
      ((s.opened = none → s.disk q = some (text s.content)) → s.opened = none →
        (run canWrite p s).1.disk q = some (text (run canWrite p s).1.content)) := by
  have H := (run_induct (canWrite := canWrite)
    (fun s t => t.opened.isSome = s.opened.isSome ∧ (s.path = q ∧ s.autosave = true →
      (t.path = q ∧ t.autosave = true) ∧ ((s.opened = none → s.disk q = some (text s.content)) → t.opened = none →
        t.disk q = some (text t.content)))) _
    (fun _ => ⟨rfl, fun h => ⟨h, fun h => h⟩⟩)
    (fun h1 h2 => ⟨h2.1.trans h1.1, fun h => ⟨(h2.2 (h1.2 h).1).1, fun h3 => (h2.2 (h1.2 h).1).2 ((h1.2 h).2 h3)⟩⟩)
    (fun s l ho => ⟨setHeld_opened s l, fun h => ⟨by simpa using h, fun _ hn => ?_⟩⟩)
    (fun _ _ _ => ⟨rfl, fun h => ⟨h, fun h => h⟩⟩)
    (fun s t h1 h2 _ => ⟨by rw [(close_same t).2.2.2.1, h1], fun h => ?_⟩) (fun _ _ h => h.1)
    (fun _ s => ⟨by rw [(save_same s).2.2.2.1], fun h => ⟨by rw [(save_same s).1, (save_same s).2.2.1]; exact h, fun _ _ => ?_⟩⟩)
    (fun h => h.elim)
    (fun r h s => ⟨rfl, fun h' => ⟨⟨h, h'.2⟩, fun h => h⟩⟩) (fun _ h _ => ⟨rfl, fun h' => ⟨⟨h'.1, h⟩, fun h => h⟩⟩)
    (fun r t h s => ⟨rfl, fun h' => ⟨h', fun h1 h2 => ?_⟩⟩) p hp s)
  · refine fun h => ⟨(H.2 h).1, fun h1 h2 => (H.2 h).2 h1 ?_⟩
    have := H.1
    rw [h2] at this
    simpa using this
  · have := setHeld_opened s l
    rw [hn, ho] at this
    cases this
  · have h3 := (h2.2 h).1
    refine ⟨by rw [(close_same t).1, (close_same t).2.2.1]; exact h3, fun _ _ => ?_⟩
    simp [closeLines, h3.2, save, h3.1, hq, write]
  · simp [save, h.1, hq, write]
  · have h : r ≠ q := h
    simpa [write, Ne.symm h] using h1 h2

/-- without loading again the final newline stays as it is -/
theorem run_newline (p : Prog P A) (s : State P A) (hp : NoReload p) :
    (run canWrite p s).1.content.newline = s.content.newline := by
  refine (run_induct (canWrite := canWrite)
    (fun s t => t.opened.isSome = s.opened.isSome ∧ t.content.newline = s.content.newline) _
    (fun _ => ⟨rfl, rfl⟩) (fun h1 h2 => ⟨h2.1.trans h1.1, h2.2.trans h1.2⟩)
    (fun s l _ => ⟨setHeld_opened s l, by simp⟩) (fun _ _ _ => ⟨rfl, rfl⟩)
    (fun s t h1 h2 _ => ⟨by rw [(close_same t).2.2.2.1, h1], by rw [(close_same t).2.1]; exact h2.2⟩) (fun _ _ h => h.1)
    (fun _ s => ⟨by rw [(save_same s).2.2.2.1], by rw [(save_same s).2.1]⟩)
    (fun h => h.elim) (fun _ _ _ => ⟨rfl, rfl⟩) (fun _ _ _ => ⟨rfl, rfl⟩) (fun _ _ _ _ => ⟨rfl, rfl⟩) p hp s).2

/-- an open block whose list is not the list of the object any more cannot change the object -/
theorem run_stale (p : Prog P A) (s : State P A) (hp : NoReload p) (l : List Str) (hl : s.opened = some (some l)) :
    (run canWrite p s).1.content = s.content ∧ ∃ l', (run canWrite p s).1.opened = some (some l') := by
  refine (run_induct (canWrite := canWrite)
    (fun s t => t.opened.isSome = s.opened.isSome ∧ ((∃ l, s.opened = some (some l)) →
      t.content = s.content ∧ ∃ l, t.opened = some (some l))) _
    (fun _ => ⟨rfl, fun h => ⟨rfl, h⟩⟩)
    (fun h1 h2 => ⟨h2.1.trans h1.1, fun h => ⟨(h2.2 (h1.2 h).2).1.trans (h1.2 h).1, (h2.2 (h1.2 h).2).2⟩⟩)
    (fun s l _ => ⟨setHeld_opened s l, fun ⟨l', h⟩ => ?_⟩) (fun _ _ _ => ⟨rfl, fun h => ⟨rfl, h⟩⟩)
    (fun s t h1 h2 _ => ⟨by rw [(close_same t).2.2.2.1, h1], fun ⟨l', h⟩ => by rw [h1] at h; cases h⟩) (fun _ _ h => h.1)
    (fun _ s => ⟨by rw [(save_same s).2.2.2.1], fun h => ⟨by rw [(save_same s).2.1], by rw [(save_same s).2.2.2.1]; exact h⟩⟩)
    (fun h => h.elim) (fun _ _ _ => ⟨rfl, fun h => ⟨rfl, h⟩⟩) (fun _ _ _ => ⟨rfl, fun h => ⟨rfl, h⟩⟩)
    (fun _ _ _ _ => ⟨rfl, fun h => ⟨rfl, h⟩⟩) p hp s).2 ⟨l, hl⟩
  simp [setHeld, h]

/-- edits of the lines, exceptions and saves, if saving does not fail -/
theorem run_does (hw : ∀ q, canWrite q = true) (p : Prog P A) : LinesOnly p → ∀ (s : State P A), (∀ l, s.opened ≠ some (some l)) →
    (run canWrite p s).1.content.lines = (does p s.opened.isSome s.content.lines).1 ∧
    (run canWrite p s).2 = (does p s.opened.isSome s.content.lines).2 ∧
    (∀ l, (run canWrite p s).1.opened ≠ some (some l)) := by
  have hsave : ∀ s : State P A, (save canWrite s).2 = none := by intro s; simp [save, hw]
  have hclose : ∀ s : State P A, (closeLines canWrite s).2 = none := by
    intro s; unfold closeLines; split
    · exact hsave _
    · rfl
  induction p with
  | skip => intro _ s h; exact ⟨rfl, rfl, h⟩
  | seq p q hp hq =>
    intro hl s h
    obtain ⟨h1, h2, h3⟩ := hp hl.1 s h
    have ho := run_opened (canWrite := canWrite) p s
    unfold run does
    rcases hr : run canWrite p s with ⟨t, _ | e⟩ <;> rcases hd : does p s.opened.isSome s.content.lines with ⟨l, e'⟩ <;>
      rw [hr, hd] at h1 h2 <;> rw [hr] at h3 ho <;> cases h2
    · have := hq hl.2 t h3
      dsimp only at h1 ho
      rw [ho, h1] at this
      exact this
    · exact ⟨h1, rfl, h3⟩
  | raise e => intro _ s h; exact ⟨rfl, rfl, h⟩
  | handle p q hp hq =>
    intro hl s h
    obtain ⟨h1, h2, h3⟩ := hp hl.1 s h
    have ho := run_opened (canWrite := canWrite) p s
    unfold run does
    rcases hr : run canWrite p s with ⟨t, _ | e⟩ <;> rcases hd : does p s.opened.isSome s.content.lines with ⟨l, e'⟩ <;>
      rw [hr, hd] at h1 h2 <;> rw [hr] at h3 ho <;> cases h2
    · exact ⟨h1, rfl, h3⟩
    · have := hq hl.2 t h3
      dsimp only at h1 ho
      rw [ho, h1] at this
      exact this
  | editLines u =>
    intro _ s h
    unfold run does
    split
    · have h1 : held s = s.content.lines := by
        unfold held; split
        · exact absurd ‹_› (h _)
        · rfl
      have : setHeld s (u (held s)) = { s with content := { s.content with lines := u s.content.lines } } := by
        rw [h1]
        unfold setHeld
        split
        · exact absurd ‹_› (h _)
        · rfl
      rw [this]
      exact ⟨rfl, rfl, h⟩
    · exact ⟨rfl, rfl, h⟩
  | editView v u => intro hl; exact hl.elim
  | withLines p hp =>
    intro hl s h
    unfold run does
    by_cases ho : s.opened.isSome = true
    · obtain ⟨h1, h2, h3⟩ := hp hl.2 s h
      rw [ho] at h1 h2
      simp only [ho, if_true, shared]
      exact ⟨h1, by rw [h2]; simp, h3⟩
    · obtain ⟨h1, h2, h3⟩ := hp hl.2 { s with opened := some none } (by simp)
      have hc := close_same (canWrite := canWrite) (run canWrite p { s with opened := some none }).1
      have hc2 := hclose (run canWrite p { s with opened := some none }).1
      simp only [ho, if_false, needLines, andThen, Bool.false_eq_true]
      rcases hcl : closeLines canWrite (run canWrite p { s with opened := some none }).1 with ⟨t, e⟩
      rw [hcl] at hc hc2
      cases hc2
      exact ⟨(congrArg Content.lines hc.2.1).trans h1, by simpa using h2, by intro l; rw [hc.2.2.2.1]; simp⟩
  | withView v p _ => intro hl; exact hl.1.elim
  | save =>
    intro _ s h
    exact ⟨by simp only [run]; rw [(save_same s).2.1]; rfl, hsave s, by simp only [run]; rw [(save_same s).2.2.2.1]; exact h⟩
  | reload => intro hl; exact hl.elim
  | setPath q => intro _ s h; exact ⟨rfl, rfl, h⟩
  | setAutosave b => intro _ s h; exact ⟨rfl, rfl, h⟩
  | withSpec p hp =>
    intro hl s h
    obtain ⟨h1, h2, h3⟩ := hp hl.2 s h
    have hc := save_same (canWrite := canWrite) (run canWrite p s).1
    have hc2 := hsave (run canWrite p s).1
    unfold run does andThen
    rcases hcl : save canWrite (run canWrite p s).1 with ⟨t, e⟩
    rw [hcl] at hc hc2
    cases hc2
    exact ⟨(congrArg Content.lines hc.2.1).trans h1, h2, by intro l; rw [hc.2.2.2.1]; exact h3 l⟩
  | foreign q t => intro _ s h; exact ⟨rfl, rfl, h⟩

end Specfile.Lifecycle
