import Verif.Proof.Access
/-
Programs without edits, and saving.
-/
namespace Specfile.Access
open Py Spec

variable {C : Codec}

/-! ### programs without edits -/

/-- reading a section and writing it changes nothing -/
def SecOk (C : Codec) (ss : List (Nat × C.Sec)) : Prop :=
  (ss.map (·.1)).Nodup ∧ ∀ p ∈ ss, (∀ c x, C.parse c p.2 = .ok x → C.store c x p.2 = p.2) ∧
    ∀ l, C.parseList p.2 = .ok l → C.storeList l p.2 = p.2

/-- the object in focus reads and writes without changes -/
def FocusOk : Focus C → Prop
  | .lines _ ls => Lossless C ls
  | .macros _ => True
  | .sections ss _ _ => SecOk C ss

theorem number_fst {α : Type} (n : Nat) (l : List α) : ∀ p ∈ number n l, n ≤ p.1 := by
  induction l generalizing n with
  | nil => simp [number]
  | cons x l ih =>
    intro p hp
    rw [number] at hp
    rcases List.mem_cons.1 hp with rfl | hp
    · exact Nat.le_refl _
    · have := ih (n + 1) p hp; omega

theorem number_nodup {α : Type} (n : Nat) (l : List α) : ((number n l).map (·.1)).Nodup := by
  induction l generalizing n with
  | nil => simp [number]
  | cons x l ih =>
    simp only [number, List.map_cons, List.nodup_cons]
    refine ⟨?_, ih _⟩
    intro h
    obtain ⟨p, hp, he⟩ := List.mem_map.1 h
    have := number_fst _ _ p hp
    omega

theorem number_snd {α : Type} (n : Nat) (l : List α) : (number n l).map (·.2) = l := by
  induction l generalizing n with
  | nil => rfl
  | cons x l ih => simp [number, ih]

theorem secOk_number {ls : List Str} {ss : List C.Sec} (h : Lossless C ls) (hp : C.parseSections ls = .ok ss) :
    SecOk C (number 0 ss) := by
  refine ⟨number_nodup 0 ss, ?_⟩
  intro p hm
  have : p.2 ∈ ss := by
    rw [← number_snd 0 ss]
    exact List.mem_map_of_mem hm
  exact ((h.2 ss hp).2 p.2 this)

/-- distinct identities -/
theorem eq_of_fst {ss : List (Nat × C.Sec)} (h : (ss.map (·.1)).Nodup) {p q : Nat × C.Sec} (hp : p ∈ ss) (hq : q ∈ ss)
    (he : p.1 = q.1) : p = q := by
  induction ss with
  | nil => cases hp
  | cons a l ih =>
    simp only [List.map_cons, List.nodup_cons] at h
    rcases List.mem_cons.1 hp with rfl | hp'
    · rcases List.mem_cons.1 hq with rfl | hq
      · rfl
      · exact absurd (List.mem_map.2 ⟨q, hq, he.symm⟩) h.1
    · rcases List.mem_cons.1 hq with rfl | hq
      · exact absurd (List.mem_map.2 ⟨p, hp', he⟩ : q.1 ∈ l.map (·.1)) h.1
      · exact ih h.2 hp' hq

theorem put_object {c : C.Child} {t : List (Nat × C.Sec) → Except Err (Option Nat)} {ss : List (Nat × C.Sec)}
    {o : Option (Nat × C.X)} (h : SecOk C ss) (ho : object c t ss = .ok o) : put c o ss = ss := by
  cases o with
  | none => rfl
  | some p =>
    obtain ⟨id, x⟩ := p
    rw [object] at ho
    cases ht : t ss with
    | error e => rw [ht] at ho; cases ho
    | ok i =>
      rw [ht] at ho
      cases i with
      | none => simp at ho
      | some i =>
        simp only at ho
        cases hi : ss[i]? with
        | none => rw [hi] at ho; simp at ho
        | some q =>
          rw [hi] at ho
          simp only at ho
          cases hx : C.parse c q.2 with
          | error e => rw [hx] at ho; cases ho
          | ok y =>
            rw [hx] at ho
            simp only [Except.ok.injEq, Option.some.injEq, Prod.mk.injEq] at ho
            obtain ⟨rfl, rfl⟩ := ho
            have hq := List.mem_of_getElem? hi
            have : ∀ r ∈ ss, (fun p : Nat × C.Sec => (p.1, if p.1 = q.1 then C.store c y p.2 else p.2)) r = r := by
              intro r hr
              simp only
              split
              · rename_i he
                have := eq_of_fst h.1 hr hq he
                subst this
                rw [(h.2 _ hr).1 c y hx]
              · rfl
            rw [put]
            have h2 := List.map_congr_left this
            rw [h2, List.map_id']

theorem mem_lists {g : C.Group} {ss : List (Nat × C.Sec)} {ls : List (Nat × C.L)} (h : lists g ss = .ok ls) :
    ∀ q ∈ ls, ∃ p ∈ ss, p.1 = q.1 ∧ C.parseList p.2 = .ok q.2 := by
  rw [lists] at h
  split at h
  · cases h
  · simp only [Except.ok.injEq] at h
    subst h
    intro q hq
    obtain ⟨p, hp, ho⟩ := List.mem_filterMap.1 hq
    rw [listOf] at ho
    split at ho
    · cases ho
    · rename_i l hl
      cases ho
      exact ⟨p, (List.mem_filter.1 hp).1, rfl, hl⟩

theorem putLists_same {ss : List (Nat × C.Sec)} (h : SecOk C ss) (ls : List (Nat × C.L))
    (hl : ∀ q ∈ ls, ∃ p ∈ ss, p.1 = q.1 ∧ C.parseList p.2 = .ok q.2) : putLists ls ss = ss := by
  induction ls with
  | nil => rfl
  | cons q ls ih =>
    rw [putLists]
    have : ∀ r ∈ ss, (fun p : Nat × C.Sec => (p.1, if p.1 = q.1 then C.storeList q.2 p.2 else p.2)) r = r := by
      intro r hr
      simp only
      split
      · rename_i he
        obtain ⟨p, hp, h1, h2⟩ := hl q (List.mem_cons_self ..)
        have := eq_of_fst h.1 hr hp (he.trans h1.symm)
        subst this
        rw [(h.2 _ hr).2 _ h2]
      · rfl
    rw [List.map_congr_left this, List.map_id']
    exact ih (fun q hq => hl q (List.mem_cons_of_mem _ hq))

/-- what is to be shown for a block without edits -/
def StillIn (f : InSections C) : Prop := ∀ ss os gs ss' os' gs' e, SecOk C ss → f ss os gs = some (ss', os', gs', e) →
  ss' = ss ∧ os' = os ∧ gs' = gs

theorem stillIn_child {c : C.Child} {t : List (Nat × C.Sec) → Except Err (Option Nat)} {f : InSections C} (hf : StillIn f) :
    StillIn (childBlock c t f) := by
  intro ss os gs ss' os' gs' e h he
  rw [childBlock] at he
  cases ho : object c t ss with
  | error err => rw [ho] at he; simp at he; exact ⟨he.1.symm, he.2.1.symm, he.2.2.1.symm⟩
  | ok o =>
    rw [ho] at he
    simp only at he
    split at he
    · split at he
      · rename_i ss2 c2 o2 os2 gs2 e2 hb
        obtain ⟨rfl, h2, rfl⟩ := hf _ _ _ _ _ _ _ h hb
        cases h2
        simp only [Option.some.injEq, Prod.mk.injEq] at he
        obtain ⟨rfl, rfl, rfl, -⟩ := he
        exact ⟨put_object h ho, rfl, rfl⟩
      · cases he
    · cases he

theorem stillIn_group {g : C.Group} {f : InSections C} (hf : StillIn f) : StillIn (groupBlock g f) := by
  intro ss os gs ss' os' gs' e h he
  rw [groupBlock] at he
  cases hl : lists g ss with
  | error err => rw [hl] at he; simp at he; exact ⟨he.1.symm, he.2.1.symm, he.2.2.1.symm⟩
  | ok ls =>
    rw [hl] at he
    simp only at he
    split at he
    · split at he
      · rename_i ss2 os2 g2 ls2 gs2 e2 hb
        obtain ⟨rfl, rfl, h2⟩ := hf _ _ _ _ _ _ _ h hb
        cases h2
        simp only [Option.some.injEq, Prod.mk.injEq] at he
        obtain ⟨rfl, rfl, rfl, -⟩ := he
        exact ⟨putLists_same h _ (mem_lists hl), rfl, rfl⟩
      · cases he
    · cases he

theorem still_sections {f : InSections C} (hf : StillIn f) {b : Bool} {ls : List Str} {φ' : Focus C} {e : Option Err}
    (h : Lossless C ls) (he : sectionBlock b f ls = some (φ', e)) : φ' = .lines b ls := by
  rw [sectionBlock] at he
  cases hp : C.parseSections ls with
  | error err => rw [hp] at he; simp at he; exact he.1.symm
  | ok ss =>
    rw [hp] at he
    simp only at he
    split at he
    · rename_i ss' e' hb
      obtain ⟨rfl, -, -⟩ := hf _ _ _ _ _ _ _ (secOk_number h hp) hb
      simp only [Option.some.injEq, Prod.mk.injEq] at he
      rw [← he.1, number_snd, (h.2 ss hp).1]
    · cases he

theorem still_outer {f : InSections C} (hf : StillIn f) {ss : List (Nat × C.Sec)} {os : Objects C} {gs : Groups C}
    {φ' : Focus C} {e : Option Err} (h : SecOk C ss) (he : outer f ss os gs = some (φ', e)) : φ' = .sections ss os gs := by
  rw [outer] at he
  split at he
  · rename_i ss2 os2 gs2 e2 hb
    obtain ⟨rfl, rfl, rfl⟩ := hf _ _ _ _ _ _ _ h hb
    simp at he
    exact he.1.symm
  · cases he

variable [DecidableEq C.Child]

theorem stillIn_sources {g : C.Group} {f : InSections C} (hf : StillIn f) : StillIn (sourcesBlock g f) := by
  intro ss os gs ss' os' gs' e h he
  rw [sourcesBlock] at he
  split at he
  · exact stillIn_group hf _ _ _ _ _ _ _ h he
  · exact stillIn_child (stillIn_group hf) _ _ _ _ _ _ _ h he

variable [DecidableEq C.Group]

/-- what is to be shown for a program without edits -/
def Still (p : Prog C) : Prop := ∀ (φ φ' : Focus C) (e : Option Err), FocusOk φ → effect p φ = some (φ', e) → φ' = φ

theorem still_inner {p : Prog C} (hp : Still p) : StillIn (inner (effect p)) := by
  intro ss os gs ss' os' gs' e h he
  rw [inner] at he
  split at he
  · rename_i ss2 os2 gs2 e2 hb
    have := hp (.sections ss os gs) _ _ h hb
    cases this
    simp only [Option.some.injEq, Prod.mk.injEq] at he
    exact ⟨he.1.symm, he.2.1.symm, he.2.2.1.symm⟩
  · cases he

theorem still_swallow {p : Prog C} (hp : Still p) {φ φ' : Focus C} {e : Option Err} (h : FocusOk φ)
    (he : (effect p φ).map swallow = some (φ', e)) : φ' = φ := by
  rw [Option.map_eq_some_iff] at he
  obtain ⟨⟨φ1, e1⟩, h1, h2⟩ := he
  simp only [swallow, Prod.mk.injEq] at h2
  rw [← h2.1]
  exact hp _ _ _ h h1

theorem still (p : Prog C) (hn : NoEdits p) : Still p := by
  induction p with
  | skip => intro φ φ' e h he; simp [effect] at he; exact he.1.symm
  | raise err => intro φ φ' e h he; simp [effect] at he; exact he.1.symm
  | seq p q ihp ihq =>
    intro φ φ' e h he
    rw [effect] at he
    cases hp : effect p φ with
    | none => rw [hp] at he; cases he
    | some r =>
      obtain ⟨φ1, e1⟩ := r
      have := ihp hn.1 _ _ _ h hp
      subst this
      rw [hp] at he
      cases e1 with
      | some err => simp at he; exact he.1.symm
      | none => exact ihq hn.2 _ _ _ h he
  | editLines u => exact hn.elim
  | editMacros u => exact hn.elim
  | editSections u => exact hn.elim
  | editChild c u => exact hn.elim
  | editGroup g u => exact hn.elim
  | withLines p ih =>
    intro φ φ' e h he
    have ih := ih hn
    cases φ with
    | lines b ls =>
      cases b with
      | true => exact still_swallow ih h (by simpa [effect] using he)
      | false =>
        rw [effect] at he
        split at he
        · rename_i b' ls' e' hp
          have := ih _ _ _ (by exact h) hp
          simp only [Focus.lines.injEq] at this
          obtain ⟨rfl, rfl⟩ := this
          simp at he; exact he.1.symm
        · cases he
    | macros m => exact still_swallow ih h (by simpa [effect] using he)
    | sections ss os gs => exact still_swallow ih h (by simpa [effect] using he)
  | withMacros p ih =>
    intro φ φ' e h he
    have ih := ih hn
    cases φ with
    | lines b ls =>
      rw [effect] at he
      cases hp : C.parseMacros ls with
      | error err => rw [hp] at he; simp at he; exact he.1.symm
      | ok m =>
        rw [hp] at he
        simp only at he
        split at he
        · rename_i m' e' hb
          have := ih (.macros m) _ _ trivial hb
          simp only [Focus.macros.injEq] at this
          subst this
          simp only [Option.some.injEq, Prod.mk.injEq] at he
          rw [← he.1, h.1 _ hp]
        · cases he
    | macros m => exact still_swallow ih h (by simpa [effect] using he)
    | sections ss os gs => simp [effect] at he
  | withSections p ih =>
    intro φ φ' e h he
    have ih := ih hn
    cases φ with
    | lines b ls =>
      rw [effect] at he
      exact still_sections (still_inner ih) h he
    | macros m => simp [effect] at he
    | sections ss os gs => exact still_swallow ih h (by simpa [effect] using he)
  | withChild c t p ih =>
    intro φ φ' e h he
    have ih := ih hn
    cases φ with
    | lines b ls =>
      rw [effect] at he
      exact still_sections (stillIn_child (still_inner ih)) h he
    | macros m => simp [effect] at he
    | sections ss os gs =>
      rw [effect] at he
      split at he
      · exact still_swallow ih h he
      · exact still_outer (stillIn_child (still_inner ih)) h he
  | withGroup g p ih =>
    intro φ φ' e h he
    have ih := ih hn
    cases φ with
    | lines b ls =>
      rw [effect] at he
      exact still_sections (stillIn_sources (still_inner ih)) h he
    | macros m => simp [effect] at he
    | sections ss os gs =>
      rw [effect] at he
      split at he
      · exact still_swallow ih h he
      · exact still_outer (stillIn_sources (still_inner ih)) h he

/-! ### saving -/

/-- an object is open only if what it is made from is -/
def WF (s : State C) : Prop := (s.macros.isSome → s.linesOpen = true) ∧ (s.sections.isSome → s.linesOpen = true) ∧
  (s.children ≠ [] → s.sections.isSome) ∧ (s.groups ≠ [] → s.sections.isSome)

/-- what a block leaves as it was -/
def Frame (s s' : State C) : Prop := s'.autosave = s.autosave ∧ s'.linesOpen = s.linesOpen ∧
  s'.macros.isSome = s.macros.isSome ∧ s'.sections.isSome = s.sections.isSome ∧ s'.children.length = s.children.length ∧ s'.groups.length = s.groups.length

omit [DecidableEq C.Child] [DecidableEq C.Group] in
theorem Frame.refl (s : State C) : Frame s s := ⟨rfl, rfl, rfl, rfl, rfl, rfl⟩

omit [DecidableEq C.Child] [DecidableEq C.Group] in
theorem Frame.trans {a b c : State C} (h : Frame a b) (g : Frame b c) : Frame a c :=
  ⟨g.1.trans h.1, g.2.1.trans h.2.1, g.2.2.1.trans h.2.2.1, g.2.2.2.1.trans h.2.2.2.1, g.2.2.2.2.1.trans h.2.2.2.2.1,
    g.2.2.2.2.2.trans h.2.2.2.2.2⟩

omit [DecidableEq C.Child] [DecidableEq C.Group] in
theorem Frame.wf {s s' : State C} (h : Frame s s') (g : WF s) : WF s' := by
  obtain ⟨h1, h2, h3, h4, h5, h6⟩ := h
  refine ⟨by rw [h3, h2]; exact g.1, by rw [h4, h2]; exact g.2.1, ?_, ?_⟩
  · intro hc
    rw [h4]
    refine g.2.2.1 ?_
    intro hn
    rw [hn] at h5
    exact hc (List.length_eq_zero_iff.1 h5)
  · intro hc
    rw [h4]
    refine g.2.2.2 ?_
    intro hn
    rw [hn] at h6
    exact hc (List.length_eq_zero_iff.1 h6)

/-- the file is the lines if no lines are accessed -/
def Synced (s : State C) : Prop := s.autosave = true → s.linesOpen = false → s.file = s.lines

/-- what a block does to the frame and the file -/
def Tidy (s s' : State C) : Prop := Frame s s' ∧ (Synced s → Synced s') ∧ (s.autosave = false → s'.file = s.file)

omit [DecidableEq C.Child] [DecidableEq C.Group] in
theorem Tidy.refl (s : State C) : Tidy s s := ⟨Frame.refl s, id, fun _ => rfl⟩

omit [DecidableEq C.Child] [DecidableEq C.Group] in
theorem Tidy.trans {a b c : State C} (h : Tidy a b) (g : Tidy b c) : Tidy a c :=
  ⟨h.1.trans g.1, g.2.1 ∘ h.2.1, fun ha => (g.2.2 (h.1.1.trans ha)).trans (h.2.2 ha)⟩

omit [DecidableEq C.Child] [DecidableEq C.Group] in
/-- inside of a block the file need not be the lines -/
theorem Tidy.inside {s s' : State C} (ho : s.linesOpen = true) (h : Frame s s') (hf : s.autosave = false → s'.file = s.file) :
    Tidy s s' := by
  refine ⟨h, ?_, hf⟩
  intro _ _ hc
  rw [h.2.1, ho] at hc
  cases hc

omit [DecidableEq C.Child] [DecidableEq C.Group] in
theorem tidy_needLines {s : State C} {f : State C → Res C} (h : Tidy { s with linesOpen := true } (f { s with linesOpen := true }).1) :
    Tidy s (needLines s f).1 := by
  rw [needLines]
  split
  · rename_i ho
    have : { s with linesOpen := true } = s := by rw [← ho]
    rw [this] at h
    exact h
  · rename_i ho
    have ho : s.linesOpen = false := by simpa using ho
    obtain ⟨⟨h1, h2, h3, h4, h5⟩, _, h6⟩ := h
    refine ⟨⟨h1, ho.symm, h3, h4, h5⟩, ?_, ?_⟩
    · intro _ ha _
      simp only [keep] at ha ⊢
      rw [if_pos ha]
    · intro ha
      simp only [keep]
      rw [if_neg (by rw [h1]; simp [ha])]
      exact h6 ha

omit [DecidableEq C.Child] [DecidableEq C.Group] in
theorem wf_open {s : State C} (h : WF s) : WF { s with linesOpen := true } := ⟨fun _ => rfl, fun _ => rfl, h.2.2⟩

omit [DecidableEq C.Child] [DecidableEq C.Group] in
theorem tidy_needSections {s : State C} {f : State C → Res C} (hw : WF s)
    (h : ∀ s1 : State C, WF s1 → s1.sections.isSome → Tidy s1 (f s1).1) :
    Tidy s (needSections s f).1 := by
  rw [needSections]
  cases hs : s.sections with
  | some ss => exact h s hw (by simp [hs])
  | none =>
    refine tidy_needLines ?_
    simp only
    split
    · exact Tidy.refl _
    · rename_i ss hp
      obtain ⟨⟨h1, h2, h3, h4, h5⟩, _, h6⟩ := h { s with linesOpen := true, sections := some (number 0 ss) }
        ⟨fun _ => rfl, fun _ => rfl, fun _ => rfl, fun _ => rfl⟩ rfl
      exact Tidy.inside rfl ⟨h1, h2, h3, by simp [keep, hs], h5⟩ h6

omit [DecidableEq C.Child] [DecidableEq C.Group] in
theorem tidy_openChild {s : State C} {c : C.Child} {t : List (Nat × C.Sec) → Except Err (Option Nat)} {f : State C → Res C}
    (hw : WF s) (hs : s.sections.isSome)
    (h : ∀ s1 : State C, WF s1 → s1.sections.isSome → Tidy s1 (f s1).1) : Tidy s (openChild c t f s).1 := by
  have ho := hw.2.1 hs
  have hb : ∀ o : Option (Nat × C.X), Tidy s (closeChild (f { s with children := (c, o) :: s.children }).1) := by
    intro o
    obtain ⟨⟨h1, h2, h3, h4, h5, h7⟩, _, h6⟩ := h { s with children := (c, o) :: s.children } ⟨hw.1, hw.2.1, fun _ => hs, fun _ => hs⟩ hs
    generalize (f { s with children := (c, o) :: s.children }).1 = r at *
    refine Tidy.inside ho ?_ ?_
    · rw [closeChild]
      split
      · rename_i hc
        rw [hc] at h5
        exact ⟨h1, h2, h3, by simpa using h4, by simpa using h5, h7⟩
      · rename_i hc
        rw [hc] at h5
        exact ⟨h1, h2, h3, h4, by simpa using h5, h7⟩
      · rename_i hc
        rw [hc] at h5
        simp at h5
    · rw [closeChild]
      split <;> exact h6
  rw [openChild]
  split
  · exact Tidy.refl s
  · split
    · exact Tidy.refl s
    · exact hb _
    · split
      · exact Tidy.refl s
      · split
        · exact Tidy.refl s
        · exact hb _

omit [DecidableEq C.Child] [DecidableEq C.Group] in
theorem tidy_openGroup {s : State C} {g : C.Group} {f : State C → Res C} (hw : WF s) (hs : s.sections.isSome)
    (h : ∀ s1 : State C, WF s1 → s1.linesOpen = true → Tidy s1 (f s1).1) : Tidy s (openGroup g f s).1 := by
  have ho := hw.2.1 hs
  rw [openGroup]
  split
  · exact Tidy.refl s
  · split
    · exact Tidy.refl s
    · rename_i ls hl
      obtain ⟨⟨h1, h2, h3, h4, h5, h7⟩, _, h6⟩ := h { s with groups := (g, ls) :: s.groups }
        ⟨hw.1, hw.2.1, fun _ => hs, fun _ => hs⟩ ho
      simp only [keep]
      generalize (f { s with groups := (g, ls) :: s.groups }).1 = r at *
      refine Tidy.inside ho ?_ ?_
      · rw [closeGroup]
        split
        · rename_i hc
          rw [hc] at h7
          exact ⟨h1, h2, h3, by simpa using h4, h5, by simpa using h7⟩
        · rename_i hc
          rw [hc] at h7
          simp at h7
      · rw [closeGroup]
        split <;> exact h6

omit [DecidableEq C.Group] in
theorem tidy_needChild {s : State C} {c : C.Child} {t : List (Nat × C.Sec) → Except Err (Option Nat)} {f : State C → Res C}
    (hw : WF s) (hs : s.sections.isSome)
    (h : ∀ s1 : State C, WF s1 → s1.sections.isSome → Tidy s1 (f s1).1) : Tidy s (needChild c t f s).1 := by
  rw [needChild]
  split
  · exact h s hw hs
  · exact tidy_needSections hw (fun s1 hw1 hs1 => tidy_openChild hw1 hs1 h)

omit [DecidableEq C.Group] in
theorem editAt_length (c : C.Child) (u : C.X → C.X) (l : List (C.Child × Option (Nat × C.X))) :
    (editAt c u l).length = l.length := by
  induction l with
  | nil => rfl
  | cons a l ih =>
    obtain ⟨c', o⟩ := a
    rw [editAt]
    split
    · rfl
    · simp [ih]

omit [DecidableEq C.Child] in
theorem editLists_length (g : C.Group) (new : List C.L) (l : List (C.Group × List (Nat × C.L))) :
    (editLists g new l).length = l.length := by
  induction l with
  | nil => rfl
  | cons a l ih =>
    obtain ⟨g', o⟩ := a
    rw [editLists]
    split
    · rfl
    · simp [ih]

theorem tidy_run (p : Prog C) : ∀ (s : State C) (b : Bool), WF s → (b = true → s.linesOpen = true) → EditsInside b p →
    Tidy s (run p s).1 := by
  induction p with
  | skip => intro s b _ _ _; exact Tidy.refl s
  | raise e => intro s b _ _ _; exact Tidy.refl s
  | seq p q ihp ihq =>
    intro s b hw hb he
    have h1 := ihp s b hw hb he.1
    rw [run]
    generalize run p s = r at *
    obtain ⟨s1, e1⟩ := r
    cases e1 with
    | some e => exact h1
    | none => exact h1.trans (ihq s1 b (h1.1.wf hw) (fun hb' => h1.1.2.1.trans (hb hb')) he.2)
  | editLines u =>
    intro s b hw hb he
    exact Tidy.inside (hb he) ⟨rfl, rfl, rfl, rfl, rfl, rfl⟩ (fun _ => rfl)
  | editMacros u => intro s b hw hb he; exact ⟨⟨rfl, rfl, by simp [run], rfl, rfl, rfl⟩, id, fun _ => rfl⟩
  | editSections u => intro s b hw hb he; exact ⟨⟨rfl, rfl, rfl, by simp [run], rfl, rfl⟩, id, fun _ => rfl⟩
  | editChild c u =>
    intro s b hw hb he
    exact ⟨⟨rfl, rfl, rfl, rfl, by simp [run, editAt_length], rfl⟩, id, fun _ => rfl⟩
  | editGroup g u =>
    intro s b hw hb he
    rw [run, editSources]
    split
    · exact Tidy.refl s
    · exact ⟨⟨rfl, rfl, rfl, rfl, by simp [editAt_length], by simp [editLists_length]⟩, id, fun _ => rfl⟩
  | withLines p ih =>
    intro s b hw hb he
    rw [run, inLines]
    split
    · rename_i ho
      exact ih s true hw (fun _ => ho) he
    · exact tidy_needLines (ih _ true (wf_open hw) (fun _ => rfl) he)
  | withMacros p ih =>
    intro s b hw hb he
    rw [run, inMacros]
    cases hm : s.macros with
    | some m => exact ih s true hw (fun _ => hw.1 (by simp [hm])) he
    | none =>
      refine tidy_needLines ?_
      simp only
      split
      · exact Tidy.refl _
      · rename_i m hp
        obtain ⟨⟨h1, h2, h3, h4, h5⟩, _, h6⟩ := ih { s with linesOpen := true, macros := some m } true
          ⟨fun _ => rfl, fun _ => rfl, hw.2.2⟩ (fun _ => rfl) he
        exact Tidy.inside rfl ⟨h1, h2, by simp [keep, hm], h4, h5⟩ h6
  | withSections p ih =>
    intro s b hw hb he
    rw [run, inSections]
    split
    · rename_i hs
      exact ih s true hw (fun _ => hw.2.1 hs) he
    · exact tidy_needSections hw (fun s1 hw1 hs1 => ih s1 true hw1 (fun _ => hw1.2.1 hs1) he)
  | withChild c t p ih =>
    intro s b hw hb he
    rw [run, inChild]
    split
    · rename_i hc
      have hne : s.children ≠ [] := by intro hn; rw [hn] at hc; simp at hc
      exact ih s true hw (fun _ => hw.2.1 (hw.2.2.1 hne)) he
    · exact tidy_needSections hw (fun s1 hw1 hs1 => tidy_openChild hw1 hs1 (fun s2 hw2 hs2 => ih s2 true hw2 (fun _ => hw2.2.1 hs2) he))
  | withGroup g p ih =>
    intro s b hw hb he
    rw [run, inGroup]
    split
    · rename_i hc
      have hne : s.groups ≠ [] := by intro hn; rw [hn] at hc; simp at hc
      exact ih s true hw (fun _ => hw.2.1 (hw.2.2.2 hne)) he
    · exact tidy_needSections hw (fun s1 hw1 hs1 => tidy_needChild hw1 hs1 (fun s2 hw2 hs2 =>
        tidy_openGroup hw2 hs2 (fun s3 hw3 ho3 => ih s3 true hw3 (fun _ => ho3) he)))

end Specfile.Access
