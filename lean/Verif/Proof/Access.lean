import Verif.Spec.Access
/-
Nested blocks have the specified effect.
-/
namespace Specfile.Access
open Py Spec

variable {C : Codec}

/-- the state represents what is open -/
def Rep (s : State C) : Focus C → Prop
  | .lines b ls => s.lines = ls ∧ s.linesOpen = b ∧ s.macros = none ∧ s.sections = none ∧ s.children = [] ∧ s.groups = []
  | .macros m => s.linesOpen = true ∧ s.macros = some m ∧ s.sections = none ∧ s.children = [] ∧ s.groups = []
  | .sections ss os gs => s.linesOpen = true ∧ s.macros = none ∧ s.sections = some ss ∧ s.children = os ∧ s.groups = gs

/-- what is open stays open -/
def Shape : Focus C → Focus C → Prop
  | .lines b _, .lines b' _ => b = b'
  | .macros _, .macros _ => True
  | .sections _ _ _, .sections _ _ _ => True
  | _, _ => False

theorem Shape.refl (φ : Focus C) : Shape φ φ := by cases φ <;> simp [Shape]

theorem Shape.trans {a b c : Focus C} (h1 : Shape a b) (h2 : Shape b c) : Shape a c := by
  cases a <;> cases b <;> cases c <;> simp_all [Shape]

/-- a block does what is specified if the sections are open -/
def GoodIn (f : InSections C) (body : State C → Res C) : Prop :=
  ∀ (s : State C) ss os gs ss' os' gs' e, Rep s (.sections ss os gs) → f ss os gs = some (ss', os', gs', e) →
    ∃ s', body s = (s', e) ∧ Rep s' (.sections ss' os' gs')

theorem rep_lines {s : State C} {b : Bool} {ls : List Str} (h : Rep s (.lines b ls)) {body : State C → Res C} {ls' : List Str}
    {e : Option Err}
    (hb : ∀ s1 : State C, Rep s1 (.lines true ls) → ∃ s2, body s1 = (s2, e) ∧ Rep s2 (.lines true ls')) :
    ∃ s', needLines s body = (s', e) ∧ Rep s' (.lines b ls') := by
  obtain ⟨rfl, hb', hm, hs, hc⟩ := h
  rw [needLines]
  cases b with
  | true =>
    rw [if_pos hb']
    exact hb s ⟨rfl, hb', hm, hs, hc⟩
  | false =>
    rw [if_neg (by simp [hb'])]
    obtain ⟨s2, e2, h1, h2, h3, h4, h5⟩ := hb { s with linesOpen := true } ⟨rfl, rfl, hm, hs, hc⟩
    simp only [e2, keep]
    exact ⟨_, rfl, h1, rfl, h3, h4, h5⟩

theorem rep_sections {s : State C} {b : Bool} {ls : List Str} (h : Rep s (.lines b ls)) {body : State C → Res C}
    {φ' : Focus C} {e : Option Err} {f : InSections C} (hf : GoodIn f body) (he : sectionBlock b f ls = some (φ', e)) :
    ∃ s', needSections s body = (s', e) ∧ Rep s' φ' ∧ Shape (.lines b ls) φ' := by
  have hn : s.sections = none := h.2.2.2.1
  suffices H : ∃ s' ls', φ' = .lines b ls' ∧ needSections s body = (s', e) ∧ Rep s' (.lines b ls') by
    obtain ⟨s', ls', rfl, h1, h2⟩ := H
    exact ⟨s', h1, h2, rfl⟩
  rw [needSections]
  simp only [hn]
  rw [sectionBlock] at he
  cases hp : C.parseSections ls with
  | error err =>
    rw [hp] at he
    simp only [Option.some.injEq, Prod.mk.injEq] at he
    obtain ⟨rfl, rfl⟩ := he
    obtain ⟨s', a1, a2⟩ := rep_lines (ls' := ls) (e := some err) h (body := fun s =>
      match C.parseSections s.lines with
      | .error e => (s, some e)
      | .ok ss =>
        let r := body { s with sections := some (number 0 ss) }
        keep r { r.1 with sections := none, lines := match r.1.sections with
          | some ss => C.rawSections (ss.map (·.2))
          | none => r.1.lines }) (by
      rintro s1 ⟨rfl, h2⟩
      simp only [hp]
      exact ⟨s1, rfl, rfl, h2⟩)
    exact ⟨s', ls, rfl, a1, a2⟩
  | ok ss =>
    rw [hp] at he
    simp only at he
    split at he
    · rename_i ss' e' hb
      simp only [Option.some.injEq, Prod.mk.injEq] at he
      obtain ⟨rfl, rfl⟩ := he
      obtain ⟨s', a1, a2⟩ := rep_lines (ls' := C.rawSections (ss'.map (·.2))) (e := e') h (body := fun s =>
        match C.parseSections s.lines with
        | .error e => (s, some e)
        | .ok ss =>
          let r := body { s with sections := some (number 0 ss) }
          keep r { r.1 with sections := none, lines := match r.1.sections with
            | some ss => C.rawSections (ss.map (·.2))
            | none => r.1.lines }) (by
        rintro s1 ⟨rfl, h2, h3, h4, h5, h6⟩
        obtain ⟨s2, hb2, g1, g2, g3, g4, g5⟩ := hf { s1 with sections := some (number 0 ss) } _ _ _ _ _ _ _
          ⟨h2, h3, rfl, h5, h6⟩ hb
        simp only [hp, hb2, keep, g3]
        exact ⟨_, rfl, rfl, g1, g2, rfl, g4, g5⟩)
      exact ⟨s', _, rfl, a1, a2⟩
    · cases he

theorem put_eq (c : C.Child) (id : Nat) (x : C.X) (ss : List (Nat × C.Sec)) : storeAt c id x ss = put c (some (id, x)) ss := by
  simp only [storeAt, put]
  congr 1
  funext p
  split <;> rfl

theorem putLists_eq (ls : List (Nat × C.L)) (ss : List (Nat × C.Sec)) :
    ls.foldl (fun ss q => storeListAt q ss) ss = putLists ls ss := by
  induction ls generalizing ss with
  | nil => rfl
  | cons q ls ih =>
    rw [List.foldl_cons, ih, putLists, storeListAt]
    congr 2
    funext p
    split <;> rfl

theorem lists_eq (g : C.Group) (ss : List (Nat × C.Sec)) : listsOf g ss = lists g ss := by
  induction ss with
  | nil => rfl
  | cons p ss ih =>
    rw [listsOf, lists]
    cases hl : C.isList g p.2 with
    | false =>
      rw [if_neg (by simp), List.filter_cons_of_neg (by simp [hl]), ih, lists]
    | true =>
      rw [if_pos rfl, List.filter_cons_of_pos (by simp [hl]), List.findSome?_cons, List.filterMap_cons, ih, lists]
      cases hp : C.parseList p.2 with
      | error e => simp [listError, hp]
      | ok l =>
        simp only [listError, listOf, hp]
        cases (ss.filter (fun p => C.isList g p.2)).findSome? listError <;> rfl

/-- an object that is written back -/
theorem rep_closeChild {s : State C} {ss : List (Nat × C.Sec)} {os : Objects C} {gs : Groups C} {c : C.Child}
    {o : Option (Nat × C.X)} (h : Rep s (.sections ss ((c, o) :: os) gs)) :
    Rep (closeChild s) (.sections (put c o ss) os gs) := by
  obtain ⟨g1, g2, g3, g4, g5⟩ := h
  rw [closeChild, g4]
  cases o with
  | none => exact ⟨g1, g2, by simp [put, g3], rfl, g5⟩
  | some q => exact ⟨g1, g2, by simp [g3, put_eq], rfl, g5⟩

/-- lists that are written back -/
theorem rep_closeGroup {s : State C} {ss : List (Nat × C.Sec)} {os : Objects C} {gs : Groups C} {g : C.Group}
    {ls : List (Nat × C.L)} (h : Rep s (.sections ss os ((g, ls) :: gs))) :
    Rep (closeGroup s) (.sections (putLists ls ss) os gs) := by
  obtain ⟨g1, g2, g3, g4, g5⟩ := h
  rw [closeGroup, g5]
  exact ⟨g1, g2, by simp [g3, putLists_eq], g4, rfl⟩

theorem goodIn_child {c : C.Child} {t : List (Nat × C.Sec) → Except Err (Option Nat)} {f : InSections C}
    {body : State C → Res C} (hf : GoodIn f body) : GoodIn (childBlock c t f) (openChild c t body) := by
  intro s ss os gs ss' os' gs' e h he
  obtain ⟨h1, h2, h3, h4, h5⟩ := h
  have key : ∀ o : Option (Nat × C.X), object c t ss = .ok o →
      ∃ s', (keep (body { s with children := (c, o) :: s.children })
        (closeChild (body { s with children := (c, o) :: s.children }).1)) = (s', e) ∧ Rep s' (.sections ss' os' gs') := by
    intro o ho
    simp only [childBlock, ho] at he
    split at he
    · split at he
      · rename_i ss2 c2 o2 os2 gs2 e2 hb
        simp only [Option.some.injEq, Prod.mk.injEq] at he
        obtain ⟨rfl, rfl, rfl, rfl⟩ := he
        obtain ⟨s', hr, hrep⟩ := hf { s with children := (c, o) :: s.children } ss ((c, o) :: os) gs _ _ _ _
          ⟨h1, h2, h3, by rw [h4], h5⟩ hb
        rw [hr]
        exact ⟨closeChild s', rfl, rep_closeChild hrep⟩
      · cases he
    · cases he
  rw [openChild]
  simp only [h3] at key ⊢
  cases ht : t ss with
  | error err =>
    simp only [childBlock, object, ht, Option.some.injEq, Prod.mk.injEq] at he
    obtain ⟨rfl, rfl, rfl, rfl⟩ := he
    exact ⟨s, rfl, h1, h2, h3, h4, h5⟩
  | ok o =>
    cases o with
    | none => exact key none (by simp [object, ht])
    | some i =>
      cases hi : ss[i]? with
      | none =>
        have : InRange t ss = false := by
          rw [List.getElem?_eq_none_iff] at hi
          simp [InRange, ht]; omega
        simp [childBlock, object, ht, hi, this] at he
      | some q =>
        simp only [hi]
        cases hx : C.parse c q.2 with
        | error err =>
          simp only [childBlock, object, ht, hi, hx, Option.some.injEq, Prod.mk.injEq] at he
          obtain ⟨rfl, rfl, rfl, rfl⟩ := he
          exact ⟨s, rfl, h1, h2, h3, h4, h5⟩
        | ok x => exact key (some (q.1, x)) (by simp [object, ht, hi, hx])

theorem goodIn_group {g : C.Group} {f : InSections C} {body : State C → Res C} (hf : GoodIn f body) :
    GoodIn (groupBlock g f) (openGroup g body) := by
  intro s ss os gs ss' os' gs' e h he
  obtain ⟨h1, h2, h3, h4, h5⟩ := h
  rw [openGroup]
  simp only [h3, lists_eq]
  cases hl : lists g ss with
  | error err =>
    simp only [groupBlock, hl, Option.some.injEq, Prod.mk.injEq] at he
    obtain ⟨rfl, rfl, rfl, rfl⟩ := he
    exact ⟨s, rfl, h1, h2, h3, h4, h5⟩
  | ok ls =>
    simp only [groupBlock, hl] at he
    split at he
    · split at he
      · rename_i ss2 os2 g2 ls2 gs2 e2 hb
        simp only [Option.some.injEq, Prod.mk.injEq] at he
        obtain ⟨rfl, rfl, rfl, rfl⟩ := he
        obtain ⟨s', hr, hrep⟩ := hf { s with groups := (g, ls) :: s.groups } ss os ((g, ls) :: gs) _ _ _ _
          ⟨h1, h2, h3, h4, by rw [h5]⟩ hb
        simp only [h3] at hr
        simp only [hr]
        exact ⟨closeGroup s', rfl, rep_closeGroup hrep⟩
      · cases he
    · cases he

variable [DecidableEq C.Child] [DecidableEq C.Group]

omit [DecidableEq C.Group] in
theorem goodIn_sources {g : C.Group} {f : InSections C} {body : State C → Res C} (hf : GoodIn f body) :
    GoodIn (sourcesBlock g f) (needChild C.preamble C.preambleAt (openGroup g body)) := by
  intro s ss os gs ss' os' gs' e h he
  rw [sourcesBlock] at he
  rw [needChild, h.2.2.2.1]
  split at he
  · rename_i hc
    rw [if_pos hc]
    exact goodIn_group hf s _ _ _ _ _ _ _ h he
  · rename_i hc
    rw [if_neg hc, needSections]
    simp only [h.2.2.1]
    exact goodIn_child (goodIn_group hf) s _ _ _ _ _ _ _ h he

omit [DecidableEq C.Group] in
theorem editAt_update {c : C.Child} {u : C.X → C.X} {os os' : Objects C} (h : update c u os = some os') :
    editAt c u os = os' := by
  induction os generalizing os' with
  | nil => cases h
  | cons q os ih =>
    obtain ⟨c', o⟩ := q
    rw [update] at h
    rw [editAt]
    split at h
    · rename_i hc
      rw [if_pos hc]
      simpa using h
    · rename_i hc
      rw [if_neg hc]
      rw [Option.map_eq_some_iff] at h
      obtain ⟨os2, h1, rfl⟩ := h
      rw [ih h1]

omit [DecidableEq C.Group] in
theorem objectOf_eq (c : C.Child) (os : Objects C) : objectOf c os = objectIn c os := by
  induction os with
  | nil => rfl
  | cons q os ih =>
    obtain ⟨c', o⟩ := q
    rw [objectOf, objectIn, List.find?_cons]
    by_cases hc : c' = c
    · simp only [hc, if_true, decide_true]
      cases o <;> rfl
    · simp only [hc, if_false, decide_false]
      rw [ih, objectIn]

omit [DecidableEq C.Child] in
theorem listsAt_eq {g : C.Group} {gs : Groups C} {ls : List C.L} (h : listsIn g gs = some ls) : listsAt g gs = ls := by
  induction gs with
  | nil => cases h
  | cons q gs ih =>
    obtain ⟨g', l⟩ := q
    rw [listsIn, List.find?_cons] at h
    rw [listsAt]
    by_cases hg : g' = g
    · simpa [hg] using h
    · simp only [hg, decide_false] at h
      rw [if_neg hg]
      exact ih h

omit [DecidableEq C.Child] [DecidableEq C.Group] in
theorem refill_eq (ls : List (Nat × C.L)) (new : List C.L) : refill ls new = replace ls new := by
  induction ls generalizing new with
  | nil => cases new <;> rfl
  | cons p ls ih =>
    cases new with
    | nil =>
      rw [replace]
      · simp only [refill, List.getElem?_nil, Option.getD_none]
        have : (List.mapIdx (fun _ (p : Nat × C.L) => (p.fst, p.snd)) (p :: ls)) = (p :: ls) := by
          apply List.ext_getElem?
          intro i
          rw [List.getElem?_mapIdx]
          cases (p :: ls)[i]? <;> rfl
        exact this.symm
    | cons x new =>
      rw [refill, ih, replace, replace, List.mapIdx_cons]
      simp

omit [DecidableEq C.Child] in
theorem editLists_eq (g : C.Group) (new : List C.L) (gs : Groups C) : editLists g new gs = updateLists g new gs := by
  induction gs with
  | nil => rfl
  | cons q gs ih =>
    obtain ⟨g', ls⟩ := q
    rw [editLists, updateLists, ih, refill_eq]

theorem rep_updateGroup {g : C.Group} {u : C.X → List C.L → C.X × List C.L} :
    GoodIn (updateGroup g u) (fun s => (editSources g u s, none)) := by
  intro s ss os gs ss' os' gs' e h he
  obtain ⟨h1, h2, h3, h4, h5⟩ := h
  rw [updateGroup] at he
  split at he
  · rename_i x ls ho hl
    split at he
    · rename_i os2 hu
      simp only [Option.some.injEq, Prod.mk.injEq] at he
      obtain ⟨rfl, rfl, rfl, rfl⟩ := he
      refine ⟨_, rfl, ?_⟩
      rw [editSources]
      simp only [h4, h5, objectOf_eq, ho, listsAt_eq hl, editAt_update hu, editLists_eq]
      exact ⟨h1, h2, h3, rfl, rfl⟩
    · cases he
  · cases he

/-- what is to be shown for a program -/
def Good (p : Prog C) : Prop := ∀ (φ φ' : Focus C) (e : Option Err) (s : State C), Rep s φ → effect p φ = some (φ', e) →
  ∃ s', run p s = (s', e) ∧ Rep s' φ' ∧ Shape φ φ'

theorem good_inner {p : Prog C} (hp : Good p) : GoodIn (inner (effect p)) (run p) := by
  intro s ss os gs ss' os' gs' e h he
  rw [inner] at he
  split at he
  · rename_i ss2 os2 gs2 e2 hb
    simp only [Option.some.injEq, Prod.mk.injEq] at he
    obtain ⟨rfl, rfl, rfl, rfl⟩ := he
    obtain ⟨s', h1, h2, -⟩ := hp _ _ _ s h hb
    exact ⟨s', h1, h2⟩
  · cases he

omit [DecidableEq C.Child] [DecidableEq C.Group] in
theorem good_outer {f : InSections C} {body : State C → Res C} (hf : GoodIn f body) {s : State C}
    {ss : List (Nat × C.Sec)} {os : Objects C} {gs : Groups C} {φ' : Focus C} {e : Option Err}
    (h : Rep s (.sections ss os gs)) (he : outer f ss os gs = some (φ', e)) :
    ∃ s', body s = (s', e) ∧ Rep s' φ' ∧ Shape (.sections ss os gs) φ' := by
  rw [outer] at he
  split at he
  · rename_i ss2 os2 gs2 e2 hb
    simp only [Option.some.injEq, Prod.mk.injEq] at he
    obtain ⟨rfl, rfl⟩ := he
    obtain ⟨s', h1, h2⟩ := hf s _ _ _ _ _ _ _ h hb
    exact ⟨s', h1, h2, trivial⟩
  · cases he

theorem good_swallow {p : Prog C} (hp : Good p) {φ φ' : Focus C} {e : Option Err} {s : State C} (h : Rep s φ)
    (he : (effect p φ).map swallow = some (φ', e)) : ∃ s', shared (run p s) = (s', e) ∧ Rep s' φ' ∧ Shape φ φ' := by
  rw [Option.map_eq_some_iff] at he
  obtain ⟨⟨φ1, e1⟩, h1, h2⟩ := he
  obtain ⟨s', hr, hrep, hs⟩ := hp _ _ _ s h h1
  simp only [swallow, Prod.mk.injEq] at h2
  obtain ⟨rfl, rfl⟩ := h2
  exact ⟨s', by simp [shared, hr], hrep, hs⟩

theorem good (p : Prog C) : Good p := by
  induction p with
  | skip =>
    intro φ φ' e s h he
    simp only [effect, Option.some.injEq, Prod.mk.injEq] at he
    obtain ⟨rfl, rfl⟩ := he
    exact ⟨s, rfl, h, Shape.refl _⟩
  | raise err =>
    intro φ φ' e s h he
    simp only [effect, Option.some.injEq, Prod.mk.injEq] at he
    obtain ⟨rfl, rfl⟩ := he
    exact ⟨s, rfl, h, Shape.refl _⟩
  | seq p q ihp ihq =>
    intro φ φ' e s h he
    rw [effect] at he
    cases hp : effect p φ with
    | none => rw [hp] at he; cases he
    | some r =>
      obtain ⟨φ1, e1⟩ := r
      rw [hp] at he
      obtain ⟨s1, hr1, hrep1, hs1⟩ := ihp _ _ _ s h hp
      cases e1 with
      | some err =>
        simp only [Option.some.injEq, Prod.mk.injEq] at he
        obtain ⟨rfl, rfl⟩ := he
        exact ⟨s1, by rw [run, hr1], hrep1, hs1⟩
      | none =>
        simp only at he
        obtain ⟨s2, hr2, hrep2, hs2⟩ := ihq _ _ _ s1 hrep1 he
        exact ⟨s2, by rw [run, hr1]; exact hr2, hrep2, hs1.trans hs2⟩
  | editLines u =>
    intro φ φ' e s h he
    cases φ with
    | lines b ls =>
      cases b with
      | false => simp [effect] at he
      | true =>
        simp only [effect, Option.some.injEq, Prod.mk.injEq] at he
        obtain ⟨rfl, rfl⟩ := he
        obtain ⟨rfl, h2, h3, h4, h5⟩ := h
        exact ⟨_, rfl, ⟨rfl, h2, h3, h4, h5⟩, rfl⟩
    | _ => simp [effect] at he
  | editMacros u =>
    intro φ φ' e s h he
    cases φ with
    | macros m =>
      simp only [effect, Option.some.injEq, Prod.mk.injEq] at he
      obtain ⟨rfl, rfl⟩ := he
      obtain ⟨h2, h3, h4, h5⟩ := h
      exact ⟨_, rfl, ⟨h2, by simp [h3], h4, h5⟩, trivial⟩
    | _ => simp [effect] at he
  | editSections u =>
    intro φ φ' e s h he
    cases φ with
    | sections m os gs =>
      cases os with
      | cons _ _ => simp [effect] at he
      | nil =>
        cases gs with
        | cons _ _ => simp [effect] at he
        | nil =>
          simp only [effect, Option.some.injEq, Prod.mk.injEq] at he
          obtain ⟨rfl, rfl⟩ := he
          obtain ⟨h2, h3, h4, h5⟩ := h
          exact ⟨_, rfl, ⟨h2, h3, by simp [h4], h5⟩, trivial⟩
    | _ => simp [effect] at he
  | editChild c u =>
    intro φ φ' e s h he
    cases φ with
    | sections ss os gs =>
      rw [effect] at he
      split at he
      · rename_i os' hu
        simp only [Option.some.injEq, Prod.mk.injEq] at he
        obtain ⟨rfl, rfl⟩ := he
        obtain ⟨h2, h3, h4, h5, h6⟩ := h
        exact ⟨_, rfl, ⟨h2, h3, h4, by rw [← editAt_update hu, h5], h6⟩, trivial⟩
      · cases he
    | _ => simp [effect] at he
  | editGroup g u =>
    intro φ φ' e s h he
    cases φ with
    | sections ss os gs =>
      rw [effect] at he
      exact good_outer rep_updateGroup h he
    | _ => simp [effect] at he
  | withLines p ih =>
    intro φ φ' e s h he
    have sh : s.linesOpen = true → (effect p φ).map swallow = some (φ', e) →
        ∃ s', run (.withLines p) s = (s', e) ∧ Rep s' φ' ∧ Shape φ φ' := by
      intro ho he
      obtain ⟨s', h1, h2⟩ := good_swallow ih h he
      exact ⟨s', by rw [run, inLines, if_pos ho, h1], h2⟩
    cases φ with
    | lines b ls =>
      cases b with
      | true => exact sh h.2.1 (by simpa [effect] using he)
      | false =>
        rw [effect] at he
        cases hp : effect p (.lines true ls) with
        | none => rw [hp] at he; simp at he
        | some r =>
          obtain ⟨φ1, e1⟩ := r
          rw [hp] at he
          have hg : ∀ s1 : State C, Rep s1 (.lines true ls) → ∃ s2, run p s1 = (s2, e1) ∧ Rep s2 φ1 ∧ Shape (.lines true ls) φ1 :=
            fun s1 hr => ih _ _ _ s1 hr hp
          cases φ1 with
          | lines b' ls' =>
            simp only [Option.some.injEq, Prod.mk.injEq] at he
            obtain ⟨rfl, rfl⟩ := he
            have := rep_lines (body := run p) (ls' := ls') (e := e1) h (by
              intro s1 hr
              obtain ⟨s2, a1, a2, a3⟩ := hg s1 hr
              simp only [Shape] at a3
              subst a3
              exact ⟨s2, a1, a2⟩)
            obtain ⟨s', b1, b2⟩ := this
            refine ⟨s', ?_, b2, rfl⟩
            rw [run, inLines, if_neg (by simp [h.2.1])]
            exact b1
          | _ => simp at he
    | macros m => exact sh h.1 (by simpa [effect] using he)
    | sections ss os gs => exact sh h.1 (by simpa [effect] using he)
  | withMacros p ih =>
    intro φ φ' e s h he
    cases φ with
    | lines b ls =>
      rw [effect] at he
      have hm : s.macros = none := h.2.2.1
      rw [run, inMacros]
      simp only [hm]
      cases hp : C.parseMacros ls with
      | error err =>
        rw [hp] at he
        simp only [Option.some.injEq, Prod.mk.injEq] at he
        obtain ⟨rfl, rfl⟩ := he
        have := rep_lines (e := some err) (ls' := ls) (body := fun s =>
          match C.parseMacros s.lines with
          | .error e => (s, some e)
          | .ok m =>
            let r := run p { s with macros := some m }
            keep r { r.1 with macros := none, lines := match r.1.macros with
              | some m => C.rawMacros m
              | none => r.1.lines }) h (by
            intro s1 hr
            exact ⟨s1, by simp only [hr.1, hp], hr⟩)
        obtain ⟨s', a1, a2⟩ := this
        exact ⟨s', a1, a2, rfl⟩
      | ok m =>
        rw [hp] at he
        simp only at he
        cases hq : effect p (.macros m) with
        | none => rw [hq] at he; simp at he
        | some r =>
          obtain ⟨φ1, e1⟩ := r
          rw [hq] at he
          cases φ1 with
          | macros m' =>
            simp only [Option.some.injEq, Prod.mk.injEq] at he
            obtain ⟨rfl, rfl⟩ := he
            have := rep_lines (e := e1) (ls' := C.rawMacros m') (body := fun s =>
              match C.parseMacros s.lines with
              | .error e => (s, some e)
              | .ok m =>
                let r := run p { s with macros := some m }
                keep r { r.1 with macros := none, lines := match r.1.macros with
                  | some m => C.rawMacros m
                  | none => r.1.lines }) h (by
                rintro s1 ⟨rfl, h2, h3, h4, h5⟩
                obtain ⟨s2, a1, ⟨b1, b2, b3, b4⟩, -⟩ := ih (.macros m) _ _ { s1 with macros := some m } ⟨h2, rfl, h4, h5⟩ hq
                simp only [hp, a1, keep, b2]
                exact ⟨_, rfl, rfl, b1, rfl, b3, b4⟩)
            obtain ⟨s', a1, a2⟩ := this
            exact ⟨s', a1, a2, rfl⟩
          | _ => simp at he
    | macros m =>
      rw [effect] at he
      obtain ⟨s', h1, h2⟩ := good_swallow ih h he
      refine ⟨s', ?_, h2⟩
      rw [run, inMacros]
      simp only [h.2.1]
      exact h1
    | _ => simp [effect] at he
  | withSections p ih =>
    intro φ φ' e s h he
    cases φ with
    | lines b ls =>
      rw [effect] at he
      rw [run, inSections, if_neg (by simp [h.2.2.2.1])]
      exact rep_sections h (good_inner ih) he
    | macros m => simp [effect] at he
    | sections ss os gs =>
      obtain ⟨s', h1, h2⟩ := good_swallow ih h (by simpa [effect] using he)
      exact ⟨s', by rw [run, inSections, if_pos (by simp [h.2.2.1]), h1], h2⟩
  | withChild c t p ih =>
    intro φ φ' e s h he
    rw [run, inChild]
    cases φ with
    | lines b ls =>
      rw [effect] at he
      rw [if_neg (by simp [h.2.2.2.2.1])]
      exact rep_sections h (goodIn_child (good_inner ih)) he
    | macros m => simp [effect] at he
    | sections ss os gs =>
      rw [effect] at he
      rw [h.2.2.2.1]
      split at he
      · rename_i hc
        obtain ⟨s', h1, h2⟩ := good_swallow ih h he
        exact ⟨s', by rw [if_pos hc, h1], h2⟩
      · rename_i hc
        rw [if_neg hc, needSections]
        simp only [h.2.2.1]
        exact good_outer (goodIn_child (good_inner ih)) h he
  | withGroup g p ih =>
    intro φ φ' e s h he
    rw [run, inGroup]
    cases φ with
    | lines b ls =>
      rw [effect] at he
      rw [if_neg (by simp [h.2.2.2.2.2])]
      exact rep_sections h (goodIn_sources (good_inner ih)) he
    | macros m => simp [effect] at he
    | sections ss os gs =>
      rw [effect] at he
      rw [h.2.2.2.2]
      split at he
      · rename_i hc
        obtain ⟨s', h1, h2⟩ := good_swallow ih h he
        exact ⟨s', by rw [if_pos hc, h1], h2⟩
      · rename_i hc
        rw [if_neg hc, needSections]
        simp only [h.2.2.1]
        exact good_outer (goodIn_sources (good_inner ih)) h he

end Specfile.Access
