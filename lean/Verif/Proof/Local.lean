import Verif.Spec.Local
import Verif.Proof.Blocks
import Verif.Model.Operations
/-
Edits that only have to do with some of the sections, for C99.
-/
namespace Specfile.Proof.Local
open Py Spec Update Specfile.Blocks Ops

section
variable {α β : Type}

theorem emptied_at {ss ss' : Sections} (h : ss.map emptied = ss'.map emptied) {i : Nat} {s : Section} (hs : ss[i]? = some s) :
    ∃ s', ss'[i]? = some s' ∧ emptied s' = emptied s := by
  have := congrArg (·[i]?) h
  simp only [List.getElem?_map, hs, Option.map_some] at this
  cases h' : ss'[i]? with
  | none => rw [h'] at this; cases this
  | some s' =>
    rw [h'] at this
    simp only [Option.map_some, Option.some.injEq] at this
    exact ⟨s', rfl, this.symm⟩

theorem local_after {P Q : Section → Prop} {f : Sections → Sections × Except Err α} {g : Sections → Sections × Except Err β}
    (hf : LocalTo P f) (hg : LocalTo Q g) (hd : ∀ s, P s → ¬ Q s) (ss : Sections) :
    (f (g ss).1).2 = (f ss).2 ∧
      ∀ (i : Nat) s, ss[i]? = some s → P (emptied s) → (f (g ss).1).1[i]? = (f ss).1[i]? := by
  have h := hf.only ss (g ss).1 (hg.headers ss).symm fun i s hs hp => hg.kept ss i s hs (hd _ hp)
  exact ⟨h.1.symm, fun i s hs hp => (h.2 i s hs hp).symm⟩

theorem kept_after {P : Section → Prop} {f : Sections → Sections × Except Err α} (hf : LocalTo P f) {ss ss' : Sections}
    (h : ss'.map emptied = ss.map emptied) {i : Nat} {s : Section} (hs : ss[i]? = some s) (hp : ¬ P (emptied s)) :
    (f ss').1[i]? = ss'[i]? := by
  obtain ⟨t, ht, he⟩ := emptied_at h.symm hs
  rw [ht]
  exact hf.kept ss' i t ht (by rw [he]; exact hp)

theorem local_comm {P Q : Section → Prop} {f : Sections → Sections × Except Err α} {g : Sections → Sections × Except Err β}
    (hf : LocalTo P f) (hg : LocalTo Q g) (hd : ∀ s, P s → ¬ Q s) (ss : Sections) :
    (g (f ss).1).1 = (f (g ss).1).1 := by
  have hd' : ∀ s, Q s → ¬ P s := fun s hq hp => hd s hp hq
  apply List.ext_getElem?
  intro i
  cases hs : ss[i]? with
  | none =>
    have hl : ss.length ≤ i := by simpa using hs
    have l1 : (g (f ss).1).1.length = ss.length := by
      have := congrArg List.length ((hg.headers (f ss).1).trans (hf.headers ss))
      simpa using this
    have l2 : (f (g ss).1).1.length = ss.length := by
      have := congrArg List.length ((hf.headers (g ss).1).trans (hg.headers ss))
      simpa using this
    rw [List.getElem?_eq_none (by omega), List.getElem?_eq_none (by omega)]
  | some s =>
    by_cases hp : P (emptied s)
    · rw [kept_after hg (hf.headers ss) hs (hd _ hp), (local_after hf hg hd ss).2 i s hs hp]
    · by_cases hq : Q (emptied s)
      · rw [kept_after hf (hg.headers ss) hs hp, (local_after hg hf hd' ss).2 i s hs hq]
      · rw [kept_after hf (hg.headers ss) hs hp, kept_after hg (hf.headers ss) hs hq, hf.kept ss i s hs hp, hg.kept ss i s hs hq]

theorem good_after [Uni] {ss ss' : Sections} (h : ss'.map emptied = ss.map emptied) (hg : GoodSections ss)
    (hl : ∀ s ∈ ss', ∀ l ∈ s.data, OneLine l ∧ ¬ HeaderLine l) : GoodSections ss' := by
  obtain ⟨data, rest, rfl, h1, h2⟩ := hg
  cases ss' with
  | nil => cases h
  | cons p rest' =>
    simp only [List.map_cons, List.cons.injEq] at h
    have hp : p = preambleOf p.data := by
      obtain ⟨n, o, d, sp, dt⟩ := p
      have := h.1
      simp only [emptied, preambleOf, Section.mk.injEq] at this
      simp [preambleOf, this]
    refine ⟨p.data, rest', by rw [← hp], hl p (by simp), fun s hs => ?_⟩
    obtain ⟨i, hi⟩ := List.getElem?_of_mem hs
    obtain ⟨x, hx, he⟩ := emptied_at h.2 hi
    have g := h2 x (List.mem_of_getElem? hx)
    have hd := hl s (by simp [hs])
    obtain ⟨n, o, d, sp, dt⟩ := s
    obtain ⟨n', o', d', sp', dt'⟩ := x
    simp only [emptied, Section.mk.injEq] at he
    obtain ⟨rfl, rfl, rfl, rfl, -⟩ := he
    exact ⟨g.name, g.known, g.optstring, g.defaults, g.options, g.separator, g.oneLine, g.notPackage, hd⟩

/-! ### the first section with a name -/

theorem emptied_set {ss : Sections} {i : Nat} {s : Section} (hs : ss[i]? = some s) (d : List Str) :
    (ss.set i { s with data := d }).map emptied = ss.map emptied := by
  apply List.ext_getElem?
  intro j
  simp only [List.getElem?_map, List.getElem?_set]
  split
  · subst_vars
    obtain ⟨hl, rfl⟩ := List.getElem?_eq_some_iff.1 hs
    simp [hl, emptied]
  · rfl

theorem emptied_set_of {ss ss' : Sections} (h : ss'.map emptied = ss.map emptied) {i : Nat} {s : Section} (hs : ss[i]? = some s)
    (d : List Str) : (ss'.set i { s with data := d }).map emptied = ss.map emptied := by
  obtain ⟨x, hx, he⟩ := emptied_at h.symm hs
  have : ss'.set i { s with data := d } = ss'.set i { x with data := d } := by
    obtain ⟨n, o, dl, sp, dt⟩ := s
    obtain ⟨n', o', dl', sp', dt'⟩ := x
    simp only [emptied, Section.mk.injEq] at he
    obtain ⟨rfl, rfl, rfl, rfl, -⟩ := he
    rfl
  rw [this, emptied_set hx, h]

theorem find_emptied [Uni] {ss ss' : Sections} (h : ss.map emptied = ss'.map emptied) (name : Str) :
    Sections.find ss name = Sections.find ss' name := by
  have key : ∀ l : Sections, l.findIdx? (fun s => Sections.normalizedId s == Uni.lower name) =
      (l.map emptied).findIdx? (fun s => Sections.normalizedId s == Uni.lower name) := by
    intro l
    rw [List.findIdx?_map]
    rfl
  unfold Sections.find
  rw [key ss, key ss', h]

/-- an edit of the first section with a name -/
def inFirst [Uni] (name : Str) (absent : Except Err α) (edit : List Str → List Str × Except Err α) (ss : Sections) :
    Sections × Except Err α :=
  match Sections.find ss name with
  | .error _ => (ss, absent)
  | .ok i =>
    match ss[i]? with
    | none => (ss, .error .indexError)
    | some s => (ss.set i { s with data := (edit s.data).1 }, (edit s.data).2)

theorem inFirst_local [Uni] (name : Str) (absent : Except Err α) (edit : List Str → List Str × Except Err α) :
    LocalTo (Called name) (inFirst name absent edit) where
  headers ss := by
    unfold inFirst
    split
    · rfl
    · split
      · rfl
      · rename_i hs
        exact emptied_set hs _
  kept ss i s hs hp := by
    unfold inFirst
    split
    · exact hs
    · rename_i k hk
      split
      · exact hs
      · rename_i x hx
        have hne : k ≠ i := by
          rintro rfl
          obtain ⟨y, hy, he⟩ := (Blocks.find_first.1 hk).1
          rw [hs] at hy
          cases hy
          exact hp he
        rw [List.getElem?_set_ne hne]
        exact hs
  only ss ss' h hp := by
    unfold inFirst
    rw [find_emptied h name]
    split
    · exact ⟨rfl, fun i s hs hq => by rw [hp i s hs hq]; exact hs⟩
    · rename_i k hk
      rw [← find_emptied h name] at hk
      obtain ⟨y, hy, he⟩ := (Blocks.find_first.1 hk).1
      have hy' := hp k y hy he
      simp only [hy, hy', true_and]
      intro i s hs hq
      simp only [List.getElem?_set]
      split
      · subst_vars
        simp [(List.getElem?_eq_some_iff.1 hy).1, (List.getElem?_eq_some_iff.1 hy').1]
      · rw [hp i s hs hq]
        exact hs

theorem inTags_local [Uni] (W : World) (lines : List Str) (name : Str) (body : Tags → Tags × Except Err α) :
    LocalTo (Called name) (inTags W lines name body) := by
  have : inTags W lines name body = inFirst name (.error .attributeError) (fun d =>
      match Tags.parse W.names (W.oracle lines) d with
      | .error e => (d, .error e)
      | .ok t => (Tags.raw (body t).1, (body t).2)) := by
    funext ss
    unfold inTags inFirst
    cases Sections.find ss name with
    | error e => rfl
    | ok i =>
      cases hs : ss[i]? with
      | none => simp only [hs]
      | some s =>
        cases ht : Tags.parse W.names (W.oracle lines) s.data with
        | error e => simp only [hs, ht, Blocks.set_same hs]
        | ok t => simp only [hs, ht]
  rw [this]
  exact inFirst_local _ _ _

theorem inChangelog_local [Uni] (body : Changelog → Changelog × Except Err α) (absent : Except Err α) :
    LocalTo (Called (s% "changelog")) (inChangelog body absent) := by
  have : inChangelog body absent = inFirst (s% "changelog") absent (fun d =>
      (Changelog.raw (body (Changelog.parse d)).1, (body (Changelog.parse d)).2)) := by
    funext ss
    unfold inChangelog inFirst
    rfl
  rw [this]
  exact inFirst_local _ _ _

theorem inPrep_local [Uni] (body : Prep → Prep × Except Err α) (absent : Except Err α) :
    LocalTo (Called (s% "prep")) (inPrep body absent) := by
  have : inPrep body absent = inFirst (s% "prep") absent (fun d =>
      match Prep.parse d with
      | .error e => (d, .error e)
      | .ok t => (Prep.raw (body t).1, (body t).2)) := by
    funext ss
    unfold inPrep inFirst
    cases Sections.find ss (s% "prep") with
    | error e => rfl
    | ok i =>
      cases hs : ss[i]? with
      | none => simp only [hs]
      | some s =>
        cases ht : Prep.parse s.data with
        | error e => simp only [hs, ht, Blocks.set_same hs]
        | ok t => simp only [hs, ht]
  rw [this]
  exact inFirst_local _ _ _

/-! ### all changelogs -/

theorem isChangelog_iff [Uni] {s : Section} : isChangelog s = true ↔ IsChangelog s := by
  simp [IsChangelog, isChangelog]

theorem addLoop_local [Uni] (env : Env) (entry : List Str) (a : Args) : LocalTo IsChangelog (addLoop env entry a) where
  headers ss := by
    induction ss generalizing a with
    | nil => rfl
    | cons s ss ih =>
      unfold addLoop
      split
      · split
        · rfl
        · simp only [List.map_cons, ih]
        · split
          · rfl
          · simp only [List.map_cons, ih]
            rfl
      · simp only [List.map_cons, ih]
  kept ss i s hs hp := by
    induction ss generalizing a i with
    | nil => simp at hs
    | cons x ss ih =>
      unfold addLoop
      cases i with
      | zero =>
        simp only [List.getElem?_cons_zero, Option.some.injEq] at hs
        subst hs
        have : ¬ isChangelog x = true := fun h => hp (isChangelog_iff.1 h)
        simp [this]
      | succ i =>
        simp only [List.getElem?_cons_succ] at hs
        split
        · split
          · exact hs
          · exact ih _ _ hs
          · split
            · exact hs
            · exact ih _ _ hs
        · exact ih _ _ hs
  only ss ss' h hp := by
    induction ss generalizing a ss' with
    | nil =>
      cases ss' with
      | nil => exact ⟨rfl, fun i s hs => by simp at hs⟩
      | cons => simp at h
    | cons x ss ih =>
      cases ss' with
      | nil => simp at h
      | cons y ss' =>
        simp only [List.map_cons, List.cons.injEq] at h
        have hp' : ∀ (i : Nat) s, ss[i]? = some s → IsChangelog (emptied s) → ss'[i]? = some s := fun i s hs hq =>
          hp (i + 1) s hs hq
        have ih' := fun a => ih a ss' h.2 hp'
        by_cases hx : isChangelog x = true
        · have := hp 0 x rfl (isChangelog_iff.1 hx)
          simp only [List.getElem?_cons_zero, Option.some.injEq] at this
          subst this
          unfold addLoop
          simp only [hx, if_true]
          have two : ∀ (d : Section) (b : Args) (i : Nat) s, (y :: ss)[i]? = some s → IsChangelog (emptied s) →
              (d :: (addLoop env entry b ss).1)[i]? = (d :: (addLoop env entry b ss').1)[i]? := by
            intro d b i s hs hq
            cases i with
            | zero => rfl
            | succ i => exact (ih' b).2 i s hs hq
          have one : ∀ (d : Section) (i : Nat) s, (y :: ss)[i]? = some s → IsChangelog (emptied s) →
              (d :: ss)[i]? = (d :: ss')[i]? := by
            intro d i s hs hq
            cases i with
            | zero => rfl
            | succ i =>
              simp only [List.getElem?_cons_succ] at hs ⊢
              rw [hp' i s hs hq, hs]
          split
          · exact ⟨rfl, one _⟩
          · exact ⟨(ih' _).1, two _ _⟩
          · split
            · exact ⟨rfl, one _⟩
            · exact ⟨(ih' _).1, two _ _⟩
        · have hy : ¬ isChangelog y = true := by
            have e : isChangelog (emptied x) = isChangelog (emptied y) := by rw [h.1]
            intro hy
            exact hx (e.trans hy)
          unfold addLoop
          simp only [hx, hy, if_false, Bool.false_eq_true]
          refine ⟨(ih' _).1, fun i s hs hq => ?_⟩
          cases i with
          | zero =>
            simp only [List.getElem?_cons_zero, Option.some.injEq] at hs
            subst hs
            exact absurd (isChangelog_iff.2 hq) hx
          | succ i => exact (ih' _).2 i s hs hq

/-! ### sources -/

theorem listsOf_alike [Uni] (ex : Conditions.Oracle) (id : Str) : ∀ (ss ss' : Sections) (k : Nat),
    ss.map emptied = ss'.map emptied → (∀ (i : Nat) s, ss[i]? = some s → Sections.id (emptied s) = id → ss'[i]? = some s) →
    listsOf ex id k ss = listsOf ex id k ss'
  | [], [], _, _, _ => rfl
  | [], _ :: _, _, h, _ => by simp at h
  | _ :: _, [], _, h, _ => by simp at h
  | x :: ss, y :: ss', k, h, hp => by
    simp only [List.map_cons, List.cons.injEq] at h
    have ih := listsOf_alike ex id ss ss' (k + 1) h.2 fun i s hs hq => hp (i + 1) s hs hq
    have e : Sections.id x = Sections.id y := show Sections.id (emptied x) = Sections.id (emptied y) by rw [h.1]
    unfold listsOf
    rw [ih, e]
    split
    · rename_i hy
      have := hp 0 x rfl (e.trans hy)
      simp only [List.getElem?_cons_zero, Option.some.injEq] at this
      rw [this]
    · rfl

theorem listsOf_index [Uni] (ex : Conditions.Oracle) (id : Str) : ∀ (ss : Sections) (k : Nat) (ls : List (Nat × Sourcelist)),
    listsOf ex id k ss = .ok ls → ∀ j ∈ ls.map (·.1), ∃ i s, j = k + i ∧ ss[i]? = some s ∧ Sections.id s = id
  | [], _, ls, h => by
    simp only [listsOf, Except.ok.injEq] at h
    subst h
    simp
  | x :: ss, k, ls, h => by
    have step : ∀ ls, listsOf ex id (k + 1) ss = .ok ls → ∀ j ∈ ls.map (·.1),
        ∃ i s, j = k + i ∧ (x :: ss)[i]? = some s ∧ Sections.id s = id := by
      intro ls hl j hj
      obtain ⟨i, s, h1, h2, h3⟩ := listsOf_index ex id ss (k + 1) ls hl j hj
      exact ⟨i + 1, s, by omega, h2, h3⟩
    unfold listsOf at h
    split at h
    · rename_i hx
      split at h
      · cases h
      · split at h
        · cases h
        · rename_i ls' hl
          simp only [Except.ok.injEq] at h
          subst h
          intro j hj
          simp only [List.map_cons, List.mem_cons] at hj
          rcases hj with rfl | hj
          · exact ⟨0, x, rfl, rfl, hx⟩
          · exact step _ hl j hj
    · exact step _ h

theorem storeLists_headers : ∀ (is : List Nat) (ls : List Sourcelist) (ss : Sections),
    (storeLists is ls ss).map emptied = ss.map emptied
  | [], ls, ss => by simp [storeLists]
  | _ :: _, [], ss => by simp [storeLists]
  | i :: is, l :: ls, ss => by
    unfold storeLists
    rw [storeLists_headers]
    apply List.ext_getElem?
    intro j
    simp only [List.getElem?_map, List.getElem?_modify]
    cases ss[j]? with
    | none => rfl
    | some s =>
      simp only [Option.map_some]
      split <;> rfl

theorem storeLists_kept {j : Nat} : ∀ (is : List Nat) (ls : List Sourcelist) (ss : Sections), j ∉ is →
    (storeLists is ls ss)[j]? = ss[j]?
  | [], ls, ss, _ => by simp [storeLists]
  | _ :: _, [], ss, _ => by simp [storeLists]
  | i :: is, l :: ls, ss, h => by
    simp only [List.mem_cons, not_or] at h
    unfold storeLists
    rw [storeLists_kept _ _ _ h.2, List.getElem?_modify]
    cases ss[j]? with
    | none => rfl
    | some s => simp [Ne.symm h.1]

theorem storeLists_alike {j : Nat} : ∀ (is : List Nat) (ls : List Sourcelist) (ss ss' : Sections), ss[j]? = ss'[j]? →
    (storeLists is ls ss)[j]? = (storeLists is ls ss')[j]?
  | [], ls, ss, ss', h => by simpa [storeLists] using h
  | _ :: _, [], ss, ss', h => by simpa [storeLists] using h
  | i :: is, l :: ls, ss, ss', h => by
    unfold storeLists
    apply storeLists_alike
    simp only [List.getElem?_modify, h]

theorem sourcesBlock_local [Uni] (W : World) (a : SourceArgs) (lines : List Str) (body : Sources → Sources × Except Err α) :
    LocalTo (HasSources a) (sourcesBlock W a lines body) where
  headers ss := by
    unfold sourcesBlock
    split
    · rfl
    · split
      · rfl
      · rename_i hs
        split
        · rfl
        · split
          · exact emptied_set hs _
          · exact emptied_set_of (storeLists_headers _ _ ss) hs _
  kept ss i s hs hp := by
    have h1 : ¬ Called (s% "package") s := fun h => hp (.inl h)
    have h2 : ¬ Sections.id s = a.id := fun h => hp (.inr h)
    unfold sourcesBlock
    split
    · exact hs
    · rename_i k hk
      have hne : k ≠ i := by
        rintro rfl
        obtain ⟨y, hy, he⟩ := (Blocks.find_first.1 hk).1
        rw [hs] at hy
        cases hy
        exact h1 he
      split
      · exact hs
      · split
        · exact hs
        · split
          · rw [List.getElem?_set_ne hne]
            exact hs
          · rename_i ls hl
            rw [List.getElem?_set_ne hne, storeLists_kept]
            · exact hs
            · intro hm
              obtain ⟨j, t, e1, e2, e3⟩ := listsOf_index _ _ _ _ _ hl _ hm
              simp only [Nat.zero_add] at e1
              subst e1
              rw [hs] at e2
              cases e2
              exact h2 e3
  only ss ss' h hp := by
    unfold sourcesBlock
    rw [find_emptied h, listsOf_alike _ _ ss ss' 0 h fun i s hs hq => hp i s hs (.inr hq)]
    have hsame : ∀ (i : Nat) s, ss[i]? = some s → HasSources a (emptied s) → ss[i]? = ss'[i]? := by
      intro i s hs hq
      rw [hp i s hs hq, hs]
    cases hk : Sections.find ss' (s% "package") with
    | error e => exact ⟨rfl, hsame⟩
    | ok k =>
      rw [← find_emptied h] at hk
      obtain ⟨y, hy, he⟩ := (Blocks.find_first.1 hk).1
      have hy' := hp k y hy (.inl he)
      have l1 := (List.getElem?_eq_some_iff.1 hy).1
      have l2 := (List.getElem?_eq_some_iff.1 hy').1
      have lens : ∀ (is : List Nat) (ls : List Sourcelist) (t : Sections), (storeLists is ls t).length = t.length := by
        intro is ls t
        have := congrArg List.length (storeLists_headers is ls t)
        simpa using this
      simp only [hy, hy']
      cases Tags.parse W.names (W.oracle lines) y.data with
      | error e => exact ⟨rfl, hsame⟩
      | ok t =>
        cases listsOf (W.oracle lines) a.id 0 ss' with
        | error e =>
          refine ⟨rfl, fun i s hs hq => ?_⟩
          simp only [List.getElem?_set, l1, l2, hsame i s hs hq]
        | ok ls =>
          refine ⟨rfl, fun i s hs hq => ?_⟩
          simp only [List.getElem?_set, lens]
          split
          · subst_vars
            rfl
          · exact storeLists_alike _ _ _ _ (hsame i s hs hq)

end
end Specfile.Proof.Local
