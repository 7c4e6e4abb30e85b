import Verif.Spec.History
import Verif.Props.Undo
/-
C101: sequences of assignments.
-/
namespace Specfile.Props
open Py Spec Update Ops
open Specfile.Blocks

section
variable [Uni] {W : World}

/-- the assignments one after the other, each in its own context -/
def setTags (W : World) (as : List Assignment) (lines : List Str) : List Str :=
  as.foldl (fun ls a => (setTag W a.name a.value ls).1) lines

omit [Uni] in
theorem lastAssigned_snoc (as : List Assignment) (a : Assignment) (i : Nat) (old : Str) :
    lastAssigned (as ++ [a]) i old = if a.index = i then a.value else lastAssigned as i old := by
  unfold lastAssigned
  rw [List.reverse_append, List.reverse_singleton, List.singleton_append, List.find?_cons]
  by_cases h : a.index = i
  · simp [h]
  · rw [beq_eq_false_iff_ne.2 h, if_neg h]

omit [Uni] in
theorem tagsWith_snoc (t : Tags) (as : List Assignment) (a : Assignment) :
    tagsWith t (as ++ [a]) = (tagsWith t as).setValueAt a.index a.value := by
  unfold tagsWith Tags.setValueAt
  congr 1
  apply List.ext_getElem?
  intro i
  simp only [List.getElem?_mapIdx, List.getElem?_modify, lastAssigned_snoc]
  cases t.data[i]? with
  | none => simp
  | some x =>
    by_cases h : a.index = i <;> simp [h]

omit [Uni] in
theorem tagsWith_nil (t : Tags) : tagsWith t [] = t := by
  unfold tagsWith lastAssigned
  cases t
  simp only [List.reverse_nil, List.find?_nil, Tags.mk.injEq, and_true]
  apply List.ext_getElem?
  intro i
  simp

omit [Uni] in
theorem tagsWith_get (t : Tags) (as : List Assignment) {i : Nat} {x : Tag} (h : t.data[i]? = some x) :
    (tagsWith t as).data[i]? = some { x with value := lastAssigned as i x.value } := by
  simp [tagsWith, h]

/-- the assignment is to the only tag of this name, and the tag can be read with the value -/
structure TagAssignment (t : Tags) (a : Assignment) : Prop where
  only : OnlyTag a.name t a.index
  value : ∃ x, t.data[a.index]? = some x ∧
    (PlainTag { x with value := a.value } ∧ ¬ OpenBracket a.value ∨ WrappedTag { x with value := a.value })

/-- the text with these tags, followed by the other sections, is divided into sections and tags as it was made -/
structure ReadsAgain (W : World) (u : Tags) (rest : Sections) : Prop where
  headers : HeadersOutside (Tags.raw u ++ Sections.raw rest)
  clean : CleanTagLines (Tags.raw u)
  plain : ∀ l ∈ Tags.raw u, OneLine l ∧ ¬ HeaderLine l
  conditions : ∀ e, Conditions.processConditions (W.oracle (Tags.raw u ++ Sections.raw rest))
    (MacroDefinitions.parseLines (Tags.raw u)).excluded (Tags.raw u) ≠ .error e

theorem reads_again (hN : Tags.IsTagNames W.names) {u : Tags} {rest : Sections} (hm : ReadableTags u) (h : ReadsAgain W u rest)
    (hg : ∀ s ∈ rest, GoodSection s) : ∃ t', FileTags W (Tags.raw u ++ Sections.raw rest) t' rest ∧ SameTags t' u := by
  obtain ⟨ho, hc1, hc2, hc3⟩ := h
  generalize hl : Tags.raw u ++ Sections.raw rest = lines' at *
  have hraw := raw_cons (Tags.raw u) rest
  have hp : Sections.parse (W.oracle lines') lines' = .ok (preambleOf (Tags.raw u) :: rest) := by
    rw [← hl, ← hraw]
    refine C19_read_back _ _ ⟨_, _, rfl, hc2, hg⟩ ?_
    rw [hraw, hl]
    exact ho
  cases ht : Tags.parse W.names (W.oracle lines') (Tags.raw u) with
  | error e => exact absurd ((C52_read_back_succeeds _ hN _ _ hm hc1 e).1 ht) (hc3 e)
  | ok t' => exact ⟨t', ⟨_, hp, ht⟩, C52_read_back _ hN _ _ _ hm hc1 ht⟩

theorem set_same {lines : List Str} {u t' : Tags} {rest : Sections} (hft : FileTags W lines t' rest) (hs : SameTags t' u)
    {name : Str} {j : Nat} {y : Tag} (hy : u.data[j]? = some y) (hj : OnlyTag name u j) (w : Str) :
    setTag W name w lines = (Tags.raw (u.setValueAt j w) ++ Sections.raw rest, .ok ()) := by
  obtain ⟨s1, s2⟩ := hs
  have hname : ∀ (i : Nat), (t'.data[i]?).map (·.name) = (u.data[i]?).map (·.name) := by
    intro i
    have e := congrArg (fun l => (l[i]?).map (·.name)) s1
    simpa only [List.getElem?_map, Option.map_map, Function.comp_def] using e
  have hon : OnlyTag name t' j := by
    intro i z hz
    have e := hname i
    rw [hz] at e
    cases hq : u.data[i]? with
    | none => rw [hq] at e; cases e
    | some q =>
      rw [hq] at e
      simp only [Option.map_some, Option.some.injEq] at e
      rw [e]
      exact hj i q hq
  obtain ⟨z, hz⟩ : ∃ z, t'.data[j]? = some z := by
    have e := hname j
    rw [hy] at e
    cases hq : t'.data[j]? with
    | none => rw [hq] at e; cases e
    | some q => exact ⟨q, rfl⟩
  rw [setTag, withTags_ok hft, assignTag_named w (hon.named hz)]
  congr 2
  have comm : ∀ l : List Tag, (l.modify j (fun x => { x with value := w })).map (fun t => { t with valid := true }) =
      (l.map (fun t => { t with valid := true })).modify j (fun x => { x with value := w }) := by
    intro l
    apply List.ext_getElem?
    intro i
    simp only [List.getElem?_map, List.getElem?_modify]
    cases l[i]? with
    | none => rfl
    | some q =>
      simp only [Option.map_some]
      split <;> rfl
  have same : ((t'.setValueAt j w).data).map (fun t => { t with valid := true }) =
      ((u.setValueAt j w).data).map (fun t => { t with valid := true }) := by
    show (t'.data.modify j _).map _ = (u.data.modify j _).map _
    rw [comm, comm, s1]
  have := congrArg (List.map Tags.tagRaw) same
  rw [List.map_map, List.map_map] at this
  unfold Tags.raw
  have hr2 : (t'.setValueAt j w).remainder = (u.setValueAt j w).remainder := s2
  rw [hr2]
  congr 2

theorem only_with {name : Str} {t : Tags} {k : Nat} (h : OnlyTag name t k) (as : List Assignment) :
    OnlyTag name (tagsWith t as) k := by
  intro j x hx
  cases hq : t.data[j]? with
  | none => simp [tagsWith, hq] at hx
  | some q =>
    rw [tagsWith_get t as hq] at hx
    cases hx
    exact h j q hq

/-- all prefixes -/
theorem history_tags (hN : Tags.IsTagNames W.names) {lines : List Str} {t : Tags} {rest : Sections} (h : FileTags W lines t rest)
    (hm : ReadableTags t) (hg : ∀ s ∈ rest, GoodSection s) (n : Nat) : ∀ as : List Assignment, as.length = n →
    (∀ a ∈ as, TagAssignment t a) → (∀ p, p ≠ [] → p <+: as → ReadsAgain W (tagsWith t p) rest) →
    ReadableTags (tagsWith t as) ∧ (∃ t', FileTags W (setTags W as lines) t' rest ∧ SameTags t' (tagsWith t as)) ∧
    (as ≠ [] → setTags W as lines = Tags.raw (tagsWith t as) ++ Sections.raw rest) := by
  induction n with
  | zero =>
    intro as hn _ _
    have := List.length_eq_zero_iff.1 hn
    subst this
    rw [tagsWith_nil]
    exact ⟨hm, ⟨t, h, rfl, rfl⟩, fun h => absurd rfl h⟩
  | succ n ih =>
    intro as hn ha hr
    obtain ⟨p, a, rfl⟩ : ∃ p a, as = p ++ [a] :=
      ⟨_, _, (List.dropLast_concat_getLast (by intro h; subst h; simp at hn)).symm⟩
    obtain ⟨i1, ⟨t', i2, i3⟩, -⟩ := ih p (by simpa using hn) (fun a h => ha a (by simp [h]))
      (fun q hq h => hr q hq (h.trans (List.prefix_append _ _)))
    obtain ⟨only, x, hx, hv⟩ := ha a (by simp)
    have hx' := tagsWith_get t p hx
    have hset := set_same i2 i3 hx' (only_with only p) a.value
    have htext : setTags W (p ++ [a]) lines = Tags.raw (tagsWith t (p ++ [a])) ++ Sections.raw rest := by
      have : setTags W (p ++ [a]) lines = (setTag W a.name a.value (setTags W p lines)).1 := by simp [setTags]
      rw [this, hset, tagsWith_snoc]
    have hm' : ReadableTags (tagsWith t (p ++ [a])) := by
      rw [tagsWith_snoc]
      exact C52_set_readable _ i1 _ _ _ hx' hv
    refine ⟨hm', ?_, fun _ => htext⟩
    rw [htext]
    exact reads_again hN hm' (hr _ (by simp) (List.prefix_refl _)) hg

/-- C101 (full claim: after any sequence of assignments, everything has the value assigned last and nothing else is changed). Tags
of the preamble, each the only one of its name, are set one after the other, each in a context of its own: all assignments succeed,
and the text is that of the tags with the values that were assigned last. Missing: texts that are not read as they were made on the
way; names with several tags. -/
theorem C101_tags_partial (hN : Tags.IsTagNames W.names) {lines : List Str} {t : Tags} {rest : Sections} (h : FileTags W lines t rest)
    (hm : ReadableTags t) (hg : ∀ s ∈ rest, GoodSection s) (as : List Assignment) (ha : ∀ a ∈ as, TagAssignment t a)
    (hr : ∀ p, p ≠ [] → p ≠ as → p <+: as → ReadsAgain W (tagsWith t p) rest) :
    (as ≠ [] → setTags W as lines = Tags.raw (tagsWith t as) ++ Sections.raw rest) ∧
    ∀ p a, p ++ [a] <+: as → (setTag W a.name a.value (setTags W p lines)).2 = .ok () := by
  have key : ∀ p a, p ++ [a] <+: as → setTag W a.name a.value (setTags W p lines) =
      (Tags.raw (tagsWith t (p ++ [a])) ++ Sections.raw rest, .ok ()) := by
    intro p a hp
    obtain ⟨q, hq⟩ := hp
    obtain ⟨-, ⟨t', i2, i3⟩, -⟩ := history_tags hN h hm hg p.length p rfl
      (fun b hb => ha b (by rw [← hq]; simp [hb])) (fun r h1 h2 => hr r h1 (by
        rintro rfl
        have := h2.length_le
        rw [← hq] at this
        simp at this
        omega) (h2.trans ⟨a :: q, by rw [← hq]; simp⟩))
    obtain ⟨only, x, hx, -⟩ := ha a (by rw [← hq]; simp)
    rw [set_same i2 i3 (tagsWith_get t p hx) (only_with only p) a.value, tagsWith_snoc]
  refine ⟨fun hne => ?_, fun p a hp => by rw [key p a hp]⟩
  obtain ⟨p, a, rfl⟩ : ∃ p a, as = p ++ [a] := ⟨_, _, (List.dropLast_concat_getLast hne).symm⟩
  have : setTags W (p ++ [a]) lines = (setTag W a.name a.value (setTags W p lines)).1 := by simp [setTags]
  rw [this, key p a (List.prefix_refl _)]

/-- C101: two sequences that assign the same last values make the same text. -/
theorem C101_same_values_partial (hN : Tags.IsTagNames W.names) {lines : List Str} {t : Tags} {rest : Sections}
    (h : FileTags W lines t rest) (hm : ReadableTags t) (hg : ∀ s ∈ rest, GoodSection s) (as bs : List Assignment)
    (ha : ∀ a ∈ as, TagAssignment t a) (hb : ∀ a ∈ bs, TagAssignment t a) (hne : as ≠ []) (hne' : bs ≠ [])
    (hr : ∀ p, p ≠ [] → p ≠ as → p <+: as → ReadsAgain W (tagsWith t p) rest)
    (hr' : ∀ p, p ≠ [] → p ≠ bs → p <+: bs → ReadsAgain W (tagsWith t p) rest)
    (hv : ∀ i x, t.data[i]? = some x → lastAssigned as i x.value = lastAssigned bs i x.value) :
    setTags W as lines = setTags W bs lines := by
  rw [(C101_tags_partial hN h hm hg as ha hr).1 hne, (C101_tags_partial hN h hm hg bs hb hr').1 hne']
  congr 2
  unfold tagsWith
  congr 1
  apply List.ext_getElem?
  intro i
  simp only [List.getElem?_mapIdx]
  cases hx : t.data[i]? with
  | none => rfl
  | some x => simp only [Option.map_some, hv i x hx]

/-- C101: assignments that come back to the values there were give the text as it was. -/
theorem C101_back_partial (hN : Tags.IsTagNames W.names) {lines : List Str} {t : Tags} {rest : Sections}
    (h : FileTags W lines t rest) (hl : Tags.raw t ++ Sections.raw rest = lines) (hm : ReadableTags t)
    (hg : ∀ s ∈ rest, GoodSection s) (as : List Assignment) (ha : ∀ a ∈ as, TagAssignment t a)
    (hr : ∀ p, p ≠ [] → p ≠ as → p <+: as → ReadsAgain W (tagsWith t p) rest)
    (hv : ∀ i x, t.data[i]? = some x → lastAssigned as i x.value = x.value) :
    setTags W as lines = lines := by
  by_cases hne : as = []
  · subst hne
    rfl
  rw [(C101_tags_partial hN h hm hg as ha hr).1 hne]
  have : tagsWith t as = t := by
    cases t
    unfold tagsWith
    simp only [Tags.mk.injEq, and_true]
    apply List.ext_getElem?
    intro i
    simp only [List.getElem?_mapIdx]
    rename_i data _
    cases hx : data[i]? with
    | none => rfl
    | some x => simp only [Option.map_some, hv i x hx]
  rw [this, hl]

/-! ### macro definitions -/

/-- the assignments one after the other, each in its own context -/
def setMacros (W : World) (as : List Assignment) (lines : List Str) : List Str :=
  as.foldl (fun ls a => (setMacro W a.name a.value ls).1) lines

omit [Uni] in
theorem definitionsWith_snoc (m : MacroDefinitions) (as : List Assignment) (a : Assignment) :
    definitionsWith m (as ++ [a]) =
      ⟨(definitionsWith m as).data.modify a.index (fun x => { x with body := a.value }), m.remainder⟩ := by
  unfold definitionsWith
  congr 1
  apply List.ext_getElem?
  intro i
  simp only [List.getElem?_mapIdx, List.getElem?_modify, lastAssigned_snoc]
  cases m.data[i]? with
  | none => simp
  | some x =>
    by_cases h : a.index = i <;> simp [h]

omit [Uni] in
theorem definitionsWith_nil (m : MacroDefinitions) : definitionsWith m [] = m := by
  unfold definitionsWith lastAssigned
  cases m
  simp only [List.reverse_nil, List.find?_nil, MacroDefinitions.mk.injEq, and_true]
  apply List.ext_getElem?
  intro i
  simp

omit [Uni] in
theorem definitionsWith_get (m : MacroDefinitions) (as : List Assignment) {i : Nat} {x : MacroDefinition} (h : m.data[i]? = some x) :
    (definitionsWith m as).data[i]? = some { x with body := lastAssigned as i x.body } := by
  simp [definitionsWith, h]

/-- the assignment is to the only definition of this name, and the definition can be read with the body -/
structure BodyAssignment (m : MacroDefinitions) (a : Assignment) : Prop where
  only : OnlyDefinition a.name m a.index
  body : ∃ x, m.data[a.index]? = some x ∧ Readable { x with body := a.value, valid := true }

/-- the definitions of the text of these definitions can be read -/
def DefinitionsRead (W : World) (m : MacroDefinitions) : Prop :=
  ∃ m', MacroDefinitions.parse (W.oracle (MacroDefinitions.raw m)) true (MacroDefinitions.raw m) = .ok m'

theorem body_same {lines : List Str} {u m' : MacroDefinitions} (h : MacroDefinitions.parse (W.oracle lines) true lines = .ok m')
    (hs : allValid m' = allValid u) {name : Str} {j : Nat} {y : MacroDefinition} (hy : u.data[j]? = some y)
    (hj : OnlyDefinition name u j) (w : Str) : setMacro W name w lines =
      (MacroDefinitions.raw ⟨u.data.modify j (fun x => { x with body := w }), u.remainder⟩, .ok ()) := by
  simp only [allValid, MacroDefinitions.mk.injEq] at hs
  have hname : ∀ i : Nat, (m'.data[i]?).map (·.name) = (u.data[i]?).map (·.name) := by
    intro i
    have e2 := congrArg (fun l => (l[i]?).map (·.name)) hs.1
    simpa only [List.getElem?_map, Option.map_map, Function.comp_def] using e2
  have hon : OnlyDefinition name m' j := by
    intro i z hz
    have e := hname i
    rw [hz] at e
    cases hq : u.data[i]? with
    | none => rw [hq] at e; cases e
    | some q =>
      rw [hq] at e
      simp only [Option.map_some, Option.some.injEq] at e
      rw [e]
      exact hj i q hq
  obtain ⟨z, hz⟩ : ∃ z, m'.data[j]? = some z := by
    have e := hname j
    rw [hy] at e
    cases hq : m'.data[j]? with
    | none => rw [hq] at e; cases e
    | some q => exact ⟨q, rfl⟩
  rw [setMacro_only h hz hon w]
  congr 1
  rw [← raw_allValid, ← raw_allValid ⟨_, u.remainder⟩]
  congr 1
  have comm : ∀ l : List MacroDefinition, (l.modify j (fun x => { x with body := w })).map (fun t => { t with valid := true }) =
      (l.map (fun t => { t with valid := true })).modify j (fun x => { x with body := w }) := by
    intro l
    apply List.ext_getElem?
    intro i
    simp only [List.getElem?_map, List.getElem?_modify]
    cases l[i]? with
    | none => rfl
    | some q =>
      simp only [Option.map_eq_map, Option.map_some]
      split <;> rfl
  simp only [allValid, comm, hs.1, hs.2]

omit [Uni] in
theorem only_body {name : Str} {m : MacroDefinitions} {k : Nat} (h : OnlyDefinition name m k) (as : List Assignment) :
    OnlyDefinition name (definitionsWith m as) k := by
  intro j x hx
  cases hq : m.data[j]? with
  | none => simp [definitionsWith, hq] at hx
  | some q =>
    rw [definitionsWith_get m as hq] at hx
    cases hx
    exact h j q hq

theorem history_macros {lines : List Str} {m : MacroDefinitions} (h : MacroDefinitions.parse (W.oracle lines) true lines = .ok m)
    (hm : ∀ d ∈ m.data, Readable { d with valid := true })
    (hr : ∀ l ∈ m.remainder, ¬ s% "global" <:+: l ∧ ¬ s% "define" <:+: l) (n : Nat) : ∀ as : List Assignment, as.length = n →
    (∀ a ∈ as, BodyAssignment m a) → (∀ p, p ≠ [] → p <+: as → DefinitionsRead W (definitionsWith m p)) →
    (∀ d ∈ (definitionsWith m as).data, Readable { d with valid := true }) ∧
    (∃ m', MacroDefinitions.parse (W.oracle (setMacros W as lines)) true (setMacros W as lines) = .ok m' ∧
      allValid m' = allValid (definitionsWith m as)) := by
  induction n with
  | zero =>
    intro as hn _ _
    have := List.length_eq_zero_iff.1 hn
    subst this
    rw [definitionsWith_nil]
    exact ⟨hm, m, h, rfl⟩
  | succ n ih =>
    intro as hn ha hp
    obtain ⟨p, a, rfl⟩ : ∃ p a, as = p ++ [a] :=
      ⟨_, _, (List.dropLast_concat_getLast (by intro h; subst h; simp at hn)).symm⟩
    obtain ⟨i1, m', i2, i3⟩ := ih p (by simpa using hn) (fun a h => ha a (by simp [h]))
      (fun q hq h => hp q hq (h.trans (List.prefix_append _ _)))
    obtain ⟨only, x, hx, hv⟩ := ha a (by simp)
    have hx' := definitionsWith_get m p hx
    have hset := body_same i2 i3 hx' (only_body only p) a.value
    have htext : setMacros W (p ++ [a]) lines = MacroDefinitions.raw (definitionsWith m (p ++ [a])) := by
      have : setMacros W (p ++ [a]) lines = (setMacro W a.name a.value (setMacros W p lines)).1 := by simp [setMacros]
      rw [this, hset, definitionsWith_snoc]
      rfl
    have hm' : ∀ d ∈ (definitionsWith m (p ++ [a])).data, Readable { d with valid := true } := by
      rw [definitionsWith_snoc]
      intro d hd
      obtain ⟨i, hi⟩ := List.getElem?_of_mem hd
      simp only [List.getElem?_modify] at hi
      cases hq : (definitionsWith m p).data[i]? with
      | none => rw [hq] at hi; simp at hi
      | some q =>
        rw [hq] at hi
        simp only [Option.map_eq_map, Option.map_some, Option.some.injEq] at hi
        split at hi
        · rename_i hai
          rw [← hai, hx'] at hq
          cases hq
          subst hi
          exact hv
        · subst hi
          exact i1 _ (List.mem_of_getElem? hq)
    obtain ⟨m2, h2⟩ := hp _ (by simp) (List.prefix_refl (p ++ [a]))
    refine ⟨hm', m2, by rw [htext]; exact h2, ?_⟩
    exact parse_allValid hm' (by exact hr) h2

/-- C101: the bodies of macros, each with a single definition, are set one after the other, each in a context of its own: all
assignments succeed, and the text is that of the definitions with the bodies that were assigned last. -/
theorem C101_macros_partial {lines : List Str} {m : MacroDefinitions}
    (h : MacroDefinitions.parse (W.oracle lines) true lines = .ok m) (hm : ∀ d ∈ m.data, Readable { d with valid := true })
    (hr : ∀ l ∈ m.remainder, ¬ s% "global" <:+: l ∧ ¬ s% "define" <:+: l) (as : List Assignment)
    (ha : ∀ a ∈ as, BodyAssignment m a) (hp : ∀ p, p ≠ [] → p ≠ as → p <+: as → DefinitionsRead W (definitionsWith m p)) :
    (as ≠ [] → setMacros W as lines = MacroDefinitions.raw (definitionsWith m as)) ∧
    ∀ p a, p ++ [a] <+: as → (setMacro W a.name a.value (setMacros W p lines)).2 = .ok () := by
  have key : ∀ p a, p ++ [a] <+: as → setMacro W a.name a.value (setMacros W p lines) =
      (MacroDefinitions.raw (definitionsWith m (p ++ [a])), .ok ()) := by
    intro p a hpa
    obtain ⟨q, hq⟩ := hpa
    obtain ⟨-, m', i2, i3⟩ := history_macros h hm hr p.length p rfl
      (fun b hb => ha b (by rw [← hq]; simp [hb])) (fun r h1 h2 => hp r h1 (by
        rintro rfl
        have := h2.length_le
        rw [← hq] at this
        simp at this
        omega) (h2.trans ⟨a :: q, by rw [← hq]; simp⟩))
    obtain ⟨only, x, hx, -⟩ := ha a (by rw [← hq]; simp)
    rw [body_same i2 i3 (definitionsWith_get m p hx) (only_body only p) a.value, definitionsWith_snoc]
    rfl
  refine ⟨fun hne => ?_, fun p a hp => by rw [key p a hp]⟩
  obtain ⟨p, a, rfl⟩ : ∃ p a, as = p ++ [a] := ⟨_, _, (List.dropLast_concat_getLast hne).symm⟩
  have : setMacros W (p ++ [a]) lines = (setMacro W a.name a.value (setMacros W p lines)).1 := by simp [setMacros]
  rw [this, key p a (List.prefix_refl _)]

end

section
attribute [local instance] asciiUni

/-- the preamble with both values changed -/
def smallPreamble4 : List Str := [s% "Name: y ", s% "", s% "# why", s% "Epoch: 2"]

theorem small_clean4 : CleanTagLines smallPreamble4 where
  noNl := by decide +kernel
  singleSpaced := by
    intro l hl a b c h
    have hm : '%' ∈ l := by rw [h]; simp
    have : ∀ l ∈ smallPreamble4, '%' ∉ l := by decide +kernel
    exact absurd hm (this l hl)
  noStale := by
    intro pre b mid z post h hb ho
    rw [← Tags.open_iff] at ho
    have hlen : pre.length + mid.length ≤ 2 := by
      have := congrArg List.length h
      simp [smallPreamble4] at this
      omega
    have hb' : b :: mid = (smallPreamble4.drop pre.length).take (mid.length + 1) := by
      rw [h, List.drop_left, show b :: (mid ++ z :: post) = (b :: mid) ++ z :: post by simp,
        show mid.length + 1 = (b :: mid).length by simp, List.take_left]
    rw [hb'] at ho
    have hall : ∀ i ≤ 2, ∀ j ≤ 2, Tags.open_ (joinC '\n' ((smallPreamble4.drop i).take (j + 1))) = false := by
      decide +kernel
    rw [hall _ (by omega) _ (by omega)] at ho
    cases ho

theorem small_reads {u : Tags} {ls : List Str} (hr : Tags.raw u = ls) (hc : CleanTagLines ls)
    (h : ∀ l ∈ ls, '\n' ∉ l ∧ Sections.isHeader l = false) (h' : ∀ l ∈ ls, ∀ c ∈ l, isLineBreak c = false)
    (he : (Conditions.processConditions noExpansion (MacroDefinitions.parseLines ls).excluded ls).toOption.isSome = true) :
    ReadsAgain smallWorld u [] := by
  refine ⟨?_, by rw [hr]; exact hc, by rw [hr]; exact block_plain h h', fun e hx => ?_⟩
  · rw [hr]
    intro i l hl hh
    exact absurd hh (block_plain h h' l (by simpa [Sections.raw] using List.mem_of_getElem? hl)).2
  · rw [hr] at hx
    have hx : Conditions.processConditions noExpansion (MacroDefinitions.parseLines ls).excluded ls = .error e := hx
    rw [hx] at he
    cases he

theorem small_only {name : Str} {k : Nat} (h0 : Uni.capitalize (s% "Name") = Uni.capitalize name ↔ 0 = k)
    (h1 : Uni.capitalize (s% "Epoch") = Uni.capitalize name ↔ 1 = k) : OnlyTag name smallTags k := by
  intro j x hx
  match j, hx with
  | 0, hx => cases hx; exact h0
  | 1, hx => cases hx; exact h1
  | j + 2, hx => cases hx

/-- the name and the epoch are set, and set back -/
def smallHistory : List Assignment := [⟨s% "name", 0, s% "y"⟩, ⟨s% "epoch", 1, s% "2"⟩, ⟨s% "NAME", 0, s% "x"⟩, ⟨s% "epoch", 1, s% "1"⟩]

theorem small_parsed : FileTags smallWorld smallPreamble smallTags [] :=
  ⟨smallPreamble, by decide +kernel, small_parse⟩

theorem small_assigned : ∀ a ∈ smallHistory, TagAssignment smallTags a := by
  have old : ∀ (k : Nat) (x : Tag), smallTags.data[k]? = some x → Tags.open_ x.value = false →
      PlainTag x ∧ ¬ OpenBracket x.value ∨ WrappedTag x := by
    intro k x hx ho
    rcases small_readable.tag x (List.mem_of_getElem? hx) with h | h
    · exact .inl ⟨h, by rw [← Tags.open_iff, ho]; simp⟩
    · exact .inr h
  intro a ha
  simp only [smallHistory, List.mem_cons, List.not_mem_nil, or_false] at ha
  rcases ha with rfl | rfl | rfl | rfl
  · exact ⟨small_only (by decide +kernel) (by decide +kernel), _, rfl, .inl ⟨small_named, by
      rw [← Tags.open_iff, show Tags.open_ (s% "y") = false by decide +kernel]; simp⟩⟩
  · exact ⟨small_only (by decide +kernel) (by decide +kernel), _, rfl, .inl ⟨small_two, by
      rw [← Tags.open_iff, show Tags.open_ (s% "2") = false by decide +kernel]; simp⟩⟩
  · exact ⟨small_only (by decide +kernel) (by decide +kernel), _, rfl, old 0 _ rfl (by decide +kernel)⟩
  · exact ⟨small_only (by decide +kernel) (by decide +kernel), _, rfl, old 1 _ rfl (by decide +kernel)⟩

theorem small_prefixes : ∀ p, p ≠ [] → p ≠ smallHistory → p <+: smallHistory → ReadsAgain smallWorld (tagsWith smallTags p) [] := by
  intro p h0 h4 hp
  have hl := hp.length_le
  rw [List.prefix_iff_eq_take] at hp
  generalize p.length = n at hp hl
  subst hp
  match n, hl, h0, h4 with
  | 0, _, h0, _ => exact absurd rfl h0
  | 1, _, _, _ =>
    exact small_reads (ls := smallPreamble3) (by decide +kernel) small_clean3 (by decide +kernel) (by decide +kernel)
      (by decide +kernel)
  | 2, _, _, _ =>
    exact small_reads (ls := smallPreamble4) (by decide +kernel) small_clean4 (by decide +kernel) (by decide +kernel)
      (by decide +kernel)
  | 3, _, _, _ =>
    exact small_reads (ls := smallPreamble2) (by decide +kernel) small_clean2 (by decide +kernel) (by decide +kernel)
      (by decide +kernel)
  | 4, _, _, h4 => exact absurd rfl h4
  | n + 5, hl, _, _ => exact absurd hl (by simp [smallHistory])

/-- the hypotheses of `C101_back_partial` and `C101_tags_partial` -/
example : setTags smallWorld smallHistory smallPreamble = smallPreamble ∧
    setTags smallWorld (smallHistory.take 3) smallPreamble = smallPreamble2 := by
  refine ⟨C101_back_partial (W := smallWorld) (fun _ => Iff.rfl) small_parsed (by decide +kernel) small_readable (by simp) _
    small_assigned small_prefixes ?_, ?_⟩
  · intro i x hx
    match i, hx with
    | 0, hx => cases hx; decide +kernel
    | 1, hx => cases hx; decide +kernel
    | i + 2, hx => cases hx
  · rw [(C101_tags_partial (W := smallWorld) (fun _ => Iff.rfl) small_parsed small_readable (by simp) (smallHistory.take 3)
      (fun a h => small_assigned a (List.mem_of_mem_take h))
      (fun p h0 _ hp => small_prefixes p h0 (by
        rintro rfl
        have := hp.length_le
        simp [smallHistory] at this) (hp.trans (List.take_prefix _ _)))).1 (by simp [smallHistory])]
    decide +kernel

/-- the hypotheses of `C101_same_values_partial` -/
example : setTags smallWorld (smallHistory.take 3) smallPreamble = setTags smallWorld [⟨s% "Epoch", 1, s% "2"⟩] smallPreamble := by
  refine C101_same_values_partial (W := smallWorld) (fun _ => Iff.rfl) small_parsed small_readable (by simp) _ _
    (fun a h => small_assigned a (List.mem_of_mem_take h)) ?_ (by simp [smallHistory]) (by simp)
    (fun p h0 _ hp => small_prefixes p h0 (by
      rintro rfl
      have := hp.length_le
      simp [smallHistory] at this) (hp.trans (List.take_prefix _ _))) ?_ ?_
  · intro a ha
    simp only [List.mem_cons, List.not_mem_nil, or_false] at ha
    subst ha
    exact ⟨small_only (by decide +kernel) (by decide +kernel), (small_assigned ⟨s% "epoch", 1, s% "2"⟩ (by simp [smallHistory])).value⟩
  · intro p h0 h1 hp
    rw [List.prefix_cons_iff] at hp
    rcases hp with rfl | ⟨q, rfl, hq⟩
    · exact absurd rfl h0
    · rw [List.prefix_nil] at hq
      subst hq
      exact absurd rfl h1
  · intro i x hx
    match i, hx with
    | 0, hx => cases hx; decide +kernel
    | 1, hx => cases hx; decide +kernel
    | i + 2, hx => cases hx

/-- the hypotheses of `C101_macros_partial` -/
example : setMacros sampleWorld [⟨s% "a", 0, s% "3"⟩, ⟨s% "b", 1, s% "4"⟩, ⟨s% "a", 0, s% "5"⟩] twoMacros =
    [s% "%global a 5", s% "%if 0", s% "%global b 4", s% "%endif", s% "Name: x"] := by
  have only : ∀ (name : Str) (k : Nat), (s% "a" = name ↔ 0 = k) → (s% "b" = name ↔ 1 = k) → OnlyDefinition name twoMacrosRead k := by
    intro name k h0 h1 j x hx
    match j, hx with
    | 0, hx => cases hx; exact h0
    | 1, hx => cases hx; exact h1
    | j + 2, hx => cases hx
  have na : MacroName (s% "a") := ⟨s% "a", [], rfl, by decide, by decide, .inl rfl⟩
  have nb : MacroName (s% "b") := ⟨s% "b", [], rfl, by decide, by decide, .inl rfl⟩
  have nif := noDefinition (ls := [s% "%if 0"]) (by decide +kernel)
  have ok : ∀ m : MacroDefinitions, (MacroDefinitions.parse (sampleWorld.oracle (MacroDefinitions.raw m)) true
      (MacroDefinitions.raw m)).toOption.isSome = true → DefinitionsRead sampleWorld m := by
    intro m h
    cases hp : MacroDefinitions.parse (sampleWorld.oracle (MacroDefinitions.raw m)) true (MacroDefinitions.raw m) with
    | ok m' => exact ⟨m', hp⟩
    | error e => rw [hp] at h; cases h
  rw [(C101_macros_partial (W := sampleWorld) (lines := twoMacros) (m := twoMacrosRead) (by decide +kernel)
    (by
      intro d hd
      simp only [twoMacrosRead, List.mem_cons, List.not_mem_nil, or_false] at hd
      rcases hd with rfl | rfl
      · exact plain_readable (preceding := []) na (by decide) (by decide +kernel) (by simp)
      · exact plain_readable nb (by decide) (by decide +kernel) nif)
    (noDefinition (by decide +kernel)) _
    (by
      intro a ha
      simp only [List.mem_cons, List.not_mem_nil, or_false] at ha
      rcases ha with rfl | rfl | rfl
      · exact ⟨only _ _ (by decide) (by decide), _, rfl,
          plain_readable (preceding := []) na (by decide) (by decide +kernel) (by simp)⟩
      · exact ⟨only _ _ (by decide) (by decide), _, rfl, plain_readable nb (by decide) (by decide +kernel) nif⟩
      · exact ⟨only _ _ (by decide) (by decide), _, rfl,
          plain_readable (preceding := []) na (by decide) (by decide +kernel) (by simp)⟩)
    (by
      intro p h0 h4 hp
      have hl := hp.length_le
      rw [List.prefix_iff_eq_take] at hp
      generalize p.length = n at hp hl
      subst hp
      match n, hl, h0, h4 with
      | 0, _, h0, _ => exact absurd rfl h0
      | 1, _, _, _ => exact ok _ (by decide +kernel)
      | 2, _, _, _ => exact ok _ (by decide +kernel)
      | 3, _, _, h4 => exact absurd rfl h4
      | n + 4, hl, _, _ => exact absurd hl (by simp))).1 (by simp)]
  decide +kernel

/-- C101 fails if a text on the way is not read as it was made: the definition after an open bracket is taken for a part of the
body, so it is gone when the body is set back. -/
theorem C101_violation_brackets : setMacros sampleWorld [⟨s% "a", 0, s% "%{x"⟩, ⟨s% "a", 0, s% "1"⟩]
    [s% "%global a 1", s% "%global b 2"] = [s% "%global a 1"] := by decide +kernel

end
end Specfile.Props
