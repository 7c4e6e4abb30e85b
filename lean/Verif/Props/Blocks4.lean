import Verif.Props.Blocks2
import Verif.Props.Blocks3
/-
C99: macro definitions of the preamble and other sections can be edited in any order.
-/
namespace Specfile.Props
open Py Spec Update Ops
open Specfile.Blocks Proof.Local

section
variable [Uni] {α : Type} {W : World}

omit [Uni] in
theorem splitC_mono (c : Char) (s w : Str) : (splitC c s).length ≤ (splitC c (s ++ w)).length := by
  induction hn : s.length using Nat.strongRecOn generalizing s with
  | ind n ih =>
    by_cases hs : c ∈ s
    · obtain ⟨a, b, rfl, ha⟩ : ∃ a b, s = a ++ c :: b ∧ c ∉ a := by
        clear ih hn
        induction s with
        | nil => simp at hs
        | cons x xs ih =>
          by_cases hx : x = c
          · exact ⟨[], xs, by simp [hx], by simp⟩
          · obtain ⟨a, b, rfl, ha⟩ := ih (by simpa [Ne.symm hx] using hs)
            exact ⟨x :: a, b, rfl, by simp [ha, Ne.symm hx]⟩
      rw [List.append_assoc, List.cons_append, splitC_append_sep _ ha, splitC_append_sep _ ha,
        List.length_cons, List.length_cons]
      have := ih b.length (by simp at hn; omega) b rfl
      omega
    · rw [splitC_of_not_mem hs]
      cases h : splitC c (s ++ w) with
      | nil => exact absurd h (splitC_ne_nil _ _)
      | cons => simp

omit [Uni] in
theorem excluded_bound {m : MacroDefinitions} {i : Nat} (h : Conditions.isExcluded m.excluded i = true) :
    i < ((m.data.map (·.raw)).flatten).length := by
  simp only [Conditions.isExcluded, MacroDefinitions.excluded, List.any_map, List.any_eq_true, Function.comp_apply,
    Bool.and_eq_true, decide_eq_true_eq] at h
  obtain ⟨d, hd, h1, h2⟩ := h
  have hraw : d.raw.length ≥ d.preceding.length + (splitC '\n' d.body).length := by
    obtain ⟨b, bs, e1, e2⟩ := MacroDefinitions.raw_eq d
    have := splitC_mono '\n' d.body d.ws3
    rw [e1] at this
    rw [e2]
    simp at this ⊢
    omega
  cases hk : MacroDefinitions.index m.data d with
  | none =>
    unfold MacroDefinitions.index at hk
    rw [List.findIdx?_eq_none_iff] at hk
    have := hk d hd
    rw [MacroDefinitions.eqv_refl] at this
    cases this
  | some k =>
    have hp : m.position d = .ok (((m.data.take k).map (fun y => y.raw.length)).sum + d.preceding.length) := by
      simp [MacroDefinitions.position, hk]
    rw [hp] at h2
    simp only at h2
    unfold MacroDefinitions.index at hk
    rw [List.findIdx?_eq_some_iff_getElem] at hk
    obtain ⟨hl, he, -⟩ := hk
    rw [MacroDefinitions.eqv_iff] at he
    have hr : (m.data[k]).raw.length = d.raw.length := by
      rw [← he]
      rfl
    rw [MacroDefinitions.length_flatten_raw]
    have hs : m.data = m.data.take k ++ m.data[k] :: m.data.drop (k + 1) := by
      rw [List.getElem_cons_drop, List.take_append_drop]
    have : (m.data.map (fun y => y.raw.length)).sum = ((m.data.take k).map (fun y => y.raw.length)).sum +
        ((m.data[k]).raw.length + ((m.data.drop (k + 1)).map (fun y => y.raw.length)).sum) := by
      conv => lhs; rw [hs]
      simp only [List.map_append, List.map_cons, List.sum_append_nat, List.sum_cons]
    omega

/-- definitions that can be read, followed by other lines -/
structure ReadableLines (m : MacroDefinitions) (more : List Str) : Prop where
  data : ∀ d ∈ m.data, Readable { d with valid := true }
  remainder : ∀ l ∈ m.remainder, ¬ s% "global" <:+: l ∧ ¬ s% "define" <:+: l
  more : ∀ l ∈ more, ¬ s% "global" <:+: l ∧ ¬ s% "define" <:+: l

omit [Uni] in
theorem raw_more (m : MacroDefinitions) (more : List Str) :
    MacroDefinitions.raw m ++ more = MacroDefinitions.raw ⟨m.data, m.remainder ++ more⟩ := by
  simp [MacroDefinitions.raw]

theorem readable_outside {m : MacroDefinitions} {more : List Str} (h : ReadableLines m more)
    (hl : ∀ l ∈ MacroDefinitions.raw m, ¬ HeaderLine l) : HeadersOutside (MacroDefinitions.raw m ++ more) := by
  intro i l hi hh hin
  unfold InDefinition at hin
  have e : MacroDefinitions.parseLines (MacroDefinitions.raw m ++ more) = allValid ⟨m.data, m.remainder ++ more⟩ := by
    rw [raw_more, ← raw_allValid]
    refine C54_read_back _ _ ?_ ?_
    · intro d hm
      obtain ⟨x, hx, rfl⟩ := List.mem_map.1 hm
      exact h.data x hx
    · intro l hl
      rcases List.mem_append.1 hl with hl | hl
      · exact h.remainder l hl
      · exact h.more l hl
  rw [e] at hin
  have := excluded_bound hin
  have hlen : i < (MacroDefinitions.raw m).length := by
    have e2 : ((allValid ⟨m.data, m.remainder ++ more⟩).data.map (·.raw)) = m.data.map (·.raw) := by
      simp only [allValid, List.map_map]
      rfl
    rw [e2] at this
    simp only [MacroDefinitions.raw, List.length_append]
    omega
  rw [List.getElem?_append_left hlen] at hi
  exact hl l (List.mem_of_getElem? hi) hh

/-- the definitions with another body of the one with index `k` -/
def withBody (m : MacroDefinitions) (k : Nat) (body : Str) : MacroDefinitions :=
  { m with data := m.data.modify k (fun x => { x with body := body }) }

theorem setMacro_prefix {m m' : MacroDefinitions} {more : List Str} (h : ReadableLines m more)
    (hp : MacroDefinitions.parse (W.oracle (MacroDefinitions.raw m ++ more)) true (MacroDefinitions.raw m ++ more) = .ok m')
    {name : Str} {k : Nat} {x : MacroDefinition} (hx : m.data[k]? = some x) (hk : OnlyDefinition name m k) (body : Str) :
    setMacro W name body (MacroDefinitions.raw m ++ more) = (MacroDefinitions.raw (withBody m k body) ++ more, .ok ()) := by
  have e := parse_allValid (m := ⟨m.data, m.remainder ++ more⟩) h.data (by
    intro l hl
    rcases List.mem_append.1 hl with hl | hl
    · exact h.remainder l hl
    · exact h.more l hl) (by rw [← raw_more]; exact hp)
  simp only [allValid, MacroDefinitions.mk.injEq] at e
  have hname : ∀ i : Nat, (m'.data[i]?).map (·.name) = (m.data[i]?).map (·.name) := by
    intro i
    have e2 := congrArg (fun l => (l[i]?).map (·.name)) e.1
    simp only [List.getElem?_map, Option.map_map] at e2
    exact e2
  have hon : OnlyDefinition name m' k := by
    intro i z hz
    have e := hname i
    rw [hz] at e
    cases hq : m.data[i]? with
    | none => rw [hq] at e; cases e
    | some q =>
      rw [hq] at e
      simp only [Option.map_some, Option.some.injEq] at e
      rw [e]
      exact hk i q hq
  obtain ⟨z, hz⟩ : ∃ z, m'.data[k]? = some z := by
    have e := hname k
    rw [hx] at e
    cases hq : m'.data[k]? with
    | none => rw [hq] at e; cases e
    | some q => exact ⟨q, rfl⟩
  rw [setMacro_only hp hz hon body, raw_more (withBody m k body)]
  congr 1
  rw [← raw_allValid, ← raw_allValid ⟨_, _ ++ _⟩]
  congr 1
  have comm : ∀ l : List MacroDefinition, (l.modify k (fun x => { x with body := body })).map (fun t => { t with valid := true }) =
      (l.map (fun t => { t with valid := true })).modify k (fun x => { x with body := body }) := by
    intro l
    apply List.ext_getElem?
    intro i
    simp only [List.getElem?_map, List.getElem?_modify]
    cases l[i]? with
    | none => rfl
    | some q =>
      simp only [Option.map_eq_map, Option.map_some]
      split <;> rfl
  simp only [allValid, withBody, comm, e.1, e.2]

omit [Uni] in
/-- an operation that has nothing to do with the preamble makes the same of the other sections whatever the preamble is -/
theorem local_preamble {Q : Section → Prop} {g : Sections → Sections × Except Err α} (hg : LocalTo Q g)
    (hq : ¬ Q (preambleOf [])) (a b : List Str) (rest : Sections) :
    ∃ rest', (g (preambleOf a :: rest)).1 = preambleOf a :: rest' ∧ (g (preambleOf b :: rest)).1 = preambleOf b :: rest' ∧
      rest'.map emptied = rest.map emptied ∧ (g (preambleOf a :: rest)).2 = (g (preambleOf b :: rest)).2 := by
  have split : ∀ c, ∃ t, (g (preambleOf c :: rest)).1 = preambleOf c :: t ∧ t.map emptied = rest.map emptied := by
    intro c
    have h1 := hg.kept (preambleOf c :: rest) 0 (preambleOf c) rfl hq
    have h2 := hg.headers (preambleOf c :: rest)
    cases h : (g (preambleOf c :: rest)).1 with
    | nil => rw [h] at h1; cases h1
    | cons p t =>
      rw [h] at h1 h2
      cases h1
      simp only [List.map_cons, List.cons.injEq] at h2
      exact ⟨t, rfl, h2.2⟩
  obtain ⟨t, ht, ht'⟩ := split a
  obtain ⟨u, hu, hu'⟩ := split b
  have ho := hg.only (preambleOf a :: rest) (preambleOf b :: rest) rfl (by
    intro i s hs hp
    cases i with
    | zero =>
      cases hs
      exact absurd hp hq
    | succ i => exact hs)
  refine ⟨t, ht, ?_, ht', ho.1⟩
  rw [hu]
  congr 1
  apply List.ext_getElem?
  intro i
  cases hs : rest[i]? with
  | none =>
    have l1 := congrArg List.length ht'
    have l2 := congrArg List.length hu'
    simp only [List.length_map] at l1 l2
    have : rest.length ≤ i := by simpa using hs
    rw [List.getElem?_eq_none (by omega), List.getElem?_eq_none (by omega)]
  | some s =>
    by_cases hp : Q (emptied s)
    · have := ho.2 (i + 1) s hs hp
      rw [ht, hu] at this
      exact this.symm
    · have a1 := hg.kept (preambleOf a :: rest) (i + 1) s hs hp
      have b1 := hg.kept (preambleOf b :: rest) (i + 1) s hs hp
      rw [ht] at a1
      rw [hu] at b1
      exact b1.trans a1.symm

/-- C99: the body of a macro that is defined in the preamble can be set before or after any operation that has nothing to do
with the preamble, such as adding a changelog entry or editing `%prep`. Missing: definitions in other sections. -/
theorem C99_macro_operation_partial {Q : Section → Prop} {g : List Str → Sections → Sections × Except Err α}
    {m : MacroDefinitions} {rest rest' : Sections} {name body : Str} {k : Nat} {x : MacroDefinition}
    (hx : m.data[k]? = some x) (hk : OnlyDefinition name m k) (hb : Readable { x with body := body, valid := true })
    (hm : ReadableLines m (Sections.raw rest)) (hm' : ReadableLines m (Sections.raw rest'))
    (hl : ∀ l ∈ MacroDefinitions.raw m, OneLine l ∧ ¬ HeaderLine l)
    (hl' : ∀ l ∈ MacroDefinitions.raw (withBody m k body), OneLine l ∧ ¬ HeaderLine l) (hr : ∀ s ∈ rest, GoodSection s)
    (hq : ¬ Q (preambleOf [])) (hg : LocalTo Q (g (MacroDefinitions.raw m ++ Sections.raw rest)))
    (hr' : (g (MacroDefinitions.raw m ++ Sections.raw rest) (preambleOf (MacroDefinitions.raw m) :: rest)).1 =
      preambleOf (MacroDefinitions.raw m) :: rest')
    (ha : ∀ ss, g (MacroDefinitions.raw (withBody m k body) ++ Sections.raw rest) ss =
      g (MacroDefinitions.raw m ++ Sections.raw rest) ss)
    (hp : ∃ m', MacroDefinitions.parse (W.oracle (MacroDefinitions.raw m ++ Sections.raw rest)) true
      (MacroDefinitions.raw m ++ Sections.raw rest) = .ok m')
    (hp' : ∃ m', MacroDefinitions.parse (W.oracle (MacroDefinitions.raw m ++ Sections.raw rest')) true
      (MacroDefinitions.raw m ++ Sections.raw rest') = .ok m') :
    let lines := MacroDefinitions.raw m ++ Sections.raw rest
    let both := MacroDefinitions.raw (withBody m k body) ++ Sections.raw rest'
    let a := setMacro W name body lines
    let b := withSections W lines (g lines)
    withSections W a.1 (g a.1) = (both, b.2) ∧ setMacro W name body b.1 = (both, .ok ()) ∧ a.2 = .ok () := by
  intro lines both a b
  obtain ⟨_, hp⟩ := hp
  obtain ⟨_, hp'⟩ := hp'
  have read : ∀ mm : MacroDefinitions, ReadableLines mm (Sections.raw rest) →
      (∀ l ∈ MacroDefinitions.raw mm, OneLine l ∧ ¬ HeaderLine l) → ∀ ex : Conditions.Oracle,
      Sections.parse ex (MacroDefinitions.raw mm ++ Sections.raw rest) = .ok (preambleOf (MacroDefinitions.raw mm) :: rest) := by
    intro mm h1 h2 ex
    have e := raw_cons (MacroDefinitions.raw mm) rest
    rw [← e]
    refine Sections.parse_good ⟨_, _, rfl, h2, hr⟩ ?_
    rw [e]
    exact readable_outside h1 fun l hl => (h2 l hl).2
  have hmb : ReadableLines (withBody m k body) (Sections.raw rest) := by
    refine ⟨?_, hm.remainder, hm.more⟩
    intro d hd
    obtain ⟨i, hi⟩ := List.getElem?_of_mem hd
    simp only [withBody, List.getElem?_modify] at hi
    cases hq : m.data[i]? with
    | none => rw [hq] at hi; simp at hi
    | some q =>
      rw [hq] at hi
      simp only [Option.map_eq_map, Option.map_some, Option.some.injEq] at hi
      split at hi
      · subst_vars
        rw [hx] at hq
        cases hq
        exact hb
      · subst hi
        exact hm.data _ (List.mem_of_getElem? hq)
  have ea : a = (MacroDefinitions.raw (withBody m k body) ++ Sections.raw rest, .ok ()) := setMacro_prefix hm hp hx hk body
  have eb : b = (MacroDefinitions.raw m ++ Sections.raw rest', (g lines (preambleOf (MacroDefinitions.raw m) :: rest)).2) := by
    simp only [b, withSections, lines, read m hm hl]
    rw [hr', raw_cons]
  obtain ⟨t, t1, t2, -, t3⟩ := local_preamble hg hq (MacroDefinitions.raw m) (MacroDefinitions.raw (withBody m k body)) rest
  rw [hr'] at t1
  cases t1
  refine ⟨?_, ?_, by rw [ea]⟩
  · rw [ea, eb]
    simp only [withSections, read _ hmb hl', ha, t2, raw_cons, t3, both, lines]
  · rw [eb]
    exact setMacro_prefix hm' hp' hx hk body

end

section
attribute [local instance] asciiUni

/-- the preamble of a spec file with a macro definition -/
def macroPreamble : MacroDefinitions := ⟨[plainDefinition (s% "a") (s% "1") [] true], [s% "Name: x"]⟩

/-- a changelog with another entry, after `%prep` -/
def newSections : Sections :=
  [⟨s% "prep", ⟨[], [], []⟩, [], ['\n'], [s% "%setup -q"]⟩,
    ⟨s% "changelog", ⟨[], [], []⟩, [], ['\n'],
      [s% "* Mon Jan 08 2024 B - 1-2", s% "- new", s% "", s% "* Mon Jan 01 2024 B", s% "- old"]⟩]

/-- the hypotheses of `C99_macro_operation_partial`: a macro is set and a changelog entry is added -/
example :
    let lines := [s% "%global a 1", s% "Name: x"] ++ blockSpec.drop 2
    let both := [s% "%global a 3", s% "Name: x"] ++ Sections.raw newSections
    addChangelogEntry sampleWorld sampleEnv [s% "- new"] orderArgs (setMacro sampleWorld (s% "a") (s% "3") lines).1 = (both, .ok ()) ∧
      setMacro sampleWorld (s% "a") (s% "3") (addChangelogEntry sampleWorld sampleEnv [s% "- new"] orderArgs lines).1 =
        (both, .ok ()) := by
  have na : MacroName (s% "a") := ⟨s% "a", [], rfl, by decide, by decide, .inl rfl⟩
  have only : OnlyDefinition (s% "a") macroPreamble 0 := by
    intro j x hx
    match j, hx with
    | 0, hx => cases hx; decide
    | j + 1, hx => cases hx
  have readable : ∀ more : List Str, (∀ l ∈ more, (s% "global").isInfixOf_internal l = false ∧
      (s% "define").isInfixOf_internal l = false) → ReadableLines macroPreamble more := by
    intro more hm
    refine ⟨?_, noDefinition (by decide +kernel), noDefinition hm⟩
    intro d hd
    simp only [macroPreamble, List.mem_singleton] at hd
    subst hd
    exact plain_readable (preceding := []) na (by decide) (by decide +kernel) (by simp)
  have ok : ∀ lines : List Str, (MacroDefinitions.parse (sampleWorld.oracle lines) true lines).toOption.isSome = true →
      ∃ m', MacroDefinitions.parse (sampleWorld.oracle lines) true lines = .ok m' := by
    intro lines h
    cases hp : MacroDefinitions.parse (sampleWorld.oracle lines) true lines with
    | ok m => exact ⟨m, rfl⟩
    | error e => rw [hp] at h; cases h
  obtain ⟨_, _, h, _, good⟩ := block_good
  simp only [List.cons.injEq] at h
  have := C99_macro_operation_partial (W := sampleWorld) (Q := IsChangelog) (m := macroPreamble) (rest := blockSections)
    (g := fun l => addLoop (sampleEnv l) [s% "- new"] orderArgs)
    (rest' := newSections) (name := s% "a") (body := s% "3") (k := 0) rfl only
    (plain_readable (preceding := []) na (by decide) (by decide +kernel) (by simp))
    (readable _ (by decide +kernel)) (readable _ (by decide +kernel)) (block_plain (by decide +kernel) (by decide +kernel))
    (block_plain (by decide +kernel) (by decide +kernel)) (by rw [h.2]; exact good) (by unfold IsChangelog; decide +kernel)
    (addLoop_local _ _ _) (by decide +kernel) (fun _ => rfl) (ok _ (by decide +kernel)) (ok _ (by decide +kernel))
  have e1 : MacroDefinitions.raw macroPreamble ++ Sections.raw blockSections = [s% "%global a 1", s% "Name: x"] ++ blockSpec.drop 2 := by
    decide +kernel
  have e2 : MacroDefinitions.raw (withBody macroPreamble 0 (s% "3")) ++ Sections.raw newSections =
      [s% "%global a 3", s% "Name: x"] ++ Sections.raw newSections := by decide +kernel
  rw [e1, e2] at this
  refine ⟨this.1.trans ?_, this.2.1⟩
  congr 1

end
end Specfile.Props
