import Verif.Props.Blocks
import Verif.Props.MacroDefinitions
/-
C99: two macro definitions can be set in any order.
-/
namespace Specfile.Props
open Py Spec Update Ops
open Specfile.Blocks

section
variable [Uni] {W : World}

/-- the definitions as if all of them were valid -/
def allValid (m : MacroDefinitions) : MacroDefinitions := ⟨m.data.map (fun d => { d with valid := true }), m.remainder⟩

/-- the definition with index `k` is the only one with this name -/
def OnlyDefinition (name : Str) (m : MacroDefinitions) (k : Nat) : Prop :=
  ∀ (j : Nat) d, m.data[j]? = some d → (d.name = name ↔ j = k)

omit [Uni] in
theorem takeBody_flags (body : Str) : ∀ (a b : List (Str × Bool)), a.map (·.1) = b.map (·.1) →
    MacroDefinitions.takeBody body a = MacroDefinitions.takeBody body b := by
  intro a
  induction a generalizing body with
  | nil => intro b h; cases b with
    | nil => rfl
    | cons => simp at h
  | cons x a ih =>
    intro b h
    cases b with
    | nil => simp at h
    | cons y b =>
      simp only [List.map_cons, List.cons.injEq] at h
      simp only [MacroDefinitions.takeBody, h.1]
      rw [ih _ b h.2]

theorem parseLoop_flags : ∀ (a b : List (Str × Bool)), a.map (·.1) = b.map (·.1) → ∀ (buffer : List Str) (skip : Nat),
    allValid (MacroDefinitions.parseLoop buffer skip a) = allValid (MacroDefinitions.parseLoop buffer skip b) := by
  intro a
  induction a with
  | nil => intro b h; cases b with
    | nil => intros; rfl
    | cons => simp at h
  | cons x a ih =>
    intro b h buffer skip
    cases b with
    | nil => simp at h
    | cons y b =>
      simp only [List.map_cons, List.cons.injEq] at h
      cases skip with
      | succ n => exact ih b h.2 buffer n
      | zero =>
        simp only [MacroDefinitions.parseLoop, h.1]
        split
        · exact ih b h.2 _ 0
        · rename_i t _
          have e1 : (MacroDefinitions.build t x.2 buffer a).2 = (MacroDefinitions.build t y.2 buffer b).2 := by
            simp only [MacroDefinitions.build, takeBody_flags _ a b h.2]
          have e2 : ({ (MacroDefinitions.build t x.2 buffer a).1 with valid := true } : MacroDefinition) =
              { (MacroDefinitions.build t y.2 buffer b).1 with valid := true } := by
            simp only [MacroDefinitions.build, takeBody_flags _ a b h.2]
          have e3 := ih b h.2 [] (MacroDefinitions.build t x.2 buffer a).2
          rw [e1] at e3 ⊢
          simp only [allValid, MacroDefinitions.mk.injEq] at e3 ⊢
          simp only [List.map_cons, e3.1, e3.2, and_true]
          exact congrArg (· :: _) e2

omit [Uni] in
theorem raw_allValid (m : MacroDefinitions) : MacroDefinitions.raw (allValid m) = MacroDefinitions.raw m := by
  simp only [MacroDefinitions.raw, allValid, List.map_map]
  rfl

/-- definitions that are written are read again, apart from their validity -/
theorem parse_allValid {ex : Conditions.Oracle} {m m' : MacroDefinitions}
    (hd : ∀ d ∈ m.data, Readable { d with valid := true })
    (hr : ∀ l ∈ m.remainder, ¬ s% "global" <:+: l ∧ ¬ s% "define" <:+: l)
    (h : MacroDefinitions.parse ex true (MacroDefinitions.raw m) = .ok m') : allValid m' = allValid m := by
  have h0 : MacroDefinitions.parseLines (MacroDefinitions.raw m) = allValid m := by
    rw [← raw_allValid]
    refine C54_read_back _ _ ?_ hr
    intro d hm
    obtain ⟨x, hx, rfl⟩ := List.mem_map.1 hm
    exact hd x hx
  unfold MacroDefinitions.parse at h
  rw [if_neg (by simp)] at h
  split at h
  · cases h
  · rename_i ls hl
    cases h
    have := C11_lines_kept _ _ _ _ hl
    have e := parseLoop_flags ls ((MacroDefinitions.raw m).map (fun l => (l, true)))
      (by rw [this, List.map_map]; simp [Function.comp_def]) [] 0
    have e' : allValid (MacroDefinitions.parseFlagged ls) = allValid (MacroDefinitions.parseLines (MacroDefinitions.raw m)) := e
    rw [e', h0]
    simp [allValid, List.map_map, Function.comp_def]

omit [Uni] in
theorem setBody_only {m : MacroDefinitions} {name : Str} {k : Nat} {x : MacroDefinition} (hx : m.data[k]? = some x)
    (hk : OnlyDefinition name m k) (body : Str) :
    m.setBody name body = .ok { m with data := m.data.modify k (fun x => { x with body := body }) } := by
  have hn : x.name = name := (hk k x hx).2 rfl
  have hc : m.contains name = true := by
    simp only [MacroDefinitions.contains, List.any_eq_true, beq_iff_eq]
    exact ⟨x, List.mem_of_getElem? hx, hn⟩
  have hf : m.find name none = .ok k := by
    rw [(C21_find_definition m name).1 k]
    refine ⟨x, hx, hn, ?_⟩
    have hlt : ∀ j y, j < k → m.data[j]? = some y → y.name ≠ name := by
      intro j y hj hy h
      have := (hk j y hy).1 h
      omega
    cases hv : x.valid with
    | true => exact .inl ⟨rfl, fun j y hj hy h => absurd h (hlt j y hj hy)⟩
    | false =>
      refine .inr ⟨fun y hy h => ?_, hlt⟩
      obtain ⟨j, hj⟩ := List.getElem?_of_mem hy
      have := (hk j y hj).1 h
      subst this
      rw [hx] at hj
      cases hj
      exact hv
  unfold MacroDefinitions.setBody
  rw [if_neg (by simp [hc]), hf]

theorem setMacro_only {lines : List Str} {m : MacroDefinitions} (h : MacroDefinitions.parse (W.oracle lines) true lines = .ok m)
    {name : Str} {k : Nat} {x : MacroDefinition} (hx : m.data[k]? = some x) (hk : OnlyDefinition name m k) (body : Str) :
    setMacro W name body lines =
      (MacroDefinitions.raw { m with data := m.data.modify k (fun x => { x with body := body }) }, .ok ()) := by
  simp only [setMacro, withMacros, h, setBody_only hx hk body]

/-- the definitions can be read after this one was given this body -/
def DefinitionsAfter (W : World) (x : MacroDefinition) (body : Str) (lines : List Str) : Prop :=
  Readable { x with body := body, valid := true } ∧ ∃ m', MacroDefinitions.parse (W.oracle lines) true lines = .ok m'

theorem setMacro_twice {lines : List Str} {m : MacroDefinitions} (h : MacroDefinitions.parse (W.oracle lines) true lines = .ok m)
    {name name' : Str} {k j : Nat} {x y : MacroDefinition} (hx : m.data[k]? = some x) (hk : OnlyDefinition name m k)
    (hy : m.data[j]? = some y) (hj : OnlyDefinition name' m j) (v w : Str)
    (hm : ∀ d ∈ m.data, Readable { d with valid := true })
    (hr : ∀ l ∈ m.remainder, ¬ s% "global" <:+: l ∧ ¬ s% "define" <:+: l)
    (ha : DefinitionsAfter W x v (setMacro W name v lines).1) :
    setMacro W name' w (setMacro W name v lines).1 = (MacroDefinitions.raw
      ⟨(m.data.modify k (fun x => { x with body := v })).modify j (fun x => { x with body := w }), m.remainder⟩, .ok ()) := by
  obtain ⟨h1, m', h2⟩ := ha
  rw [setMacro_only h hx hk v] at h2 ⊢
  simp only at h2 ⊢
  have e := parse_allValid (m := { m with data := m.data.modify k (fun x => { x with body := v }) }) (by
    intro d hd
    obtain ⟨i, hi⟩ := List.getElem?_of_mem hd
    simp only [List.getElem?_modify] at hi
    cases hq : m.data[i]? with
    | none => rw [hq] at hi; simp at hi
    | some q =>
      rw [hq] at hi
      simp only [Option.map_eq_map, Option.map_some, Option.some.injEq] at hi
      split at hi
      · subst_vars
        rw [hx] at hq
        cases hq
        exact h1
      · subst hi
        exact hm _ (List.mem_of_getElem? hq)) hr h2
  simp only [allValid, MacroDefinitions.mk.injEq] at e
  have hname : ∀ i : Nat, (m'.data[i]?).map (·.name) = (m.data[i]?).map (·.name) := by
    intro i
    have e2 := congrArg (fun l => (l[i]?).map (·.name)) e.1
    simp only [List.getElem?_map, Option.map_map, List.getElem?_modify] at e2
    have e3 : (m'.data[i]?).map (·.name) = _ := e2
    rw [e3]
    cases m.data[i]? with
    | none => rfl
    | some z =>
      simp only [Option.map_eq_map, Option.map_some]
      split <;> rfl
  have hon : OnlyDefinition name' m' j := by
    intro i z hz
    have e := hname i
    rw [hz] at e
    cases hq : m.data[i]? with
    | none => rw [hq] at e; cases e
    | some q =>
      rw [hq] at e
      simp only [Option.map_some, Option.some.injEq] at e
      rw [e]
      exact hj i q hq
  obtain ⟨z, hz⟩ : ∃ z, m'.data[j]? = some z := by
    have e := hname j
    rw [hy] at e
    cases hq : m'.data[j]? with
    | none => rw [hq] at e; cases e
    | some q => exact ⟨q, rfl⟩
  rw [setMacro_only h2 hz hon w]
  congr 1
  rw [← raw_allValid, ← raw_allValid ⟨_, m.remainder⟩]
  congr 1
  have comm : ∀ l : List MacroDefinition, (l.modify j (fun x => { x with body := w })).map (fun t => { t with valid := true }) =
      (l.map (fun t => { t with valid := true })).modify j (fun x => { x with body := w }) := by
    intro l
    apply List.ext_getElem?
    intro i
    simp only [List.getElem?_map, List.getElem?_modify]
    cases l[i]? with
    | none => rfl
    | some q =>
      simp only [Option.map_eq_map, Option.map_some]
      split <;> rfl
  simp only [allValid, comm, e.1, e.2]

/-- C99: the bodies of two macro definitions can be set in any order, if each is the only definition of its name and the
definitions are written the way they are read. -/
theorem C99_macros_partial {lines : List Str} {m : MacroDefinitions} (h : MacroDefinitions.parse (W.oracle lines) true lines = .ok m)
    {name name' : Str} {k j : Nat} {x y : MacroDefinition} (hkj : k ≠ j) (hx : m.data[k]? = some x)
    (hk : OnlyDefinition name m k) (hy : m.data[j]? = some y) (hj : OnlyDefinition name' m j) (v w : Str)
    (hm : ∀ d ∈ m.data, Readable { d with valid := true })
    (hr : ∀ l ∈ m.remainder, ¬ s% "global" <:+: l ∧ ¬ s% "define" <:+: l)
    (ha : DefinitionsAfter W x v (setMacro W name v lines).1) (hb : DefinitionsAfter W y w (setMacro W name' w lines).1) :
    ∃ m' : MacroDefinitions, m'.remainder = m.remainder ∧
      m'.data = (m.data.set k { x with body := v }).set j { y with body := w } ∧
      setMacro W name' w (setMacro W name v lines).1 = (MacroDefinitions.raw m', .ok ()) ∧
      setMacro W name v (setMacro W name' w lines).1 = (MacroDefinitions.raw m', .ok ()) := by
  obtain ⟨lk, ek⟩ := List.getElem?_eq_some_iff.1 hx
  obtain ⟨lj, ej⟩ := List.getElem?_eq_some_iff.1 hy
  refine ⟨⟨(m.data.modify k (fun x => { x with body := v })).modify j (fun x => { x with body := w }), m.remainder⟩, rfl, ?_,
    setMacro_twice h hx hk hy hj v w hm hr ha, ?_⟩
  · apply List.ext_getElem?
    intro i
    simp only [List.getElem?_modify, List.getElem?_set, List.length_set]
    by_cases h1 : j = i
    · subst h1
      simp [hkj, lj, ej]
    · by_cases h2 : k = i
      · subst h2
        simp [h1, lk, ek]
      · simp [h1, h2]
  · rw [setMacro_twice h hy hj hx hk w v hm hr hb]
    congr 3
    apply List.ext_getElem?
    intro i
    simp only [List.getElem?_modify]
    cases m.data[i]? with
    | none => rfl
    | some q => by_cases h1 : k = i <;> by_cases h2 : j = i <;> simp_all

end

section
attribute [local instance] asciiUni

/-- a simple definition -/
def plainDefinition (name body : Str) (preceding : List Str) (valid : Bool) : MacroDefinition :=
  ⟨name, body, true, false, .dnl, [], [' '], [' '], [], [], valid, preceding⟩

theorem plain_readable {name body : Str} {preceding : List Str} (hn : MacroName name) (hb : ∀ c ∈ body, isSpace c = false ∧ c ≠ '\n')
    (ho : MacroDefinitions.open_ body = false) (hp : ∀ l ∈ preceding, ¬ s% "global" <:+: l ∧ ¬ s% "define" <:+: l) :
    Readable (plainDefinition name body preceding true) := by
  have hnl : '\n' ∉ body := fun h => (hb _ h).2 rfl
  exact {
    intro := .plain rfl rfl rfl
    ws0 := by intro c hc; cases hc
    ws1 := ⟨by simp [plainDefinition], by simp [plainDefinition]; decide⟩
    name := hn
    ws2 := ⟨by simp [plainDefinition], by simp [plainDefinition]; decide⟩
    start := by
      intro c hc
      simp only [plainDefinition, List.append_nil] at hc
      exact (hb c (List.mem_of_mem_head? hc)).1
    stop := fun c hc => (hb c (List.mem_of_getLast? hc)).1
    ws3 := by intro c hc; cases hc
    single := by intro h; cases h
    finished := by
      intro _
      rw [← MacroDefinitions.open_iff]
      simp [plainDefinition, ho]
    unfinished := by
      intro x y h
      exact absurd (by simp [show body = x ++ '\n' :: y from h]) hnl
    firstLine := by
      intro x y h
      exact absurd (by simp [show body = x ++ '\n' :: y from h]) hnl
    valid := rfl
    preceding := hp }

/-- a spec file with two definitions, one of them in a false branch -/
def twoMacros : List Str := [s% "%global a 1", s% "%if 0", s% "%global b 2", s% "%endif", s% "Name: x"]

/-- its definitions -/
def twoMacrosRead : MacroDefinitions :=
  ⟨[plainDefinition (s% "a") (s% "1") [] true, plainDefinition (s% "b") (s% "2") [s% "%if 0"] false], [s% "%endif", s% "Name: x"]⟩

theorem noDefinition {ls : List Str}
    (h : ∀ l ∈ ls, (s% "global").isInfixOf_internal l = false ∧ (s% "define").isInfixOf_internal l = false) :
    ∀ l ∈ ls, ¬ s% "global" <:+: l ∧ ¬ s% "define" <:+: l := by
  intro l hl
  rw [← List.isInfixOf_internal_iff_isInfix, ← List.isInfixOf_internal_iff_isInfix, (h l hl).1, (h l hl).2]
  simp

/-- the hypotheses of `C99_macros_partial` -/
example : ∃ m' : MacroDefinitions, m'.data.map (·.body) = [s% "3", s% "4"] ∧
    setMacro sampleWorld (s% "b") (s% "4") (setMacro sampleWorld (s% "a") (s% "3") twoMacros).1 = (MacroDefinitions.raw m', .ok ()) ∧
    setMacro sampleWorld (s% "a") (s% "3") (setMacro sampleWorld (s% "b") (s% "4") twoMacros).1 = (MacroDefinitions.raw m', .ok ()) := by
  have only : ∀ (name : Str) (k : Nat), (s% "a" = name ↔ 0 = k) → (s% "b" = name ↔ 1 = k) → OnlyDefinition name twoMacrosRead k := by
    intro name k h0 h1 j x hx
    match j, hx with
    | 0, hx => cases hx; exact h0
    | 1, hx => cases hx; exact h1
    | j + 2, hx => cases hx
  have na : MacroName (s% "a") := ⟨s% "a", [], rfl, by decide, by decide, .inl rfl⟩
  have nb : MacroName (s% "b") := ⟨s% "b", [], rfl, by decide, by decide, .inl rfl⟩
  have nif := noDefinition (ls := [s% "%if 0"]) (by decide +kernel)
  have ok : ∀ lines : List Str, (MacroDefinitions.parse (sampleWorld.oracle lines) true lines).toOption.isSome = true →
      ∃ m', MacroDefinitions.parse (sampleWorld.oracle lines) true lines = .ok m' := by
    intro lines h
    cases hp : MacroDefinitions.parse (sampleWorld.oracle lines) true lines with
    | ok m => exact ⟨m, rfl⟩
    | error e => rw [hp] at h; cases h
  obtain ⟨m', h1, h2, h3, h4⟩ := C99_macros_partial (W := sampleWorld) (lines := twoMacros) (m := twoMacrosRead) (by decide +kernel)
    (name := s% "a") (name' := s% "b") (k := 0) (j := 1) (by decide) rfl (only _ _ (by decide) (by decide)) rfl
    (only _ _ (by decide) (by decide)) (s% "3") (s% "4")
    (by
      intro d hd
      simp only [twoMacrosRead, List.mem_cons, List.not_mem_nil, or_false] at hd
      rcases hd with rfl | rfl
      · exact plain_readable (preceding := []) na (by decide) (by decide +kernel) (by simp)
      · exact plain_readable nb (by decide) (by decide +kernel) nif)
    (noDefinition (by decide +kernel))
    ⟨plain_readable (preceding := []) na (by decide) (by decide +kernel) (by simp), ok _ (by decide +kernel)⟩
    ⟨plain_readable nb (by decide) (by decide +kernel) nif, ok _ (by decide +kernel)⟩
  exact ⟨m', by rw [h2]; rfl, h3, h4⟩

/-- C99 fails for a body with an open bracket: the definitions that follow are read as a part of it, so it matters whether
they were set before. -/
theorem C99_violation_brackets : ∃ lines : List Str,
    (setMacro sampleWorld (s% "b") (s% "4") (setMacro sampleWorld (s% "a") (s% "%{x") lines).1).1 ≠
      (setMacro sampleWorld (s% "a") (s% "%{x") (setMacro sampleWorld (s% "b") (s% "4") lines).1).1 :=
  ⟨[s% "%global a 1", s% "%global b 2"], by decide +kernel⟩

end
end Specfile.Props
