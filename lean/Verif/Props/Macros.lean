import Verif.Proof.Macros
/-
C44: removing and defining macros. C71: reading the listing of macros.
-/
namespace Specfile.Props
open Py Macros Spec

/-- Whatever happens, removing a macro does nothing but take definitions of this macro off its stack. -/
theorem C44_remove_only (R : Rpm) (fuel : Nat) (name : Str) (T : Table) :
    (∀ n, n ≠ name → (remove R fuel name T).1 n = T n) ∧ (remove R fuel name T).1 name <:+ T name := by
  obtain ⟨k, e, hk⟩ := removeLoop_below R name fuel 0 T (T name) (List.suffix_refl _)
  rw [assign_self] at e
  unfold remove
  rw [e]
  exact ⟨fun n hn => assign_ne _ _ hn, by rw [assign_same]; exact hk⟩

/-- If removing ends without exception, the macro is undefined and nothing else changed. `NotDisguised` is necessary,
see `C44_violation`. -/
theorem C44_remove_partial (R : Rpm) (fuel : Nat) (name : Str) (T T' : Table)
    (hn : NotDisguised R T name) (h : remove R fuel name T = (T', none)) :
    T' name = [] ∧ ∀ n, n ≠ name → T' n = T n := by
  have h0 := C44_remove_only R fuel name T
  rw [h] at h0
  simp only at h0
  refine ⟨?_, h0.1⟩
  have hx := removeLoop_success R name fuel 0 T T' (T name) (by rw [assign_self]; exact h)
  have hb : Below T' T := by
    intro n
    by_cases e : n = name
    · subst e; exact h0.2
    · rw [h0.1 n e]; exact List.suffix_refl _
  cases e : T' name with
  | nil => rfl
  | cons m l =>
    exact absurd hx (hn T' hb (by rw [e]; simp) _ ((unescaped_iff _ _).2 rfl))

/-- Removing ends, and it succeeds exactly if less than 20 of the definitions below the active one can not be
expanded. -/
theorem C44_remove_ends_partial (R : Rpm) (fuel : Nat) (name : Str) (T : Table)
    (hk : KeptWhenUndefined R name) (hn : NotDisguised R T name) (hr : RaisesRpm R)
    (hf : (T name).length < fuel) :
    (failures R T name < 20 → remove R fuel name T = (withStack T name [], none)) ∧
    (20 ≤ failures R T name → (remove R fuel name T).2 = some .macroRemoval) := by
  obtain ⟨h1, h2⟩ := removeLoop_exact R name T hk hn hr (T name) fuel 0 (List.suffix_refl _)
    (by omega) (by omega) (by decide)
  rw [assign_self] at h1 h2
  rw [failures_eq]
  exact ⟨fun h => h1 (by simp only [maxRetries]; omega), fun h => h2 (by simp only [maxRetries]; omega) hf⟩

/-- Defining a macro leaves exactly the new definition, or the old definitions that could not be removed. -/
theorem C44_define_partial (R : Rpm) (fuel : Nat) (name body : Str) (T : Table)
    (hn : NotDisguised R T name) :
    (∀ n, n ≠ name → (define R fuel name body T).1 n = T n) ∧
    match (define R fuel name body T).2 with
    | none => (define R fuel name body T).1 name = [⟨name, none, body, -1, false⟩]
    | some _ => (define R fuel name body T).1 name <:+ T name := by
  have h0 := C44_remove_only R fuel name T
  unfold define
  cases h : remove R fuel name T with
  | mk T' o =>
    cases o with
    | none =>
      obtain ⟨h1, h2⟩ := C44_remove_partial R fuel name T T' hn h
      refine ⟨fun n e => ?_, ?_⟩
      · simp only [add]; rw [assign_ne _ _ e, h2 n e]
      · simp only [add, assign_same, h1, oldspec]
    | some e => rw [h] at h0; exact h0

theorem removeAbove_spec (R : Rpm) (fuel : Nat) (th : Int) (C : Table) : ∀ (ms : List Macro) (T T' : Table),
    (∀ m ∈ ms, NotDisguised R C m.name) → Below T C →
    removeAbove R fuel th ms T = (T', none) → Below T' C ∧
    ∀ n, T' n = if (∃ m ∈ ms, m.name = n ∧ th < m.level) then [] else T n := by
  intro ms
  induction ms with
  | nil =>
    intro T T' _ hb h
    simp only [removeAbove] at h
    cases h
    exact ⟨hb, fun n => by simp⟩
  | cons m ms ih =>
    intro T T' hn hb h
    rw [removeAbove] at h
    split at h
    · next hlt =>
      cases hr : remove R fuel m.name T with
      | mk T1 o =>
        rw [hr] at h
        cases o with
        | some e => simp at h
        | none =>
          have hnd : NotDisguised R T m.name := fun X hX => hn m (by simp) X (below_trans hX hb)
          obtain ⟨h1, h2⟩ := C44_remove_partial R fuel m.name T T1 hnd hr
          have hb1 : Below T1 C := by
            intro n
            by_cases e : n = m.name
            · subst e; rw [h1]; exact List.nil_suffix
            · rw [h2 n e]; exact hb n
          obtain ⟨hb', hT⟩ := ih T1 T' (fun x hx => hn x (by simp [hx])) hb1 h
          refine ⟨hb', fun n => ?_⟩
          rw [hT n]
          by_cases hc : ∃ x ∈ ms, x.name = n ∧ th < x.level
          · obtain ⟨x, hx, he⟩ := hc
            rw [if_pos ⟨x, hx, he⟩, if_pos ⟨x, by simp [hx], he⟩]
          · rw [if_neg hc]
            by_cases e : n = m.name
            · subst e; rw [h1, if_pos ⟨m, by simp, rfl, hlt⟩]
            · rw [h2 n e, if_neg]
              rintro ⟨x, hx, he, hl⟩
              rcases List.mem_cons.1 hx with rfl | hx
              · exact e he.symm
              · exact hc ⟨x, hx, he, hl⟩
    · next hlt =>
      obtain ⟨hb', hT⟩ := ih T T' (fun x hx => hn x (by simp [hx])) hb h
      refine ⟨hb', fun n => ?_⟩
      rw [hT n]
      have : (∃ x ∈ m :: ms, x.name = n ∧ th < x.level) ↔ ∃ x ∈ ms, x.name = n ∧ th < x.level := by
        constructor
        · rintro ⟨x, hx, he, hl⟩
          rcases List.mem_cons.1 hx with rfl | hx
          · exact absurd hl hlt
          · exact ⟨x, hx, he, hl⟩
        · rintro ⟨x, hx, h⟩; exact ⟨x, by simp [hx], h⟩
      by_cases hc : ∃ x ∈ ms, x.name = n ∧ th < x.level
      · rw [if_pos hc, if_pos (this.2 hc)]
      · rw [if_neg hc, if_neg (fun h => hc (this.1 h))]

/-- The macros of a listing are read in order, each with its name, options, level and body, except that newlines at the
beginning of a body are lost. -/
theorem C71_dump_any_start [Uni] (ms : List Macro) (dump : List Str) (h : PrintedListing ms dump) :
    parse dump = .ok (ms.map withoutLeadingNewlines) := by
  obtain ⟨junk, blocks, summary, rfl, hj, hlen, hb, hr⟩ := h
  have hne : junk.map (· ++ ['\n']) ++ (blocks.flatten ++ [summary]) ≠ [] := by simp
  unfold parse
  split
  · next h => exact absurd h hne
  · rw [← List.append_assoc, List.dropLast_concat, parseLoop_junk _ _ (fun l hl => (hj l hl).1) (fun l hl => (hj l hl).2)]
    have := parseLoop_macros [] ms blocks [] hlen hb hr
    rw [List.append_nil, List.append_nil] at this
    rw [this]
    simp [parseLoop]

/-- The listing of readable macros is read back, whatever stands before the first macro. -/
theorem C71_dump_partial [Uni] (ms : List Macro) (dump : List Str) (h : IsListing ms dump) : parse dump = .ok ms := by
  rw [C71_dump_any_start ms dump h.1]
  congr 1
  conv => rhs; rw [← List.map_id ms]
  apply List.map_congr_left
  intro m hm
  have := h.2 m hm
  obtain ⟨n, o, b, l, u⟩ := m
  cases b with
  | nil => rfl
  | cons c cs =>
    have hc : c ≠ '\n' := by simpa using this
    simp [withoutLeadingNewlines, hc]

/-- Every macro that is read has a known level. -/
theorem C71_levels [Uni] (dump : List Str) (ms : List Macro) (h : parse dump = .ok ms) :
    ∀ m ∈ ms, m.level ∈ [-20, -15, -13, -11, -7, -5, -3, -1, 0] := by
  unfold parse at h
  split at h
  · cases h
  · revert h
    generalize dump.dropLast = l
    suffices H : ∀ (l : List Str) (p : Option Str) (res : List Macro), (∀ m ∈ res, m.level ∈ levels) →
        parseLoop p res l = .ok ms → ∀ m ∈ ms, m.level ∈ levels from H l none [] (by simp)
    intro l
    induction l with
    | nil =>
      intro p res hr h
      cases p with
      | none => simp only [parseLoop] at h; cases h; intro m hm; exact hr m (List.mem_reverse.1 hm)
      | some p => simp only [parseLoop] at h; cases h
    | cons x xs ih =>
      intro p res hr h
      rw [parseLoop] at h
      split at h
      · exact ih _ _ hr h
      · split at h
        · cases h
        · next res' hres =>
          refine ih _ _ ?_ h
          unfold addLine at hres
          split at hres
          · split at hres
            · cases hres
            · split at hres
              · next hl =>
                cases hres
                intro m hm
                rcases List.mem_cons.1 hm with rfl | hm
                · exact List.contains_iff_mem.1 hl
                · exact hr m hm
              · cases hres
          · split at hres
            · cases hres; simp
            · next m0 ms0 =>
              cases hres
              intro m hm
              rcases List.mem_cons.1 hm with rfl | hm
              · exact hr m0 (by simp)
              · exact hr m (by simp [hm])

/-- A line that ends in a backslash is read as if the next line were part of it. -/
theorem C71_joined [Uni] (pre post : List Str) (a b summary : Str) :
    parse (pre ++ ((a ++ ['\\', '\n']) :: b :: (post ++ [summary]))) = parse (pre ++ ((a ++ b) :: (post ++ [summary]))) := by
  have e1 : pre ++ ((a ++ ['\\', '\n']) :: b :: (post ++ [summary])) =
      (pre ++ ((a ++ ['\\', '\n']) :: b :: post)) ++ [summary] := by simp
  have e2 : pre ++ ((a ++ b) :: (post ++ [summary])) = (pre ++ ((a ++ b) :: post)) ++ [summary] := by simp
  rw [e1, e2]
  have key : ∀ l : List Str, parse (l ++ [summary]) = parseLoop none [] l := by
    intro l
    unfold parse
    split
    · next h => simp at h
    · rw [List.dropLast_concat]
  rw [key, key, parseLoop_joined]

/-- After reinitialization every macro has the definitions it has in the configuration, or none if its active
definition there is above the threshold. The listing of the active definitions has to be readable. -/
theorem C44_reinit_partial [Uni] (R : Rpm) (fuel : Nat) (th : Int) (T T' : Table) (ms : List Macro)
    (hd : IsListing ms (R.dump R.config)) (ha : ActiveDefs R.config ms) (hf : Filed R.config)
    (hn : ∀ m ∈ ms, NotDisguised R R.config m.name)
    (h : reinit R fuel th T = (T', none)) :
    ∀ n, T' n = match R.config n with
      | [] => []
      | m :: l => if m.level ≤ th then m :: l else [] := by
  unfold reinit at h
  rw [C71_dump_partial _ _ hd] at h
  have hr := (removeAbove_spec R fuel th R.config ms R.config T' hn (fun n => List.suffix_refl _) h).2
  intro n
  rw [hr n]
  cases e : R.config n with
  | nil => split <;> rfl
  | cons m l =>
    have hm : m.name = n := hf n m (by rw [e]; simp)
    have hmem : m ∈ ms := (ha m).2 (by rw [hm, e]; rfl)
    have huniq : ∀ x ∈ ms, x.name = n → x = m := by
      intro x hx hxn
      have := (ha x).1 hx
      rw [hxn, e] at this
      simpa using this.symm
    by_cases hl : m.level ≤ th
    · rw [if_neg]
      · simp [hl]
      · rintro ⟨x, hx, hxn, hxl⟩
        rw [huniq x hx hxn] at hxl
        omega
    · rw [if_pos ⟨m, hmem, hm, by omega⟩]
      simp [hl]

/-- It succeeds unless some macro has too many definitions that can not be expanded. -/
theorem C44_reinit_ends_partial [Uni] (R : Rpm) (fuel : Nat) (th : Int) (T : Table) (ms : List Macro)
    (hd : IsListing ms (R.dump R.config)) (hk : ∀ m ∈ ms, KeptWhenUndefined R m.name) (hr : RaisesRpm R)
    (hn : ∀ m ∈ ms, NotDisguised R R.config m.name)
    (hl : ∀ m ∈ ms, (R.config m.name).length < fuel)
    (hx : ∀ m ∈ ms, ∀ T', Below T' R.config → failures R T' m.name < 20) :
    (reinit R fuel th T).2 = none := by
  unfold reinit
  rw [C71_dump_partial _ _ hd]
  simp only
  suffices H : ∀ (ms : List Macro) (S : Table), Below S R.config → (∀ m ∈ ms, KeptWhenUndefined R m.name) →
      (∀ m ∈ ms, NotDisguised R R.config m.name) →
      (∀ m ∈ ms, (R.config m.name).length < fuel) →
      (∀ m ∈ ms, ∀ T', Below T' R.config → failures R T' m.name < 20) →
      (removeAbove R fuel th ms S).2 = none from H ms R.config (fun n => List.suffix_refl _) hk hn hl hx
  intro ms
  induction ms with
  | nil => intros; rfl
  | cons m ms ih =>
    intro S hS hk hn hl hx
    have ih' := fun S hS => ih S hS (fun x h => hk x (by simp [h])) 
      (fun x h => hn x (by simp [h])) (fun x h => hl x (by simp [h])) (fun x h => hx x (by simp [h]))
    rw [removeAbove]
    split
    · have hnd : NotDisguised R S m.name := fun X hX => hn m (by simp) X (below_trans hX hS)
      have := (C44_remove_ends_partial R fuel m.name S (hk m (by simp)) hnd hr
        (Nat.lt_of_le_of_lt (hS m.name).length_le (hl m (by simp)))).1 (hx m (by simp) S hS)
      rw [this]
      exact ih' _ (below_trans (below_assign List.nil_suffix) hS)
    · exact ih' S hS

/-- The loop that removes a macro does not end if the undefined macro expands to something else, as `?name` does. -/
theorem C44_violation_endless (R : Rpm) (name s : Str) (hs : s ≠ reference (unescape name))
    (h : ∀ T, R.expand T (reference name) = .ok s) (fuel : Nat) (T : Table) :
    (remove R fuel name T).2 = some .outOfFuel := by
  suffices H : ∀ fuel T, (removeLoop R name fuel 0 T).2 = some .outOfFuel from H fuel T
  intro fuel
  induction fuel with
  | zero => intro T; rfl
  | succ fuel ih =>
    intro T
    rw [removeLoop, if_pos (by decide), h]
    simp only [if_neg hs]
    exact ih _

/-! ### examples -/

section
attribute [local instance] asciiUni

/-- an RPM that knows macros without parameters, `%%`, `%{?name}`, and `%{error:…}` as body -/
def tinyExpand (T : Table) : Str → Except Err Str
  | '%' :: '{' :: '?' :: r =>
    match T r.dropLast with
    | [] => .ok []
    | m :: _ => .ok (unescape m.body)
  | '%' :: '{' :: r =>
    match T r.dropLast with
    | [] => .ok ('%' :: '{' :: unescape r)
    | m :: _ => if startsWith m.body (s% "%{error:") then .error .rpmException else .ok (unescape m.body)
  | s => .ok s

def tinyDefs : List Macro :=
  [⟨s% "foo", none, s% "1", -1, true⟩, ⟨s% "bar", some (s% "(x:)"), s% "a\n%{-x*}\n", -13, false⟩]

def tinyConfig : Table := fun n =>
  if n = s% "foo" then [⟨s% "foo", none, s% "1", -1, true⟩, ⟨s% "foo", none, s% "%{error:no}", -13, false⟩]
  else if n = s% "bar" then [⟨s% "bar", some (s% "(x:)"), s% "a\n%{-x*}\n", -13, false⟩]
  else []

def tinyDump : List Str :=
  [s% "========================\n", s% " -1= foo\t1\n", s% "-13: bar(x:)\ta\n", s% "%{-x*}\n", s% "\n",
   s% "======================== active 2 empty 0\n"]

def tinyRpm : Rpm := ⟨tinyExpand, fun _ => tinyDump, tinyConfig⟩

theorem tiny_kept (n : Str) (h : n.head? ≠ some '?') (h' : '%' ∉ n) : KeptWhenUndefined tinyRpm n := by
  intro T hT
  have e : (n ++ ['}']).dropLast = n := by simp
  have u : unescape (n ++ ['}']) = n ++ ['}'] := unescape_id (by simp [h'])
  refine ⟨n, (unescaped_iff _ _).2 (unescape_id h'), ?_⟩
  show tinyExpand T _ = _
  unfold tinyExpand
  split
  · next r hr =>
    cases n with
    | nil => simp at hr
    | cons c n =>
      simp at hr
      simp [hr.1] at h
  · next r _ hr =>
    simp only [List.cons.injEq, true_and] at hr
    subst hr
    rw [e, hT]
    simp only [u]
  · next h1 h2 => exact absurd rfl (h2 _)

theorem tiny_raises : RaisesRpm tinyRpm := by
  intro T s e h
  change tinyExpand T s = _ at h
  unfold tinyExpand at h
  repeat' split at h
  all_goals first | cases h; done | (cases h; rfl)

theorem tiny_notDisguised (n : Str) (h : n.head? ≠ some '?') : NotDisguised tinyRpm tinyConfig n := by
  intro T hT hne _ _ he
  have e : (n ++ ['}']).dropLast = n := by simp
  change tinyExpand T _ = _ at he
  unfold tinyExpand at he
  split at he
  · next r hr =>
    cases n with
    | nil => simp at hr
    | cons c n =>
      simp at hr
      simp [hr.1] at h
  · next r _ hr =>
    simp only [List.cons.injEq, true_and] at hr
    subst hr
    rw [e] at he
    cases hn : T n with
    | nil => exact hne hn
    | cons m l =>
      rw [hn] at he
      have hm : m ∈ tinyConfig n := (hT n).subset (by rw [hn]; simp)
      have hb : m.body = s% "1" ∨ m.body = s% "%{error:no}" ∨ m.body = s% "a\n%{-x*}\n" := by
        unfold tinyConfig at hm
        split at hm
        · simp at hm; rcases hm with rfl | rfl <;> simp
        · split at hm
          · simp at hm; subst hm; simp
          · simp at hm
      simp only at he
      rcases hb with hb | hb | hb <;> rw [hb] at he <;> simp [startsWith, unescape] at he
  · next h1 h2 => exact h2 _ rfl

/-- two definitions, the lower one can not be expanded: the macro is removed -/
example : remove tinyRpm 3 (s% "foo") tinyConfig = (withStack tinyConfig (s% "foo") [], none) :=
  (C44_remove_ends_partial tinyRpm 3 (s% "foo") tinyConfig (tiny_kept _ (by decide) (by decide))
    (tiny_notDisguised _ (by decide)) tiny_raises (by decide +kernel)).1 (by decide +kernel)

example : failures tinyRpm tinyConfig (s% "foo") = 1 := by decide +kernel

/-- twenty definitions that can not be expanded below the active one: the macro is not removed -/
def manyTable : Table := fun n =>
  if n = s% "foo" then List.replicate 21 ⟨s% "foo", none, s% "%{error:no}", -13, false⟩ else []

example : failures tinyRpm manyTable (s% "foo") = 20 ∧
    (remove tinyRpm 22 (s% "foo") manyTable).2 = some .macroRemoval := by decide +kernel

example : (define tinyRpm 3 (s% "foo") (s% "2") tinyConfig).1 (s% "foo") = [⟨s% "foo", none, s% "2", -1, false⟩] := by
  have := (C44_define_partial tinyRpm 3 (s% "foo") (s% "2") tinyConfig (tiny_notDisguised _ (by decide))).2
  have e : (define tinyRpm 3 (s% "foo") (s% "2") tinyConfig).2 = none := by decide +kernel
  rw [e] at this
  exact this

/-- A definition that expands to the text of its own reference stops the removal: the macro is still defined. -/
theorem C44_violation : ∃ (R : Rpm) (T T' : Table) (name : Str),
    KeptWhenUndefined R name ∧ RaisesRpm R ∧ '%' ∉ name ∧ remove R 10 name T = (T', none) ∧
    T' name = [⟨name, none, s% "%%{foo}", -13, false⟩] := by
  refine ⟨tinyRpm, fun n => if n = s% "foo" then
    [⟨s% "foo", none, s% "1", -1, true⟩, ⟨s% "foo", none, s% "%%{foo}", -13, false⟩] else [],
    _, s% "foo", tiny_kept _ (by decide) (by decide), tiny_raises, by decide, Prod.ext rfl ?_, ?_⟩
  · decide +kernel
  · decide +kernel

/-- `?foo` is no name of a macro, but trying to remove it runs forever when `foo` is undefined. -/
example : (∀ fuel, (remove ⟨fun _ s => if s = s% "%{?foo}" then .ok [] else .ok s, fun _ => [], fun _ => []⟩ fuel (s% "?foo")
    (fun _ => [])).2 = some .outOfFuel) :=
  fun fuel => C44_violation_endless _ _ [] (by decide) (fun T => rfl) fuel _

theorem noTab_noHeader [Uni] {l : Str} (h : '\t' ∉ l) : ¬ LooksLikeHeader l := by
  rintro ⟨pad, sign, ds, mark, name, o, r, e, -⟩
  apply h
  rw [e]; simp

theorem tiny_listing : IsListing tinyDefs tinyDump := by
  refine ⟨⟨[s% "========================"], [[s% " -1= foo\t1\n"], [s% "-13: bar(x:)\ta\n", s% "%{-x*}\n", s% "\n"]],
    s% "======================== active 2 empty 0\n", rfl, ?_, rfl, ?_, ?_⟩, by decide +kernel⟩
  · intro l hl
    simp only [List.mem_singleton] at hl
    subst hl
    exact ⟨noTab_noHeader (by decide), by decide⟩
  · intro x hx
    simp only [tinyDefs, List.zip_cons_cons, List.zip_nil_right, List.mem_cons, List.not_mem_nil, or_false] at hx
    rcases hx with rfl | rfl
    · exact ⟨s% " ", s% "1", [], by decide, rfl, by decide, by decide +kernel⟩
    · exact ⟨[], s% "a", [s% "%{-x*}", []], by decide, rfl, by decide, by decide +kernel⟩
  · intro m hm
    simp only [tinyDefs, List.mem_cons, List.not_mem_nil, or_false] at hm
    rcases hm with rfl | rfl
    · exact ⟨by decide, ⟨by decide, by decide +kernel⟩, by simp, by decide +kernel, by
        intro l hl
        rw [show (splitC '\n' (s% "1")).tail = [] by decide +kernel] at hl
        cases hl⟩
    · refine ⟨by decide, ⟨by decide, by decide +kernel⟩, ?_, by decide +kernel, ?_⟩
      · intro o ho
        cases ho
        exact ⟨s% "x:", rfl, by decide, by decide, by decide⟩
      · intro l hl
        apply noTab_noHeader
        revert l
        decide +kernel

example : parse tinyDump = .ok tinyDefs := C71_dump_partial _ _ tiny_listing

/-- a body that begins with an empty line -/
example : parse [s% "-13: foo\t\n", s% "a\n", s% "end\n"] = .ok [⟨s% "foo", none, s% "a", -13, false⟩] :=
  C71_dump_any_start [⟨s% "foo", none, s% "\na", -13, false⟩] _
    ⟨[], [[s% "-13: foo\t\n", s% "a\n"]], s% "end\n", rfl, by simp, rfl, by
      intro x hx
      simp only [List.zip_cons_cons, List.zip_nil_right, List.mem_singleton] at hx
      subst hx
      exact ⟨[], [], [s% "a"], by decide, rfl, by decide, by decide +kernel⟩, by
      intro m hm
      simp only [List.mem_singleton] at hm
      subst hm
      exact ⟨by decide, ⟨by decide, by decide +kernel⟩, by simp, by decide +kernel, by
        intro l hl
        apply noTab_noHeader
        revert l
        decide +kernel⟩⟩

theorem tiny_active : ActiveDefs tinyConfig tinyDefs := by
  intro m
  constructor
  · intro hm
    simp only [tinyDefs, List.mem_cons, List.not_mem_nil, or_false] at hm
    rcases hm with rfl | rfl <;> decide +kernel
  · intro h
    unfold tinyConfig at h
    split at h
    · simp at h; subst h; decide
    · split at h
      · simp at h; subst h; decide
      · simp at h

theorem tiny_filed : Filed tinyConfig := by
  intro n m hm
  unfold tinyConfig at hm
  split at hm
  · next h => simp at hm; rcases hm with rfl | rfl <;> exact h.symm
  · split at hm
    · next h => simp at hm; subst hm; exact h.symm
    · simp at hm

/-- `foo` is defined at the level of a spec file and removed, `bar` at the level of macro files and kept -/
example (T : Table) : (reinit tinyRpm 3 rpmrc T).1 (s% "foo") = [] ∧
    (reinit tinyRpm 3 rpmrc T).1 (s% "bar") = tinyConfig (s% "bar") := by
  have hd : IsListing tinyDefs (tinyRpm.dump tinyRpm.config) := tiny_listing
  have hn : ∀ m ∈ tinyDefs, NotDisguised tinyRpm tinyRpm.config m.name := by
    intro m hm
    apply tiny_notDisguised
    revert m; decide
  have e : reinit tinyRpm 3 rpmrc T = ((reinit tinyRpm 3 rpmrc T).1, none) := by
    apply Prod.ext rfl
    show (reinit tinyRpm 3 rpmrc tinyConfig).2 = none
    decide +kernel
  have h := C44_reinit_partial tinyRpm 3 rpmrc T _ tinyDefs hd tiny_active tiny_filed hn e
  exact ⟨h _, h _⟩

/-- A body that begins with an empty line and one with a line that ends in a backslash are not read back. -/
theorem C71_violation : ∃ (m m' : Macro) (lines lines' : List Str), Lists m lines ∧ Lists m' lines' ∧
    parse (lines ++ [s% "end\n"]) = .ok [{ m with body := s% "a" }] ∧ m.body = s% "\na" ∧
    parse (lines' ++ [s% "end\n"]) = .ok [{ m' with body := s% "ab" }] ∧ m'.body = s% "a\\\nb" := by
  refine ⟨⟨s% "foo", none, s% "\na", -13, false⟩, ⟨s% "foo", none, s% "a\\\nb", -13, false⟩,
    [s% "-13: foo\t\n", s% "a\n"], [s% "-13: foo\ta\\\n", s% "b\n"], ?_, ?_, ?_, rfl, ?_, rfl⟩
  · exact ⟨[], [], [s% "a"], by decide, rfl, by decide, by decide +kernel⟩
  · exact ⟨[], s% "a\\", [s% "b"], by decide, rfl, by decide, by decide +kernel⟩
  · decide +kernel
  · decide +kernel

end

end Specfile.Props
