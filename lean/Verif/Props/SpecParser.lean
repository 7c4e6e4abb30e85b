import Verif.Proof.SpecParser3
import Verif.Props.Macros
/-
C40-C43: parsing with RPM.
-/
namespace Specfile.Props
open Py SpecParser Spec

/-! ### C42 -/

/-- While the body runs, the source directory has a dummy for every named source that did not exist and could be
written. Afterwards exactly these are gone again, everything else is as the body left it. -/
theorem C42_dummies_partial {α : Type} (F : Faults) (hF : Benign F) (sources nonEmpty : List Str)
    (body : List Str → World → World × Except Err α) (w : World) (h : NoDangling w.files) :
    ∃ made, (∀ n, n ∈ made ↔ w.files n = none ∧ (Named sources n ∨ Named nonEmpty n) ∧ F.write n = .none) ∧
      ((∀ n ∈ made, ((body made { w with files := faked F sources nonEmpty w.files }).1.files n ≠ none ∧
          (body made { w with files := faked F sources nonEmpty w.files }).1.files n ≠ some .dir)) →
        withDummies F sources nonEmpty body w =
          ({ (body made { w with files := faked F sources nonEmpty w.files }).1 with
              files := fun n => if n ∈ made then none
                else (body made { w with files := faked F sources nonEmpty w.files }).1.files n },
            (body made { w with files := faked F sources nonEmpty w.files }).2)) := by
  obtain ⟨made, -, h⟩ := withDummies_spec hF sources nonEmpty body w h
  exact ⟨made, h⟩

/-- The whole parse leaves the source directory as it was, whether it succeeds or not. -/
theorem C42_parse_partial [Uni] (E : Env) (hF : Benign E.faults) (inp : Inputs) (extra : List (Str × Option Str))
    (content : Str) (w : World) (hw : NoDangling w.files) : (doParse E inp extra content w).1.files = w.files :=
  doParse_files E hF inp extra content w hw

/-- Whatever fails, existing files are as before, and all that can be left behind are plain files. -/
theorem C42_existing_partial [Uni] (E : Env) (inp : Inputs) (extra : List (Str × Option Str)) (content : Str) (w : World)
    (hw : NoDangling w.files) : MoreFiles w.files (doParse E inp extra content w).1.files :=
  doParse_extends E inp extra content w hw

/-- A dummy has 13 bytes and begins with what RPM expects for its extension. -/
theorem C42_signature (base : Str) : ∀ x ∈ rpmSignatures,
    magic (base ++ x.1) = x.2 ++ List.replicate (13 - x.2.length) 0 ∧ (magic (base ++ x.1)).length = 13 := by
  have key : ∀ x ∈ rpmSignatures, ∀ y ∈ signatures, endsWith (base ++ x.1) y.1 = true → x = y := by
    intro x hx y hy h
    have hs := List.isSuffixOf_iff_suffix.1 h
    have hx' : x.1 <:+ base ++ x.1 := List.suffix_append _ _
    have : x.1 <:+ y.1 ∨ y.1 <:+ x.1 := List.suffix_or_suffix_of_suffix hx' hs
    have tbl : ∀ x ∈ rpmSignatures, ∀ y ∈ signatures, (x.1.isSuffixOf y.1 || y.1.isSuffixOf x.1) = true → x = y := by
      decide +kernel
    apply tbl x hx y hy
    rcases this with h | h
    · rw [List.isSuffixOf_iff_suffix.2 h]; rfl
    · rw [List.isSuffixOf_iff_suffix.2 h]; simp
  intro x hx
  have hlen : ∀ x ∈ rpmSignatures, (x.2 ++ List.replicate (13 - x.2.length) 0).length = 13 := by decide +kernel
  have hsig : x ∈ signatures := by revert x; decide +kernel
  have e : signatures.find? (fun y => endsWith (base ++ x.1) y.1) = some x := by
    have hend : endsWith (base ++ x.1) x.1 = true := List.isSuffixOf_iff_suffix.2 (List.suffix_append _ _)
    cases hf : signatures.find? (fun y => endsWith (base ++ x.1) y.1) with
    | none => exact absurd hend (by have := List.find?_eq_none.1 hf x hsig; simpa using this)
    | some y =>
      have hy : endsWith (base ++ x.1) y.1 = true := by have := List.find?_some hf; exact this
      have := key x hx y (List.mem_of_find?_eq_some hf) hy
      rw [this]
  have : magic (base ++ x.1) = x.2 ++ List.replicate (13 - x.2.length) 0 := by unfold magic; rw [e]
  exact ⟨this, by rw [this]; exact hlen x hx⟩

/-! ### C43 -/

/-- The environment is the same after a parse as before, whatever its outcome. -/
theorem C43_parse [Uni] (E : Env) (inp : Inputs) (extra : List (Str × Option Str)) (content : Str) (w : World) :
    (doParse E inp extra content w).1.env = w.env :=
  doParse_env E inp extra content w

/-- RPM runs with both variables set to `C.UTF-8`, nothing else differs. -/
theorem C43_locale [Uni] (E : Env) (inp : Inputs) (extra : List (Str × Option Str)) (content : Str) (forced : Bool)
    (w : World) (T : Macros.Table) (hp : prepare E inp extra w.table = (T, none)) (he : E.encodable content = true) :
    (getRpmSpec E inp extra content forced w).1.table = (E.build content forced (inCLocale ⟨T, w.files, w.env⟩)).1 ∧
    ∀ spec, (E.build content forced (inCLocale ⟨T, w.files, w.env⟩)).2 = .ok spec →
      (getRpmSpec E inp extra content forced w).2 = .ok spec := by
  rw [getRpmSpec_eq E inp extra content forced w T hp he]
  refine ⟨rfl, fun spec h => ?_⟩
  rw [h]
  rfl

/-- Also if the body changes variables, the two variables are restored and the other changes are kept. -/
theorem C43_sanitize {α : Type} (body : World → World × Except Err α) (w : World)
    (h1 : (body (inCLocale w)).1.env (s% "LANG") ≠ none) (h2 : (body (inCLocale w)).1.env (s% "LC_ALL") ≠ none) :
    (sanitize body w).2 = (body (inCLocale w)).2 ∧
    (sanitize body w).1.env (s% "LANG") = w.env (s% "LANG") ∧ (sanitize body w).1.env (s% "LC_ALL") = w.env (s% "LC_ALL") ∧
    ∀ k, k ≠ s% "LANG" → k ≠ s% "LC_ALL" → (sanitize body w).1.env k = (body (inCLocale w)).1.env k := by
  rw [sanitize_spec body w h1 h2]
  refine ⟨rfl, ?_, ?_, fun k hk hk' => ?_⟩ <;> simp only
  · rw [setEnv_ne _ _ (by decide), setEnv_same]
  · rw [setEnv_same]
  · rw [setEnv_ne _ _ hk', setEnv_ne _ _ hk]

/-! ### C40 -/

/-- Parsing ends in the same way, with the same macro context and the same result, as parsing the given content with
the current attributes for the first time, whatever was in the macro context (`T`). -/
theorem C40_parse_partial [Uni] (E : Env) (hF : Benign E.faults) (w : World) (hw : NoDangling w.files) (u : List Nat)
    (s : Sys E) (h : ParserReach E w u s) (id : Nat) (p : Parser E) (hp : s.parsers id = some p) (hs : p.spec ≠ none)
    (content : Str) (extra : Option (List (Str × Option Str))) (shape : Nat) (T : Macros.Table) :
    match doParse E p.inputs (extra.getD []) content { w with table := T } with
    | (w', .ok (spec, t)) =>
      (parse id content extra shape s).2 = none ∧ (parse id content extra shape s).1.world = w' ∧
      (parse id content extra shape s).1.parsers id = some ⟨p.inputs, some (some spec), t⟩
    | (w', .error e) => (parse id content extra shape s).2 = some e ∧ (parse id content extra shape s).1.world = w' := by
  have hS := parserReach_sound hF hw h
  rw [doParse_table]
  have hagain : doParse E p.inputs (extra.getD []) content s.world = doParse E p.inputs (extra.getD []) content w :=
    doParse_again E _ _ _ w s.world hS.files hS.env
  unfold parse
  rw [hp]
  simp only
  by_cases hl : s.last = some ⟨id, p.inputs, content, extra, shape⟩
  · obtain ⟨-, spec, t, hd, hq⟩ := hS.last _ hl
    simp only at hd hq
    obtain ⟨h1, h2⟩ := hq p hp
    simp only [if_pos hl, hd, true_and]
    rw [hp, ← h1, ← h2]
  · simp only [if_neg hl]
    cases hsp : p.spec with
    | none => exact absurd hsp hs
    | some sp =>
      simp only [hagain]
      cases hd : doParse E p.inputs (extra.getD []) content w with
      | mk w' r =>
        cases r with
        | ok x => obtain ⟨spec, t⟩ := x; simp [Sys.update]
        | error e => simp

/-- So an expression is expanded in the macro context of the current content. -/
theorem C40_expand_partial [Uni] (E : Env) (hF : Benign E.faults) (w : World) (hw : NoDangling w.files) (u : List Nat)
    (s : Sys E) (h : ParserReach E w u s) (id : Nat) (p : Parser E) (hp : s.parsers id = some p) (hs : p.spec ≠ none)
    (content : Str) (extra : Option (List (Str × Option Str))) (shape : Nat) (T : Macros.Table) (expression : Str) :
    (SpecParser.expand id content extra false shape expression s).2 =
      match doParse E p.inputs (extra.getD []) content { w with table := T } with
      | (w', .ok _) => E.rpm.expand w'.table expression
      | (_, .error e) => .error e := by
  have := C40_parse_partial E hF w hw u s h id p hp hs content extra shape T
  unfold SpecParser.expand
  simp only [Bool.not_false, Bool.true_or, if_true]
  generalize doParse E p.inputs (extra.getD []) content { w with table := T } = r at this ⊢
  obtain ⟨w', r⟩ := r
  cases hq : parse id content extra shape s with
  | mk s' o =>
    rw [hq] at this
    cases r with
    | ok x =>
      obtain ⟨spec, t⟩ := x
      obtain ⟨h1, h2, -⟩ := this
      simp only at h1 h2
      subst h1 h2
      rfl
    | error e =>
      obtain ⟨h1, h2⟩ := this
      simp only at h1
      subst h1
      rfl

theorem never_notDisguised {R : Macros.Rpm} {n : Str} {bodies : List Str} (h : NeverDisguised R n bodies) {T : Macros.Table}
    (hT : ∀ m ∈ T n, m.body ∈ bodies) : NotDisguised R T n :=
  fun T' hb hne => h T' hne (fun m hm => hT m ((hb n).subset hm))

theorem lastValue_snoc (l : List (Str × Option Str)) (x : Str × Option Str) (n : Str) :
    lastValue (l ++ [x]) n = if x.1 = n then some x.2 else lastValue l n := by
  unfold lastValue
  rw [List.reverse_append, List.reverse_singleton, List.singleton_append, List.find?_cons]
  by_cases h : x.1 = n
  · simp [h]
  · simp [h, beq_eq_false_iff_ne.2 h]

theorem lastValue_mem {l : List (Str × Option Str)} {n b : Str} (h : lastValue l n = some (some b)) :
    b ∈ l.filterMap (·.2) := by
  unfold lastValue at h
  cases e : l.reverse.find? (fun p => p.1 == n) with
  | none => rw [e] at h; cases h
  | some x =>
    rw [e] at h
    simp only [Option.map_some, Option.some.injEq] at h
    have := List.mem_of_find?_eq_some e
    exact List.mem_filterMap.2 ⟨x, List.mem_reverse.1 this, h⟩

/-- the loop over the macros given by the user -/
theorem defineAll_spec (E : Env) (base : Macros.Table) (bodies : Str → List Str)
    (hbase : ∀ n, ∀ m ∈ base n, m.body ∈ bodies n) :
    ∀ (l pre : List (Str × Option Str)) (T T' : Macros.Table),
    (∀ p ∈ pre ++ l, NeverDisguised E.rpm p.1 (bodies p.1)) → (∀ n, ∀ b ∈ (pre ++ l).filterMap (·.2), b ∈ bodies n) →
    (∀ n, T n = match lastValue pre n with
      | some (some b) => [⟨n, none, b, -1, false⟩]
      | some none => []
      | none => base n) →
    defineAll E l T = (T', none) →
    ∀ n, T' n = match lastValue (pre ++ l) n with
      | some (some b) => [⟨n, none, b, -1, false⟩]
      | some none => []
      | none => base n := by
  intro l
  induction l with
  | nil => intro pre T T' _ _ hT h; cases h; simpa using hT
  | cons x l ih =>
    intro pre T T' hp hb hT h
    obtain ⟨name, value⟩ := x
    have hP : NeverDisguised E.rpm name (bodies name) := hp (name, value) (by simp)
    have hnd : NotDisguised E.rpm T name := by
      refine never_notDisguised hP ?_
      intro m hm
      rw [hT name] at hm
      split at hm
      · next b hb' =>
        simp only [List.mem_singleton] at hm
        subst hm
        have := lastValue_mem hb'
        refine hb name b ?_
        simp only [List.filterMap_append, List.mem_append]
        exact .inl this
      · simp at hm
      · exact hbase name m hm
    have step : ∀ T1, (∀ n, n ≠ name → T1 n = T n) →
        (T1 name = match value with | some b => [⟨name, none, b, -1, false⟩] | none => []) →
        defineAll E l T1 = (T', none) → ∀ n, T' n = match lastValue (pre ++ (name, value) :: l) n with
          | some (some b) => [⟨n, none, b, -1, false⟩]
          | some none => []
          | none => base n := by
      intro T1 h1 h2 h3
      have e : pre ++ (name, value) :: l = (pre ++ [(name, value)]) ++ l := by simp
      rw [e] at hp hb ⊢
      refine ih (pre ++ [(name, value)]) T1 T' hp hb ?_ h3
      intro n
      rw [lastValue_snoc]
      by_cases hn : name = n
      · subst hn
        rw [if_pos rfl, h2]
        cases value <;> rfl
      · rw [if_neg hn, h1 n (fun h => hn h.symm), hT n]
    cases value with
    | none =>
      simp only [defineAll] at h
      cases hr : Macros.remove E.rpm E.fuel name T with
      | mk T1 o =>
        rw [hr] at h
        cases o with
        | some e => cases h
        | none =>
          obtain ⟨h1, h2⟩ := C44_remove_partial E.rpm E.fuel name T T1 hnd hr
          exact step T1 h2 h1 h
    | some body =>
      simp only [defineAll] at h
      have hd := C44_define_partial E.rpm E.fuel name body T hnd
      cases hr : Macros.define E.rpm E.fuel name body T with
      | mk T1 o =>
        rw [hr] at h hd
        cases o with
        | some e => cases h
        | none => exact step T1 hd.1 hd.2 h

/-- The macro context in which RPM begins to parse is determined by the configuration, the given macros and the source
directory. -/
theorem C40_context_partial [Uni] (E : Env) (inp : Inputs) (extra : List (Str × Option Str)) (T₀ T : Macros.Table)
    (ms : List Macro) (hd : IsListing ms (E.rpm.dump E.rpm.config)) (ha : ActiveDefs E.rpm.config ms)
    (hf : Filed E.rpm.config)
    (hP : ∀ n, n ∈ ms.map (·.name) ∨ n ∈ (inp.macros ++ extra).map (·.1) ∨ n = s% "_sourcedir" →
      NeverDisguised E.rpm n (allBodies E.rpm.config (inp.macros ++ extra) inp.sourcedir n))
    (h : prepare E inp extra T₀ = (T, none)) :
    T = startContext E.rpm.config (inp.macros ++ extra) inp.sourcedir := by
  have hcfg : ∀ n, ∀ m ∈ E.rpm.config n, m.body ∈ allBodies E.rpm.config (inp.macros ++ extra) inp.sourcedir n := by
    intro n m hm
    simp only [allBodies, List.mem_cons, List.mem_append]
    exact .inr (.inl (List.mem_map_of_mem hm))
  unfold prepare at h
  cases h1 : Macros.reinit E.rpm E.fuel Macros.rpmrc T₀ with
  | mk T1 o1 =>
    rw [h1] at h
    cases o1 with
    | some e => cases h
    | none =>
      simp only at h
      have hT1 := C44_reinit_partial E.rpm E.fuel Macros.rpmrc T₀ T1 ms hd ha hf
        (fun m hm => never_notDisguised (hP m.name (.inl (List.mem_map_of_mem hm))) (hcfg m.name)) h1
      have hT1' : ∀ n, ∀ m ∈ T1 n, m.body ∈ allBodies E.rpm.config (inp.macros ++ extra) inp.sourcedir n := by
        intro n m hm
        rw [hT1 n] at hm
        apply hcfg n m
        split at hm
        · simp at hm
        · next e =>
          split at hm
          · rw [e]; exact hm
          · simp at hm
      cases h2 : defineAll E (inp.macros ++ extra) T1 with
      | mk T2 o2 =>
        rw [h2] at h
        cases o2 with
        | some e => cases h
        | none =>
          simp only at h
          have hT2 := defineAll_spec E T1 _ hT1' (inp.macros ++ extra) [] T1 T2
            (fun p hp' => hP p.1 (.inr (.inl (List.mem_map_of_mem hp'))))
            (by
              intro n b hb
              simp only [allBodies, List.mem_cons, List.mem_append]
              exact .inr (.inr (by simpa using hb)))
            (by intro n; rfl) h2
          rw [List.nil_append] at hT2
          have hnd : NotDisguised E.rpm T2 (s% "_sourcedir") := by
            refine never_notDisguised (hP _ (.inr (.inr rfl))) ?_
            intro m hm
            rw [hT2] at hm
            split at hm
            · next b hb =>
              simp only [List.mem_singleton] at hm
              subst hm
              simp only [allBodies, List.mem_cons, List.mem_append]
              exact .inr (.inr (lastValue_mem hb))
            · simp at hm
            · exact hT1' _ m hm
          have hdef := C44_define_partial E.rpm E.fuel (s% "_sourcedir") inp.sourcedir T2 hnd
          rw [h] at hdef
          funext n
          unfold startContext
          split
          · next hn => subst hn; exact hdef.2
          · next hn =>
            rw [show T n = T2 n from hdef.1 n hn, hT2 n]
            cases lastValue (inp.macros ++ extra) n with
            | some o => cases o <;> rfl
            | none =>
              simp only
              rw [hT1 n]
              cases E.rpm.config n <;> rfl

/-! ### C41 -/

/-- After a parse that failed, the next parse of this parser is a real one, and its outcome depends on nothing but its
inputs, the source directory and the environment. -/
theorem C41_retry_partial [Uni] (E : Env) (s s' : Sys E) (id : Nat) (p : Parser E) (hp : s.parsers id = some p)
    (content : Str) (extra : Option (List (Str × Option Str))) (shape : Nat) (e : Err)
    (h : parse id content extra shape s = (s', some e)) (hs : p.spec ≠ none)
    (he : e = .rpmException ∨ (p.spec = some none ∧ e ≠ .keyboardInterrupt))
    (content' : Str) (extra' : Option (List (Str × Option Str))) (shape' : Nat) (T : Macros.Table) :
    s'.last = none ∧
    match doParse E p.inputs (extra'.getD []) content' { s'.world with table := T } with
    | (w', .ok (spec, t)) =>
      (parse id content' extra' shape' s').2 = none ∧ (parse id content' extra' shape' s').1.world = w' ∧
      (parse id content' extra' shape' s').1.parsers id = some ⟨p.inputs, some (some spec), t⟩
    | (w', .error e) =>
      (parse id content' extra' shape' s').2 = some e ∧ (parse id content' extra' shape' s').1.world = w' := by
  have hex : isException e = true := by
    rcases he with rfl | ⟨-, he⟩
    · rfl
    · cases e <;> first | rfl | exact absurd rfl he
  have key : s'.last = none ∧ ∃ q, s'.parsers id = some q ∧ q.inputs = p.inputs ∧ q.spec ≠ none := by
    unfold parse at h
    rw [hp] at h
    simp only at h
    split at h
    · cases h
    · split at h
      · next hsp => exact absurd hsp hs
      · split at h
        · cases h
        · next w e' hd =>
          cases h
          simp only [hex, if_true, Sys.update, true_and]
          refine ⟨_, rfl, ?_, ?_⟩
          · unfold failed; split
            · rfl
            · split <;> rfl
          · unfold failed
            split
            · simp
            · next hne =>
              rcases he with he | ⟨he, -⟩
              · exact absurd he hne
              · rw [he]; simp [he]
  obtain ⟨hlast, q, hq, hi, hsq⟩ := key
  refine ⟨hlast, ?_⟩
  rw [doParse_table]
  unfold parse
  rw [hq, hlast]
  simp only [reduceCtorEq, if_false]
  cases hsp : q.spec with
  | none => exact absurd hsp hsq
  | some sp =>
    simp only [hi]
    cases hd : doParse E p.inputs (extra'.getD []) content' s'.world with
    | mk w' r =>
      cases r with
      | ok x => obtain ⟨spec, t⟩ := x; simp [Sys.update]
      | error e => simp

/-! ### examples -/

section
attribute [local instance] asciiUni

theorem tiny_never (n : Str) (h : n.head? ≠ some '?') (bodies : List Str)
    (hb : ∀ b ∈ bodies, Macros.unescape b ≠ '%' :: '{' :: (Macros.unescape n ++ ['}'])) :
    NeverDisguised tinyRpm n bodies := by
  intro T hne hT u hu he
  rw [Macros.unescaped_iff] at hu
  subst hu
  have e : (n ++ ['}']).dropLast = n := by simp
  change tinyExpand T _ = _ at he
  unfold tinyExpand at he
  split at he
  · next r hr =>
    cases n with
    | nil => simp at hr
    | cons c n =>
      simp at hr
      simp [hr.1] at h
  · next r _ hr =>
    simp only [List.cons.injEq, true_and] at hr
    subst hr
    rw [e] at he
    cases hn : T n with
    | nil => exact hne hn
    | cons m l =>
      rw [hn] at he
      simp only at he
      split at he
      · cases he
      · exact hb m.body (hT m (by rw [hn]; simp)) (by simpa using he)
  · next h1 h2 => exact h2 _ rfl

/-- An RPM for which a spec file is well-formed unless it begins with `BAD` or needs a file that does not exist; it can
be interrupted; it defines the macro `content`. -/
def tinyBuild (content : Str) (forced : Bool) (w : World) : Macros.Table × Except Err (List Str) :=
  (withStack w.table (s% "content") (⟨s% "content", none, content, 0, false⟩ :: w.table (s% "content")),
    if startsWith content (s% "BAD") then .error .valueError
    else if startsWith content (s% "INT") then .error .keyboardInterrupt
    else if startsWith content (s% "%include a.inc") && !pathExists w.files (s% "a.inc") then .error .valueError
    else if !forced && !pathExists w.files (s% "a.gz") then .error .valueError
    else .ok [s% "https://example.org/a.gz", if startsWith content (s% "%include") then s% "a.inc" else s% "b.xz"])

def tinyFaults : Faults := ⟨fun _ => .none, fun _ => none⟩

def tinyEnv : Env where
  rpm := tinyRpm
  fuel := 5
  Spec := List Str
  build := tinyBuild
  sources := id
  encodable := fun c => !c.contains '\uFFFF'
  inSourcedir := fun _ _ => .ok true
  pathName := id
  faults := tinyFaults
  tagNames := [s% "Name"]

/-- the same RPM, with other faults -/
def tinyEnvWith (F : Faults) : Env := { tinyEnv with faults := F }

def tinyWorld : World :=
  ⟨tinyConfig, fun n => if n = s% "a.spec" then some (.file [1]) else none,
   fun k => if k = s% "LANG" then some (s% "cs_CZ") else none⟩

theorem tiny_benign : Benign tinyFaults := ⟨fun _ => .inl rfl, fun _ => rfl⟩

theorem tiny_noDangling : NoDangling tinyWorld.files := by
  intro n t h
  simp only [tinyWorld] at h
  split at h <;> cases h

def tinyInputs : Inputs := ⟨s% "/src", [(s% "foo", some (s% "2")), (s% "bar", none)], false⟩

def specOf {E : Env} (s : Sys E) (id : Nat) : Option (Option (Option E.Spec)) := (s.parsers id).map (·.spec)

/-- the context in which RPM begins: `foo` has the given value, `bar` is undefined, the old content is forgotten -/
example (T₀ : Macros.Table) (h : (prepare tinyEnv tinyInputs [] T₀).2 = none) :
    (prepare tinyEnv tinyInputs [] T₀).1 = startContext tinyConfig (tinyInputs.macros ++ []) (s% "/src") := by
  refine C40_context_partial tinyEnv tinyInputs [] T₀ _ tinyDefs tiny_listing tiny_active tiny_filed
    ?_ (Prod.ext rfl h)
  intro n hn
  have hn' : n = s% "foo" ∨ n = s% "bar" ∨ n = s% "_sourcedir" := by
    simp [tinyDefs, tinyInputs] at hn
    rcases hn with (hn | hn) | hn <;> simp [hn]
  rcases hn' with rfl | rfl | rfl <;> exact tiny_never _ (by decide) _ (by decide +kernel)

example : (prepare tinyEnv tinyInputs [] tinyConfig).2 = none := by decide +kernel

/-- one parser that has parsed one content -/
def tinyParsed : Sys tinyEnv := (parse 1 (s% "v1") none 0 (new 1 tinyInputs ⟨fun _ => none, none, tinyWorld⟩)).1

/-- … and then a content that RPM does not accept -/
def tinyFailed : Sys tinyEnv := (parse 1 (s% "BAD") none 0 tinyParsed).1

theorem tinyParsed_reach : ParserReach tinyEnv tinyWorld [1] tinyParsed :=
  .parse 1 _ none 0 (.new 1 tinyInputs .start) (by decide +kernel)

theorem tinyFailed_reach : ParserReach tinyEnv tinyWorld [1] tinyFailed :=
  .parse 1 _ none 0 tinyParsed_reach (by decide +kernel)

def tinyParser : Parser tinyEnv := ⟨tinyInputs, some none, false⟩

theorem tinyFailed_parser : tinyFailed.parsers 1 = some tinyParser := by
  have h : (tinyFailed.parsers 1).map (fun p => (p.inputs, p.spec.map (·.isNone), p.tainted)) =
      some (tinyInputs, some true, false) := by decide +kernel
  cases hp : tinyFailed.parsers 1 with
  | none => rw [hp] at h; cases h
  | some p =>
    rw [hp] at h
    obtain ⟨i, sp, t⟩ := p
    simp at h
    obtain ⟨rfl, h2, rfl⟩ := h
    subst h2
    rfl

/-- after a failed parse and in a foreign macro context: as if parsed for the first time -/
example (T : Macros.Table) : (SpecParser.expand 1 (s% "v2") none false 0 (s% "%{content}") tinyFailed).2 =
    match doParse tinyEnv tinyInputs [] (s% "v2") { tinyWorld with table := T } with
    | (w', .ok _) => tinyRpm.expand w'.table (s% "%{content}")
    | (_, .error e) => .error e :=
  C40_expand_partial tinyEnv tiny_benign tinyWorld tiny_noDangling [1] tinyFailed tinyFailed_reach 1 tinyParser
    tinyFailed_parser (by simp [tinyParser]) (s% "v2") none 0 T (s% "%{content}")

example : (SpecParser.expand 1 (s% "v2") none false 0 (s% "%{content}") tinyFailed).2 = .ok (s% "v2") ∧
    (SpecParser.expand 1 (s% "v2") none false 0 (s% "%{foo}") tinyFailed).2 = .ok (s% "2") := by decide +kernel

/-- parsing needs two dummy sources, they are gone afterwards -/
example : (doParse tinyEnv tinyInputs [] (s% "v1") tinyWorld).1.files = tinyWorld.files :=
  C42_parse_partial tinyEnv tiny_benign _ _ _ _ tiny_noDangling

example : (create tinyFaults magic [s% "https://example.org/a.gz", s% "b.xz", s% "a.spec", s% "a.gz"] tinyWorld.files []).2 =
    .ok [s% "a.gz", s% "b.xz"] := by decide +kernel

example : tinyWorld.files (s% "a.gz") = none ∧ Named [s% "https://example.org/a.gz"] (s% "a.gz") ∧
    tinyFaults.write (s% "a.gz") = .none := by
  refine ⟨by decide +kernel, ⟨by decide, _, List.mem_singleton.2 rfl, by decide +kernel⟩, rfl⟩

/-- with `force`, a file that is included and does not exist is replaced by a dummy -/
example : ((doParse tinyEnv ⟨s% "/src", [], true⟩ [] (s% "%include a.inc") tinyWorld).2.map (·.2)) = .ok true ∧
    (doParse tinyEnv ⟨s% "/src", [], false⟩ [] (s% "%include a.inc") tinyWorld).2.map (·.2) = .error .rpmException ∧
    (doParse tinyEnv ⟨s% "/src", [], true⟩ [] (s% "%include a.inc") tinyWorld).1.files = tinyWorld.files :=
  ⟨by decide +kernel, by decide +kernel, C42_parse_partial tinyEnv tiny_benign _ _ _ _ tiny_noDangling⟩

/-- RPM does see the other locale -/
example : (inCLocale tinyWorld).env (s% "LANG") = some (s% "C.UTF-8") ∧ tinyWorld.env (s% "LANG") = some (s% "cs_CZ") ∧
    tinyWorld.env (s% "LC_ALL") = none := by decide +kernel

/-- a failed parse, after which the parser works again -/
example : (parse 1 (s% "BAD") none 0 tinyParsed).2 = some .rpmException ∧ tinyFailed.last = none ∧
    (parse 1 (s% "v1") none 0 tinyFailed).2 = none := by decide +kernel

/-! ### what goes wrong -/

/-- A copy that gets the id of a parser that is gone takes the content for parsed, but has no result. -/
theorem C40_violation_copy : ∃ s : Sys tinyEnv,
    s = copy 1 2 ((parse 2 (s% "v1") none 0 (copy 1 2 tinyParsed)).1.update 2 none) ∧
    (parse 2 (s% "v1") none 0 s).2 = none ∧
    ((parse 2 (s% "v1") none 0 s).1.parsers 2).map (·.spec.map (·.isSome)) = some (some false) :=
  ⟨_, rfl, by decide +kernel, by decide +kernel⟩

/-- A macro that is defined with `Macros.define` afterwards is still there when the same content is parsed again. -/
theorem C40_violation_foreign : ∃ s : Sys tinyEnv,
    s = { tinyParsed with world := { tinyParsed.world with
            table := (Macros.define tinyRpm 5 (s% "content") (s% "x") tinyParsed.world.table).1 } } ∧
    (SpecParser.expand 1 (s% "v1") none false 0 (s% "%{content}") tinyParsed).2 = .ok (s% "v1") ∧
    (SpecParser.expand 1 (s% "v1") none false 0 (s% "%{content}") s).2 = .ok (s% "x") :=
  ⟨_, rfl, by decide +kernel, by decide +kernel⟩

/-- A source that appears after the first parse is not noticed, the content is taken for parsed. -/
theorem C40_violation_files : ∃ (w : World) (s : Sys tinyEnv) (fs : Files),
    s = (parse 1 (s% "%include a.inc") none 0 (new 1 tinyInputs ⟨fun _ => none, none, w⟩)).1 ∧
    fs = put s.world.files (s% "a.inc") none ∧
    (parse 1 (s% "%include a.inc") none 0 { s with world := { s.world with files := fs } }).2 = none ∧
    (doParse tinyEnv tinyInputs [] (s% "%include a.inc") { s.world with files := fs }).2.map (·.2) =
      .error .rpmException :=
  ⟨{ tinyWorld with files := put tinyWorld.files (s% "a.inc") (some (.file [])) }, _, _, rfl, rfl, by decide +kernel,
    by decide +kernel⟩

/-- After an exception that is not from RPM, here because the content can not be encoded, every later attempt ends with
`AttributeError`. -/
theorem C41_violation_exception : ∃ s : Sys tinyEnv, s = (parse 1 ['\uFFFF'] none 0 tinyParsed).1 ∧
    (parse 1 ['\uFFFF'] none 0 tinyParsed).2 = some .unicodeError ∧
    ∀ content extra shape, parse 1 content extra shape s = (s, some .attributeError) := by
  refine ⟨_, rfl, by decide +kernel, fun content extra shape => ?_⟩
  generalize hs : (parse 1 ['\uFFFF'] none 0 tinyParsed).1 = s
  have h1 : s.last = none := by rw [← hs]; decide +kernel
  have h2 : (s.parsers 1).map (·.spec.isSome) = some false := by rw [← hs]; decide +kernel
  cases hp : s.parsers 1 with
  | none => rw [hp] at h2; cases h2
  | some p =>
    rw [hp] at h2
    unfold parse
    rw [hp, h1]
    cases hsp : p.spec with
    | none => simp [hsp]
    | some x => simp [hsp] at h2

/-- After an interrupted parse, the previous content is taken for parsed, but the macro context is another one. -/
theorem C41_violation_interrupt : ∃ s : Sys tinyEnv, s = (parse 1 (s% "INT") none 0 tinyParsed).1 ∧
    (parse 1 (s% "INT") none 0 tinyParsed).2 = some .keyboardInterrupt ∧
    (SpecParser.expand 1 (s% "v1") none false 0 (s% "%{content}") s).2 = .ok (s% "INT") :=
  ⟨_, rfl, by decide +kernel, by decide +kernel⟩

/-- A dummy that could not be written completely is left behind. -/
theorem C42_violation_partly :
    (doParse (tinyEnvWith ⟨fun n => if n = s% "b.xz" then .partly else .none, fun _ => none⟩) tinyInputs [] (s% "v1")
      tinyWorld).1.files (s% "b.xz") = some (.file []) ∧ tinyWorld.files (s% "b.xz") = none := by decide +kernel

/-- If creating dummies is interrupted, those already created are left behind. -/
theorem C42_violation_interrupt :
    (doParse (tinyEnvWith ⟨fun n => if n = s% "b.xz" then .raised .keyboardInterrupt else .none, fun _ => none⟩)
      tinyInputs [] (s% "v1") tinyWorld).1.files (s% "a.gz") = some (.file (magic (s% "a.gz"))) ∧
    tinyWorld.files (s% "a.gz") = none := by decide +kernel

/-- If a dummy can not be removed, the following ones are left behind, too. -/
theorem C42_violation_unlink :
    (doParse (tinyEnvWith ⟨fun _ => .none, fun n => if n = s% "a.gz" then some .osError else none⟩) tinyInputs []
      (s% "v1") tinyWorld).1.files (s% "b.xz") = some (.file (magic (s% "b.xz"))) ∧
    tinyWorld.files (s% "b.xz") = none := by decide +kernel

/-- A link that points to nothing is removed, and its target is created. -/
theorem C42_violation_link : ∃ w : World, w.files (s% "a.gz") = some (.link (s% "c")) ∧ w.files (s% "c") = none ∧
    (doParse tinyEnv tinyInputs [] (s% "v1") w).1.files (s% "a.gz") = none ∧
    (doParse tinyEnv tinyInputs [] (s% "v1") w).1.files (s% "c") = some (.file (magic (s% "a.gz"))) :=
  ⟨{ tinyWorld with files := put tinyWorld.files (s% "a.gz") (some (.link (s% "c"))) }, by decide +kernel,
    by decide +kernel, by decide +kernel, by decide +kernel⟩

end

end Specfile.Props
