import Verif.Proof.SpecParser2
/-
Existing files are kept whatever fails. The invariant of the cache.
-/
namespace Specfile.SpecParser
open Py Spec

/-! ### existing files -/

theorem extends_refl (fs : Files) : MoreFiles fs fs := fun _ => .inl rfl

theorem extends_noDangling {fs fs' : Files} (h : MoreFiles fs fs') (hd : NoDangling fs) : NoDangling fs' := by
  intro n t e
  rcases h n with h1 | ⟨-, c, h1⟩
  · rw [h1] at e
    have := hd n t e
    rcases h t with h2 | ⟨h2, -⟩
    · rw [h2]; exact this
    · exact absurd h2 this
  · rw [h1] at e; cases e

theorem extends_put {fs fs' : Files} (h : MoreFiles fs fs') {n : Str} {c : List Nat} (hn : fs' n = none) :
    MoreFiles fs (put fs' n (some (.file c))) := by
  intro m
  unfold put
  by_cases hm : m = n
  · subst hm
    rcases h m with h1 | ⟨h1, c', h2⟩
    · exact .inr ⟨by rw [← h1]; exact hn, c, by simp⟩
    · rw [hn] at h2; cases h2
  · rw [if_neg hm]; exact h m

theorem create_extends (F : Faults) (content : Str → List Nat) (orig : Files) (ho : NoDangling orig) :
    ∀ (ss : List Str) (fs : Files) (made : List Str), MoreFiles orig fs → (∀ n ∈ made, orig n = none) →
    MoreFiles orig (create F content ss fs made).1 ∧
      ∀ made', (create F content ss fs made).2 = .ok made' → ∀ n ∈ made', orig n = none := by
  intro ss
  induction ss with
  | nil =>
    intro fs made h hm
    refine ⟨h, fun made' e => ?_⟩
    simp only [create] at e
    cases e
    exact hm
  | cons s ss ih =>
    intro fs made h hm
    rw [create]
    split
    · exact ih fs made h hm
    · next hskip =>
      have hd := extends_noDangling h ho
      have hnone : fs (Utils.filenameFromLocation s) = none := by
        cases e : fs (Utils.filenameFromLocation s) with
        | none => rfl
        | some x =>
          apply absurd _ hskip
          rw [(pathExists_iff hd _).2 (by rw [e]; simp)]
          simp
      have ht : writeTarget fs (Utils.filenameFromLocation s) = Utils.filenameFromLocation s := by
        simp [writeTarget, hnone]
      have hon : orig (Utils.filenameFromLocation s) = none := by
        rcases h (Utils.filenameFromLocation s) with h1 | ⟨h1, -⟩
        · rw [← h1]; exact hnone
        · exact h1
      unfold write
      cases F.write (Utils.filenameFromLocation s) with
      | none =>
        simp only [ht]
        apply ih _ _ (extends_put h hnone)
        intro n hn
        rcases List.mem_append.1 hn with hn | hn
        · exact hm n hn
        · rw [List.mem_singleton.1 hn]; exact hon
      | refused => exact ih fs made h hm
      | partly =>
        simp only [ht]
        exact ih _ _ (extends_put h hnone) hm
      | raised e => exact ⟨h, fun made' e => by cases e⟩

theorem unlinkAll_extends (F : Faults) (orig : Files) : ∀ (ns : List Str) (fs : Files), MoreFiles orig fs →
    (∀ n ∈ ns, orig n = none) → MoreFiles orig (unlinkAll F ns fs).1 := by
  intro ns
  induction ns with
  | nil => intro fs h _; exact h
  | cons n ns ih =>
    intro fs h hn
    have key : MoreFiles orig (put fs n none) := by
      intro m
      unfold put
      by_cases hm : m = n
      · subst hm; exact .inl (by rw [hn m (by simp)]; simp)
      · rw [if_neg hm]; exact h m
    rw [unlinkAll]
    split
    · exact h
    · split
      · exact h
      · exact h
      · exact ih _ key (fun m hm => hn m (by simp [hm]))

theorem withDummies_extends {α : Type} (F : Faults) (sources nonEmpty : List Str)
    (body : List Str → World → World × Except Err α) (w : World) (orig : Files) (ho : NoDangling orig)
    (h : MoreFiles orig w.files) (hb : ∀ l w, (body l w).1.files = w.files) :
    MoreFiles orig (withDummies F sources nonEmpty body w).1.files := by
  have h1 := create_extends F magic orig ho sources w.files [] h (by simp)
  unfold withDummies
  split
  · next fs e hc => rw [hc] at h1; exact h1.1
  · next fs made hc =>
    rw [hc] at h1
    have h2 := create_extends F (fun _ => dummyText) orig ho nonEmpty fs made h1.1 (h1.2 made rfl)
    split
    · next fs e hc => rw [hc] at h2; exact h2.1
    · next fs made hc =>
      rw [hc] at h2
      have hbody := hb made { w with files := fs }
      split
      next w' r hw' =>
      rw [hw'] at hbody
      have h3 := unlinkAll_extends F orig made w'.files (by rw [hbody]; exact h2.1) (h2.2 made rfl)
      split
      · next hu => rw [hu] at h3; exact h3
      · next hu => rw [hu] at h3; exact h3

theorem fullParse_extends [Uni] (E : Env) (inp : Inputs) (extra : List (Str × Option Str)) (content : Str)
    (sources nonEmpty : List Str) (tainted : Bool) (w : World) (orig : Files) (ho : NoDangling orig)
    (h : MoreFiles orig w.files) : MoreFiles orig (fullParse E inp extra content sources nonEmpty tainted w).1.files :=
  withDummies_extends E.faults sources nonEmpty (fun _ => getRpmSpec E inp extra content false) w orig ho h
    (fun _ w => (getRpmSpec_keeps E inp extra content false w).2)

theorem doParse_extends [Uni] (E : Env) (inp : Inputs) (extra : List (Str × Option Str)) (content : Str) (w : World)
    (ho : NoDangling w.files) : MoreFiles w.files (doParse E inp extra content w).1.files := by
  have h0 := (getRpmSpec_keeps E inp extra content true w).2
  unfold doParse
  split
  · next w' spec h =>
    rw [h] at h0
    exact fullParse_extends E inp extra content _ _ _ w' w.files ho (by rw [h0]; exact extends_refl _)
  · next w' h =>
    rw [h] at h0
    have h0' : MoreFiles w.files w'.files := by rw [h0]; exact extends_refl _
    split
    · unfold forcedParse
      split
      · exact h0'
      · next sources nonEmpty hc =>
        split
        · exact h0'
        · have h1 := withDummies_extends E.faults sources nonEmpty (retry E inp extra content) w' w.files ho h0'
            (fun l w => (retry_keeps E inp extra content l w).2)
          split
          · next h2 => rw [h2] at h1; exact h1
          · next h2 => rw [h2] at h1; exact fullParse_extends E inp extra content _ _ _ _ _ ho h1
    · exact h0'
  · next h => rw [h] at h0; rw [h0]; exact extends_refl _

/-! ### the cache -/

/-- the invariant: what the cache says is true -/
structure Sound [Uni] {E : Env} (w : World) (u : List Nat) (s : Sys E) : Prop where
  files : s.world.files = w.files
  env : s.world.env = w.env
  used : ∀ id, s.parsers id ≠ none → id ∈ u
  last : ∀ pl, s.last = some pl → pl.id ∈ u ∧ ∃ spec t,
    doParse E pl.inputs (pl.extra.getD []) pl.content w = (s.world, .ok (spec, t)) ∧
    ∀ p, s.parsers pl.id = some p → p.spec = some (some spec) ∧ p.tainted = t

theorem parse_sound [Uni] {E : Env} (hF : Benign E.faults) {w : World} (hw : NoDangling w.files) {u : List Nat} {s : Sys E}
    (h : Sound w u s) (id : Nat) (content : Str) (extra : Option (List (Str × Option Str))) (shape : Nat)
    (hk : (parse id content extra shape s).2 ≠ some .keyboardInterrupt) :
    Sound w u (parse id content extra shape s).1 := by
  have hagain : ∀ inp extra content, doParse E inp extra content s.world = doParse E inp extra content w :=
    fun inp extra content => doParse_again E inp extra content w s.world h.files h.env
  unfold parse at hk ⊢
  split
  · exact h
  · next p hp =>
    rw [hp] at hk
    simp only at hk
    split
    · exact h
    · next hlast =>
      rw [if_neg hlast] at hk
      split
      · exact h
      · next sp hsp =>
        rw [hsp] at hk
        simp only at hk
        have hid : id ∈ u := h.used id (by rw [hp]; simp)
        have hfiles := doParse_files E hF p.inputs (extra.getD []) content w hw
        have henv := doParse_env E p.inputs (extra.getD []) content w
        have hused : ∀ (q : Parser E) i, (if i = id then some q else s.parsers i) ≠ none → i ∈ u := by
          intro q i hi
          by_cases e : i = id
          · subst e; exact hid
          · rw [if_neg e] at hi; exact h.used i hi
        rw [hagain] at hk ⊢
        split
        · next w' spec t hd =>
          rw [hd] at hfiles henv
          refine ⟨hfiles, henv, hused _, ?_⟩
          intro pl hpl
          simp only [Option.some.injEq] at hpl
          subst hpl
          refine ⟨hid, spec, t, hd, ?_⟩
          intro q hq
          simp only [Sys.update, if_true, Option.some.injEq] at hq
          subst hq
          exact ⟨rfl, rfl⟩
        · next w' e hd =>
          rw [hd] at hfiles henv hk
          refine ⟨hfiles, henv, hused _, ?_⟩
          intro pl hpl
          have : isException e = true := by
            cases e <;> first | rfl | exact absurd rfl hk
          simp [this] at hpl

theorem parserReach_sound [Uni] {E : Env} (hF : Benign E.faults) {w : World} (hw : NoDangling w.files) {u : List Nat}
    {s : Sys E} (h : ParserReach E w u s) : Sound w u s := by
  induction h with
  | start => exact ⟨rfl, rfl, fun id h => absurd rfl h, fun pl h => by cases h⟩
  | new id inp _ ih =>
    refine ⟨ih.files, ih.env, ?_, fun pl h => by cases h⟩
    intro i hi
    by_cases e : i = id
    · simp [e]
    · simp only [new, Sys.update, if_neg e] at hi
      simp [ih.used i hi]
  | @copy u s src id _ hid ih =>
    unfold copy
    cases hp : s.parsers src with
    | none =>
      refine ⟨ih.files, ih.env, fun i hi => by simp [ih.used i hi], ?_⟩
      intro pl hpl
      obtain ⟨h1, spec, t, h2, h3⟩ := ih.last pl hpl
      exact ⟨by simp [h1], spec, t, h2, h3⟩
    | some p =>
      refine ⟨ih.files, ih.env, ?_, ?_⟩
      · intro i hi
        by_cases e : i = id
        · simp [e]
        · simp only [Sys.update, if_neg e] at hi
          simp [ih.used i hi]
      · intro pl hpl
        obtain ⟨h1, spec, t, h2, h3⟩ := ih.last pl hpl
        refine ⟨by simp [h1], spec, t, h2, ?_⟩
        intro q hq
        have e : pl.id ≠ id := by intro e; rw [e] at h1; exact hid h1
        simp only [Sys.update, if_neg e] at hq
        exact h3 q hq
  | @drop u s id _ ih =>
    refine ⟨ih.files, ih.env, ?_, ?_⟩
    · intro i hi
      by_cases e : i = id
      · simp [Sys.update, e] at hi
      · simp only [Sys.update, if_neg e] at hi
        exact ih.used i hi
    · intro pl hpl
      obtain ⟨h1, spec, t, h2, h3⟩ := ih.last pl hpl
      refine ⟨h1, spec, t, h2, ?_⟩
      intro q hq
      by_cases e : pl.id = id
      · simp [Sys.update, e] at hq
      · simp only [Sys.update, if_neg e] at hq
        exact h3 q hq
  | @change u s id p inp _ hp ih =>
    refine ⟨ih.files, ih.env, ?_, ?_⟩
    · intro i hi
      by_cases e : i = id
      · subst e; exact ih.used i (by rw [hp]; simp)
      · simp only [Sys.update, if_neg e] at hi
        exact ih.used i hi
    · intro pl hpl
      obtain ⟨h1, spec, t, h2, h3⟩ := ih.last pl hpl
      refine ⟨h1, spec, t, h2, ?_⟩
      intro q hq
      by_cases e : pl.id = id
      · simp only [Sys.update, if_pos e, Option.some.injEq] at hq
        subst hq
        exact h3 p (by rw [e]; exact hp)
      · simp only [Sys.update, if_neg e] at hq
        exact h3 q hq
  | parse id content extra shape _ hk ih => exact parse_sound hF hw ih id content extra shape hk

end Specfile.SpecParser
