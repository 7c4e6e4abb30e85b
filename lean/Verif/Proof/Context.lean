import Verif.Spec.Context
/-
The invariant of context managers.
-/
namespace Specfile.Context
open Py Spec

variable {K V W : Type} [DecidableEq K] {f : Function K V W}

theorem history_append (k : K) (a b : List (Log K V)) : history k (a ++ b) = history k a ++ history k b := by
  induction a with
  | nil => rfl
  | cons x a ih => cases x <;> simp only [List.cons_append, history] <;> split <;> simp [ih]

/-- the handle is the one that writes back, and has not done so yet -/
def Live (h : Handle K) : Prop := h.owner = true ∧ h.place ≠ .over

structure Inv (s : State K V W) : Prop where
  values : ∀ k v, s.generators k = some (.suspended v) → s.values k = some v
  owner : ∀ k v, s.generators k = some (.suspended v) → ∃ (g : Nat) (h : Handle K), s.handles[g]? = some h ∧ h.key = k ∧ Live h
  live : ∀ (g : Nat) h, s.handles[g]? = some h → Live h → ∃ v, s.generators h.key = some (.suspended v)
  unique : ∀ (g g' : Nat) h h', s.handles[g]? = some h → s.handles[g']? = some h' → Live h → Live h' → h.key = h'.key → g = g'
  logged : ∀ k, (∃ v l, s.generators k = some (.suspended v) ∧ history k s.log = l ++ [(true, v)] ∧ AllWritten l) ∨
    ((∀ v, s.generators k ≠ some (.suspended v)) ∧ AllWritten (history k s.log))
  inside : ∀ (g : Nat) h, s.handles[g]? = some h → h.place = .inside → h.entered = true

theorem closed_append {a : List (Bool × V)} {v : V} (h : AllWritten a) : AllWritten (a ++ [(true, v), (false, v)]) := by
  induction h with
  | nil => exact .both .nil
  | both h ih => exact .both ih

theorem AllWritten.paired {a : List (Bool × V)} (h : AllWritten a) : Paired a := by
  induction h with
  | nil => exact .nil
  | both h ih => exact .both ih

theorem paired_append {a : List (Bool × V)} {v : V} (h : AllWritten a) : Paired (a ++ [(true, v)]) := by
  induction h with
  | nil => exact .started v
  | both h ih => exact .both ih

theorem inv_init (w : W) : Inv (State.init w : State K V W) where
  values := by simp [State.init]
  owner := by simp [State.init]
  live := by simp [State.init]
  unique := by simp [State.init]
  logged := by intro k; right; exact ⟨by simp [State.init], .nil⟩
  inside := by simp [State.init]

theorem get_append {α : Type} {l : List α} {x : α} {g : Nat} {h : α} (e : (l ++ [x])[g]? = some h) :
    l[g]? = some h ∨ g = l.length ∧ h = x := by
  rw [List.getElem?_append] at e
  split at e
  · exact Or.inl e
  · rename_i hg
    have : g - l.length = 0 := by
      rcases Nat.eq_zero_or_pos (g - l.length) with h | h
      · exact h
      · rw [List.getElem?_eq_none (by simp; omega)] at e; cases e
    rw [this] at e
    simp at e
    exact Or.inr ⟨by omega, e.symm⟩

theorem get_append_left {α : Type} {l : List α} {x : α} {g : Nat} {h : α} (e : l[g]? = some h) : (l ++ [x])[g]? = some h := by
  obtain ⟨hl, -⟩ := List.getElem?_eq_some_iff.1 e
  rw [List.getElem?_append_left hl, e]

theorem get_append_right {α : Type} {l : List α} {x : α} : (l ++ [x])[l.length]? = some x := by simp

theorem get_set {α : Type} {l : List α} {g g' : Nat} {h x : α} (e : (l.set g x)[g']? = some h) :
    g' = g ∧ h = x ∧ g < l.length ∨ g' ≠ g ∧ l[g']? = some h := by
  rw [List.getElem?_set] at e
  split at e
  · rename_i hg
    split at e
    · simp at e; exact Or.inl ⟨hg.symm, e.symm, by assumption⟩
    · cases e
  · rename_i hg; exact Or.inr ⟨fun h => hg h.symm, e⟩

theorem set_same {A : Type} (d : K → Option A) (k : K) (x : Option A) : set d k x k = x := if_pos rfl
theorem set_ne {A : Type} (d : K → Option A) {k k' : K} (x : Option A) (h : k' ≠ k) : set d k x k' = d k' := if_neg h

/-- calling while the generator is suspended -/
theorem call_shared {s : State K V W} {k : K} {v : V} (h : s.generators k = some (.suspended v)) :
    call f s k = ({ s with handles := s.handles ++ [⟨k, false, .fresh, false⟩] }, .handle s.handles.length) := by
  rw [call, h]

theorem call_ok {s : State K V W} {k : K} {v : V} {w : W} (h : ∀ v, s.generators k ≠ some (.suspended v))
    (hf : f.first k s.world = (w, .ok v)) :
    call f s k = (⟨w, set s.generators k (some (.suspended v)), set s.values k (some v),
      s.handles ++ [⟨k, true, .fresh, false⟩], s.log ++ [.started k v]⟩, .handle s.handles.length) := by
  rw [call]
  split
  · rename_i v h'; exact absurd h' (h v)
  · rw [hf]

theorem call_error {s : State K V W} {k : K} {e : Err} {w : W} (h : ∀ v, s.generators k ≠ some (.suspended v))
    (hf : f.first k s.world = (w, .error e)) :
    call f s k = ({ s with world := w, generators := set s.generators k (some .exhausted) }, .raised e) := by
  rw [call]
  split
  · rename_i v h'; exact absurd h' (h v)
  · rw [hf]

theorem not_live_shared {k : K} : ¬ Live (⟨k, false, .fresh, false⟩ : Handle K) := by simp [Live]

theorem inv_call {s : State K V W} (hi : Inv s) (k : K) : Inv (call f s k).1 := by
  cases hg : s.generators k with
  | some g =>
    cases g with
    | suspended v =>
      rw [call_shared hg]
      refine ⟨hi.values, ?_, ?_, ?_, hi.logged, ?_⟩
      · intro k v h
        obtain ⟨g, x, h1, h2, h3⟩ := hi.owner k v h
        exact ⟨g, x, get_append_left h1, h2, h3⟩
      · intro g h e hl
        rcases get_append e with e | ⟨-, rfl⟩
        · exact hi.live g h e hl
        · exact absurd hl not_live_shared
      · intro g g' h h' e e' hl hl'
        rcases get_append e with e | ⟨-, rfl⟩
        · rcases get_append e' with e' | ⟨-, rfl⟩
          · exact hi.unique g g' h h' e e' hl hl'
          · exact absurd hl' not_live_shared
        · exact absurd hl not_live_shared
      · intro g h e hp
        rcases get_append e with e | ⟨-, rfl⟩
        · exact hi.inside g h e hp
        · cases hp
    | exhausted => exact fresh hi k (by simp [hg])
  | none => exact fresh hi k (by simp [hg])
where
  fresh {s : State K V W} (hi : Inv s) (k : K) (hn : ∀ v, s.generators k ≠ some (.suspended v)) : Inv (call f s k).1 := by
    have nolive : ∀ (g : Nat) h, s.handles[g]? = some h → Live h → h.key ≠ k := by
      rintro g h e hl rfl
      obtain ⟨v, hv⟩ := hi.live g h e hl
      exact hn v hv
    have hc : AllWritten (history k s.log) := by
      rcases hi.logged k with ⟨v, l, h, -⟩ | ⟨-, h⟩
      · exact absurd h (hn v)
      · exact h
    cases hf : f.first k s.world with
    | mk w r =>
      cases r with
      | error e =>
        rw [call_error hn hf]
        refine ⟨?_, ?_, ?_, hi.unique, ?_, hi.inside⟩
        · intro k' v h
          by_cases hk : k' = k
          · subst hk; simp [set_same] at h
          · simp only [set_ne _ _ hk] at h; exact hi.values k' v h
        · intro k' v h
          by_cases hk : k' = k
          · subst hk; simp [set_same] at h
          · simp only [set_ne _ _ hk] at h; exact hi.owner k' v h
        · intro g h e hl
          simp only [set_ne _ _ (nolive g h e hl)]
          exact hi.live g h e hl
        · intro k'
          by_cases hk : k' = k
          · subst hk; right; exact ⟨by simp [set_same], hc⟩
          · simp only [set_ne _ _ hk]; exact hi.logged k'
      | ok v =>
        rw [call_ok hn hf]
        refine ⟨?_, ?_, ?_, ?_, ?_, ?_⟩
        · intro k' v' h
          by_cases hk : k' = k
          · subst hk; simp [set_same] at h ⊢; exact h
          · simp only [set_ne _ _ hk] at h ⊢; exact hi.values k' v' h
        · intro k' v' h
          by_cases hk : k' = k
          · exact ⟨_, ⟨k, true, .fresh, false⟩, get_append_right, hk.symm, rfl, by simp⟩
          · simp only [set_ne _ _ hk] at h
            obtain ⟨g, x, h1, h2, h3⟩ := hi.owner k' v' h
            exact ⟨g, x, get_append_left h1, h2, h3⟩
        · intro g h e hl
          rcases get_append e with e | ⟨-, rfl⟩
          · simp only [set_ne _ _ (nolive g h e hl)]
            exact hi.live g h e hl
          · exact ⟨v, set_same _ _ _⟩
        · intro g g' h h' e e' hl hl' hk
          rcases get_append e with e | ⟨rfl, rfl⟩
          · rcases get_append e' with e' | ⟨rfl, rfl⟩
            · exact hi.unique g g' h h' e e' hl hl' hk
            · exact absurd hk (nolive g h e hl)
          · rcases get_append e' with e' | ⟨rfl, rfl⟩
            · exact absurd hk.symm (nolive g' h' e' hl')
            · rfl
        · intro k'
          by_cases hk : k' = k
          · subst hk
            left
            refine ⟨v, history k' s.log, set_same _ _ _, ?_, hc⟩
            rw [history_append]
            simp [history]
          · simp only [set_ne _ _ hk]
            have : history k' (s.log ++ [.started k v]) = history k' s.log := by
              rw [history_append]
              simp [history, Ne.symm hk]
            rw [this]
            exact hi.logged k'
        · intro g h e hp
          rcases get_append e with e | ⟨-, rfl⟩
          · exact hi.inside g h e hp
          · cases hp

/-- only the handle that writes back does anything when it ends -/
theorem finish_other {s : State K V W} {g : Nat} {h : Handle K} (hl : ¬ Live h) :
    finish f s g h = (mark s g { h with place := .over }, none) := by
  rw [finish]
  rw [if_neg]
  intro hc
  apply hl
  simpa [Live] using hc

theorem finish_owner {s : State K V W} (hi : Inv s) {g : Nat} {h : Handle K} (e : ∃ h0, s.handles[g]? = some h0 ∧ h.key = h0.key ∧ Live h0)
    (hl : Live h) :
    ∃ v, s.generators h.key = some (.suspended v) ∧ s.values h.key = some v ∧
      (finish f s g h).2 = (f.second h.key v s.world).2 ∧
      (finish f s g h).1.world = (f.second h.key v s.world).1 ∧
      (finish f s g h).1.log = s.log ++ [.finished h.key v] ∧
      (finish f s g h).1.handles = s.handles.set g { h with place := .over } ∧
      (∀ v, (finish f s g h).1.generators h.key ≠ some (.suspended v)) ∧
      (∀ k, k ≠ h.key → (finish f s g h).1.generators k = s.generators k) ∧
      (∀ k, k ≠ h.key → (finish f s g h).1.values k = s.values k) ∧
      ((f.second h.key v s.world).2 = none → (finish f s g h).1.values h.key = none) := by
  obtain ⟨h0, e0, hk, hl0⟩ := e
  obtain ⟨v, hv⟩ := hi.live g h0 e0 hl0
  rw [← hk] at hv
  have hval := hi.values _ v hv
  refine ⟨v, hv, hval, ?_⟩
  have hc : (h.owner && h.place != .over) = true := by simpa [Live] using hl
  rw [finish, if_pos hc]
  simp only [finalise, mark, hv]
  cases hs : (f.second h.key v s.world).2 with
  | some e =>
    refine ⟨rfl, rfl, rfl, rfl, ?_, ?_, ?_, ?_⟩
    · intro v'; simp [set_same]
    · intro k hk; simp [set_ne _ _ hk]
    · intro k hk; rfl
    · intro h; cases h
  | none =>
    simp only [delete, hval]
    refine ⟨trivial, trivial, trivial, trivial, ?_, ?_, ?_, ?_⟩
    · intro v'; simp [set_same]
    · intro k hk; simp [set_ne _ _ hk]
    · intro k hk; simp [set_ne _ _ hk]
    · intro _; simp [set_same]

/-- changing a handle but not whether it is the one that writes back -/
theorem inv_mark {s : State K V W} (hi : Inv s) {g : Nat} {h h' : Handle K} (e : s.handles[g]? = some h)
    (hk : h'.key = h.key) (hl : Live h' ↔ Live h) (hin : h'.place = .inside → h'.entered = true) : Inv (mark s g h') := by
  have hlen : g < s.handles.length := (List.getElem?_eq_some_iff.1 e).1
  refine ⟨hi.values, ?_, ?_, ?_, hi.logged, ?_⟩
  · intro k v hv
    obtain ⟨g', x, h1, h2, h3⟩ := hi.owner k v hv
    by_cases hg : g' = g
    · subst hg
      rw [e] at h1
      cases h1
      exact ⟨g', h', by simp [mark, List.getElem?_set, hlen], by rw [hk, h2], hl.2 h3⟩
    · exact ⟨g', x, by simp only [mark]; rw [List.getElem?_set, if_neg (Ne.symm hg), h1], h2, h3⟩
  · intro g' x ex hx
    rcases get_set ex with ⟨-, rfl, -⟩ | ⟨-, ex⟩
    · rw [hk]; exact hi.live g h e (hl.1 hx)
    · exact hi.live g' x ex hx
  · intro g1 g2 x1 x2 e1 e2 l1 l2 hkk
    rcases get_set e1 with ⟨a1, b1, -⟩ | ⟨-, c1⟩ <;> rcases get_set e2 with ⟨a2, b2, -⟩ | ⟨-, c2⟩
    · rw [a1, a2]
    · subst b1
      rw [a1]; exact hi.unique _ _ h x2 e c2 (hl.1 l1) l2 (by rw [← hk, hkk])
    · subst b2
      rw [a2]; exact hi.unique _ _ x1 h c1 e l1 (hl.1 l2) (by rw [hkk, hk])
    · exact hi.unique _ _ x1 x2 c1 c2 l1 l2 hkk
  · intro g' x ex hx
    rcases get_set ex with ⟨-, rfl, -⟩ | ⟨-, ex⟩
    · exact hin hx
    · exact hi.inside g' x ex hx

theorem inv_finish {s : State K V W} (hi : Inv s) {g : Nat} {h h0 : Handle K} (e : s.handles[g]? = some h0)
    (hk : h.key = h0.key) (hl : Live h ↔ Live h0) : Inv (finish f s g h).1 := by
  by_cases hlive : Live h
  · obtain ⟨v, hv, hval, -, hw, hlog, hh, hn, hg, hvals, -⟩ := finish_owner (f := f) hi ⟨h0, e, hk, hl.1 hlive⟩ hlive
    have notlive : ¬ Live ({ h with place := .over } : Handle K) := by simp [Live]
    have nolive : ∀ (g' : Nat) x, s.handles[g']? = some x → g' ≠ g → Live x → x.key ≠ h.key := by
      intro g' x ex hne hx hkx
      exact hne (hi.unique g' g x h0 ex e hx (hl.1 hlive) (by rw [hkx, hk]))
    refine ⟨?_, ?_, ?_, ?_, ?_, ?_⟩
    · intro k v' hk'
      have : k ≠ h.key := by rintro rfl; exact hn v' hk'
      rw [hg k this] at hk'
      rw [hvals k this]
      exact hi.values k v' hk'
    · intro k v' hk'
      have hne : k ≠ h.key := by rintro rfl; exact hn v' hk'
      rw [hg k hne] at hk'
      obtain ⟨g', x, h1, h2, h3⟩ := hi.owner k v' hk'
      have : g' ≠ g := by
        rintro rfl
        rw [e] at h1
        cases h1
        exact hne (by rw [← h2, hk])
      exact ⟨g', x, by rw [hh, List.getElem?_set, if_neg (fun h => this h.symm), h1], h2, h3⟩
    · intro g' x ex hx
      rw [hh] at ex
      rcases get_set ex with ⟨-, rfl, -⟩ | ⟨hne, ex⟩
      · exact absurd hx notlive
      · rw [hg _ (nolive g' x ex hne hx)]
        exact hi.live g' x ex hx
    · intro g1 g2 x1 x2 e1 e2 l1 l2 hkk
      rw [hh] at e1 e2
      rcases get_set e1 with ⟨rfl, rfl, -⟩ | ⟨-, e1⟩
      · exact absurd l1 notlive
      · rcases get_set e2 with ⟨rfl, rfl, -⟩ | ⟨-, e2⟩
        · exact absurd l2 notlive
        · exact hi.unique _ _ x1 x2 e1 e2 l1 l2 hkk
    · intro k
      by_cases hkk : k = h.key
      · subst hkk
        right
        refine ⟨hn, ?_⟩
        rcases hi.logged h.key with ⟨v', l, h1, h2, h3⟩ | ⟨h1, -⟩
        · rw [hv] at h1
          simp at h1
          subst h1
          rw [hlog, history_append, h2]
          simp only [history, if_true, List.append_assoc, List.cons_append, List.nil_append]
          exact closed_append h3
        · exact absurd hv (h1 v)
      · rw [hg k hkk, hlog, history_append]
        simp only [history, if_neg (fun h : _ = k => hkk h.symm), List.append_nil]
        exact hi.logged k
    · intro g' x ex hx
      rw [hh] at ex
      rcases get_set ex with ⟨-, rfl, -⟩ | ⟨-, ex⟩
      · cases hx
      · exact hi.inside g' x ex hx
  · rw [finish_other hlive]
    refine inv_mark hi e hk ?_ (by simp)
    rw [← hl]
    simp [Live] at hlive ⊢
    exact hlive

theorem finish_eq {s : State K V W} {g : Nat} {h : Handle K} {s' : State K V W} {r : Option Err} (he : finish f s g h = (s', r)) :
    s' = (finish f s g h).1 ∧ r = (finish f s g h).2 := by rw [he]; exact ⟨rfl, rfl⟩

theorem inv_step {s : State K V W} (hi : Inv s) (ev : Event K W) : Inv (step f s ev).1 := by
  cases ev with
  | call k => exact inv_call hi k
  | other u => exact ⟨hi.values, hi.owner, hi.live, hi.unique, hi.logged, hi.inside⟩
  | drop g =>
    simp only [step]
    split
    · rename_i h e; exact inv_finish hi e rfl Iff.rfl
    · exact hi
  | exit g x =>
    simp only [step]
    split
    · rename_i h e
      rw [exit]
      split
      · have := inv_finish (f := f) hi e rfl Iff.rfl
        split
        · rename_i hq; rw [hq] at this; exact this
        · rename_i hq; rw [hq] at this
          split
          · exact this
          · split <;> exact this
      · exact hi
    · exact hi
  | content g =>
    simp only [step]
    split
    · rename_i h e
      have := inv_finish (f := f) hi e rfl Iff.rfl
      rw [content]
      split
      · exact hi
      · split <;> (rename_i hq; rw [hq] at this; exact this)
      · split
        · split <;> (rename_i hq; rw [hq] at this; exact this)
        · split <;> (rename_i hq; rw [hq] at this; exact this)
    · exact hi
  | enter g =>
    simp only [step]
    split
    · rename_i h e
      rw [enter]
      split
      · exact hi
      · split
        · rename_i hp
          exact inv_mark hi e rfl (by simp [Live, hp]) (by simp [hp])
        · exact hi
        · rename_i hp
          split
          · exact inv_mark hi e rfl (by simp [Live, hp]) (by simp)
          · have := inv_finish (f := f) hi (h := { h with entered := true }) e rfl (by simp [Live])
            split <;> (rename_i hq; rw [hq] at this; exact this)
    · exact hi

theorem inv_run {s : State K V W} (hi : Inv s) (evs : List (Event K W)) : Inv (run f s evs) := by
  induction evs generalizing s with
  | nil => exact hi
  | cons e evs ih => exact ih (inv_step hi e)

theorem inv_reachable {s : State K V W} (h : Reachable f s) : Inv s := by
  obtain ⟨w, evs, rfl⟩ := h
  exact inv_run (inv_init w) evs

end Specfile.Context
