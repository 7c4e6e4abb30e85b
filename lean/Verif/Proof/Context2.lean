import Verif.Proof.Context
/-
From the start of a context to its end.
-/
namespace Specfile.Context
open Py Spec

variable {K V W : Type} [DecidableEq K] {f : Function K V W}

/-- the handle is responsible for the object of the key -/
structure Owned (s : State K V W) (k : K) (g : Nat) (v : V) : Prop where
  gen : s.generators k = some (.suspended v)
  handle : ∃ h : Handle K, s.handles[g]? = some h ∧ h.key = k ∧ Live h

theorem owned_call {s : State K V W} (hi : Inv s) {k : K} {g : Nat} {v : V} {s1 : State K V W}
    (h : call f s k = (s1, .handle g)) (hl : s1.log = s.log ++ [.started k v]) : Owned s1 k g v := by
  have fresh : (∀ v, s.generators k ≠ some (.suspended v)) → Owned s1 k g v := by
    intro hn
    cases hf : f.first k s.world with
    | mk w r =>
      cases r with
      | error e => rw [call_error hn hf] at h; simp at h
      | ok v' =>
        rw [call_ok hn hf] at h
        simp only [Prod.mk.injEq, Out.handle.injEq] at h
        obtain ⟨rfl, rfl⟩ := h
        simp at hl
        subst hl
        exact ⟨set_same _ _ _, ⟨k, true, .fresh, false⟩, get_append_right, rfl, rfl, by simp⟩
  cases hg : s.generators k with
  | none => exact fresh (by simp [hg])
  | some x =>
    cases x with
    | exhausted => exact fresh (by simp [hg])
    | suspended v' =>
      rw [call_shared hg] at h
      simp only [Prod.mk.injEq] at h
      rw [← h.1] at hl
      simp at hl

theorem owned_mark {s : State K V W} {k : K} {g : Nat} {v : V} (ho : Owned s k g v) {g' : Nat} {h h' : Handle K}
    (e : s.handles[g']? = some h) (hk : h'.key = h.key) (hl : Live h' ↔ Live h) : Owned (mark s g' h') k g v := by
  refine ⟨ho.gen, ?_⟩
  obtain ⟨x, ex, hx, hlx⟩ := ho.handle
  by_cases hg : g = g'
  · subst hg
    rw [e] at ex
    cases ex
    have := (List.getElem?_eq_some_iff.1 e).1
    exact ⟨h', by simp [mark, this], by rw [hk, hx], hl.2 hlx⟩
  · exact ⟨x, by simp only [mark]; rw [List.getElem?_set, if_neg (Ne.symm hg), ex], hx, hlx⟩

theorem owned_finish {s : State K V W} (hi : Inv s) {k : K} {g : Nat} {v : V} (ho : Owned s k g v) {g' : Nat} {h h0 : Handle K}
    (e : s.handles[g']? = some h0) (hk : h.key = h0.key) (hl : Live h ↔ Live h0) (hne : g' ≠ g) :
    Owned (finish f s g' h).1 k g v ∧ history k (finish f s g' h).1.log = history k s.log := by
  obtain ⟨x, ex, hx, hlx⟩ := ho.handle
  by_cases hlive : Live h
  · obtain ⟨v', hv, hval, -, hw, hlog, hh, hn, hg, hvals, -⟩ := finish_owner (f := f) hi ⟨h0, e, hk, hl.1 hlive⟩ hlive
    have hkk : k ≠ h.key := by
      intro hc
      exact hne (hi.unique g' g h0 x e ex (hl.1 hlive) hlx (by rw [← hk, ← hc, hx]))
    refine ⟨⟨by rw [hg k hkk]; exact ho.gen, x, by rw [hh, List.getElem?_set, if_neg hne, ex], hx, hlx⟩, ?_⟩
    rw [hlog, history_append]
    simp [history, Ne.symm hkk]
  · rw [finish_other hlive]
    refine ⟨⟨ho.gen, x, ?_, hx, hlx⟩, rfl⟩
    simp only [mark]
    rw [List.getElem?_set, if_neg hne, ex]

theorem enter_value {s : State K V W} (hi : Inv s) {k : K} {v : V} (hg : s.generators k = some (.suspended v)) {g : Nat}
    {h : Handle K} (hk : h.key = k) (hp : h.place = .fresh) (he : h.entered = false) :
    enter f s g h = (mark s g { h with place := .inside, entered := true }, .value v) := by
  have hv := hi.values k v hg
  subst hk
  rw [enter]
  simp [he, hp, hv]

theorem owned_step {s : State K V W} (hi : Inv s) {k : K} {g : Nat} {v : V} (ho : Owned s k g v) (ev : Event K W)
    (hne : ¬ Ends g ev) : Owned (step f s ev).1 k g v ∧ history k (step f s ev).1.log = history k s.log := by
  cases ev with
  | call k' =>
    simp only [step]
    obtain ⟨x, ex, hx, hlx⟩ := ho.handle
    by_cases hk : k' = k
    · subst hk
      rw [call_shared ho.gen]
      exact ⟨⟨ho.gen, x, get_append_left ex, hx, hlx⟩, rfl⟩
    · have fresh : (∀ v, s.generators k' ≠ some (.suspended v)) →
          Owned (call f s k').1 k g v ∧ history k (call f s k').1.log = history k s.log := by
        intro hn
        cases hf : f.first k' s.world with
        | mk w r =>
          cases r with
          | error e =>
            rw [call_error hn hf]
            exact ⟨⟨by simp only [set_ne _ _ (Ne.symm hk)]; exact ho.gen, x, ex, hx, hlx⟩, rfl⟩
          | ok v' =>
            rw [call_ok hn hf]
            refine ⟨⟨by simp only [set_ne _ _ (Ne.symm hk)]; exact ho.gen, x, get_append_left ex, hx, hlx⟩, ?_⟩
            rw [history_append]
            simp [history, hk]
      cases hg : s.generators k' with
      | none => exact fresh (by simp [hg])
      | some y =>
        cases y with
        | exhausted => exact fresh (by simp [hg])
        | suspended v' =>
          rw [call_shared hg]
          exact ⟨⟨ho.gen, x, get_append_left ex, hx, hlx⟩, rfl⟩
  | other u => exact ⟨⟨ho.gen, ho.handle⟩, rfl⟩
  | drop g' =>
    simp only [step]
    split
    · rename_i h e; exact owned_finish hi ho e rfl Iff.rfl hne
    · exact ⟨ho, rfl⟩
  | exit g' x =>
    simp only [step]
    split
    · rename_i h e
      have := owned_finish (f := f) hi ho e rfl Iff.rfl hne
      rw [exit]
      split
      · split
        · rename_i hq; rw [hq] at this; exact this
        · rename_i hq; rw [hq] at this
          split
          · exact this
          · split <;> exact this
      · exact ⟨ho, rfl⟩
    · exact ⟨ho, rfl⟩
  | content g' =>
    simp only [step]
    split
    · rename_i h e
      have := owned_finish (f := f) hi ho e rfl Iff.rfl hne
      rw [content]
      split
      · exact ⟨ho, rfl⟩
      · split <;> (rename_i hq; rw [hq] at this; exact this)
      · split
        · split <;> (rename_i hq; rw [hq] at this; exact this)
        · split <;> (rename_i hq; rw [hq] at this; exact this)
    · exact ⟨ho, rfl⟩
  | enter g' =>
    simp only [step]
    split
    · rename_i h e
      by_cases hgg : g' = g
      · subst hgg
        obtain ⟨x, ex, hx, hlx⟩ := ho.handle
        rw [e] at ex
        cases ex
        cases he : h.entered with
        | true => rw [enter]; simp only [he, if_true]; exact ⟨ho, trivial⟩
        | false =>
          cases hp : h.place with
          | over => exact absurd hp hlx.2
          | inside => have := hi.inside g' h e hp; rw [he] at this; cases this
          | fresh =>
            rw [enter_value hi ho.gen hx hp he]
            exact ⟨owned_mark ho e rfl (by simp [Live, hp]), rfl⟩
      · rw [enter]
        split
        · exact ⟨ho, rfl⟩
        · split
          · rename_i hp
            exact ⟨owned_mark ho e rfl (by simp [Live, hp]), rfl⟩
          · exact ⟨ho, rfl⟩
          · rename_i hp
            split
            · exact ⟨owned_mark ho e rfl (by simp [Live, hp]), rfl⟩
            · have := owned_finish (f := f) hi ho (h := { h with entered := true }) e rfl (by simp [Live]) hgg
              split <;> (rename_i hq; rw [hq] at this; exact this)
    · exact ⟨ho, rfl⟩

theorem owned_run {s : State K V W} (hi : Inv s) {k : K} {g : Nat} {v : V} (ho : Owned s k g v) {evs : List (Event K W)}
    (hne : ∀ ev ∈ evs, ¬ Ends g ev) : Owned (run f s evs) k g v ∧ history k (run f s evs).log = history k s.log := by
  induction evs generalizing s with
  | nil => exact ⟨ho, rfl⟩
  | cons e evs ih =>
    obtain ⟨h1, h2⟩ := owned_step (f := f) hi ho e (hne e (by simp))
    obtain ⟨h3, h4⟩ := ih (inv_step hi e) h1 (fun ev h => hne ev (by simp [h]))
    exact ⟨h3, by rw [run, h4, h2]⟩

/-- the end of the context -/
theorem owned_end {s : State K V W} (hi : Inv s) {k : K} {g : Nat} {v : V} (ho : Owned s k g v) {ev : Event K W}
    (he : Ends g ev) (hx : ∀ e, ev = .exit g e → ∃ h, s.handles[g]? = some h ∧ h.place = .inside) :
    (step f s ev).1.log = s.log ++ [.finished k v] ∧ (step f s ev).1.world = (f.second k v s.world).1 := by
  obtain ⟨h, eh, rfl, hl⟩ := ho.handle
  obtain ⟨v', hv, hval, hr, hw, hlog, hh, -⟩ := finish_owner (f := f) hi ⟨h, eh, rfl, hl⟩ hl
  rw [ho.gen] at hv
  simp at hv
  subst hv
  have key : (finish f s g h).1.log = s.log ++ [.finished h.key v] ∧
      (finish f s g h).1.world = (f.second h.key v s.world).1 := ⟨hlog, hw⟩
  cases ev with
  | call _ => exact he.elim
  | enter _ => exact he.elim
  | other _ => exact he.elim
  | drop g' =>
    cases he
    simp only [step, eh]
    exact key
  | exit g' x =>
    cases he
    obtain ⟨h', e', hp⟩ := hx x rfl
    rw [eh] at e'
    cases e'
    simp only [step, eh, exit, hp]
    split
    · rename_i hq; rw [hq] at key; exact key
    · rename_i hq; rw [hq] at key
      split
      · exact key
      · split <;> exact key
  | content g' =>
    cases he
    simp only [step, eh, content]
    split
    · rename_i hp; exact absurd hp hl.2
    · split <;> (rename_i hq; rw [hq] at key; exact key)
    · split
      · split <;> (rename_i hq; rw [hq] at key; exact key)
      · split <;> (rename_i hq; rw [hq] at key; exact key)

end Specfile.Context
