import Verif.Proof.Context2
/-
Properties of the context managers: C38 and C69. They hold for every decorated function, every number of different
arguments and every sequence of events.
-/
namespace Specfile.Props
open Py Spec Context

variable {K V W : Type} [DecidableEq K] {f : Function K V W}

/-! ### C38 -/

/-- Every object that was created for some arguments is written back at most once, and before the next one is
created for the same arguments. -/
theorem C38_once {s : State K V W} (h : Reachable f s) (k : K) : Paired (history k s.log) := by
  rcases (inv_reachable h).logged k with ⟨v, l, -, h2, h3⟩ | ⟨-, h⟩
  · rw [h2]; exact paired_append h3
  · exact AllWritten.paired h

/-- When all contexts have ended or are gone, everything has been written back. -/
theorem C38_written {s : State K V W} (h : Reachable f s) (hall : ∀ h ∈ s.handles, h.place = .over) (k : K) :
    AllWritten (history k s.log) := by
  have hi := inv_reachable h
  rcases hi.logged k with ⟨v, l, h1, -⟩ | ⟨-, h⟩
  · obtain ⟨g, x, e, -, hl⟩ := hi.owner k v h1
    exact absurd (hall x (List.mem_of_getElem? e)) hl.2
  · exact h

/-- From the call that creates the object until the context of that call ends, whatever else happens: the object
is neither written back nor created again; entering any other context with the same arguments yields the same
object; calling again runs nothing. -/
theorem C38_same_object {s s1 : State K V W} (h : Reachable f s) {k : K} {g : Nat} {v : V}
    (hc : step f s (.call k) = (s1, .handle g)) (hl : s1.log = s.log ++ [.started k v])
    {evs : List (Event K W)} (hne : ∀ ev ∈ evs, ¬ Ends g ev) {s2 : State K V W} (hs : s2 = run f s1 evs) :
    history k s2.log = history k s1.log ∧
    (∀ g' h', s2.handles[g']? = some h' → h'.key = k → h'.place = .fresh → h'.entered = false →
      (step f s2 (.enter g')).2 = .value v ∧ (g' ≠ g → (step f s2 (.content g')).2 = .value v)) ∧
    (∃ s3 g', step f s2 (.call k) = (s3, .handle g') ∧ s3.world = s2.world ∧ s3.log = s2.log ∧
      (step f s3 (.enter g')).2 = .value v) := by
  have hi := inv_reachable h
  have hi1 : Inv s1 := by have := inv_step (f := f) hi (.call k); rwa [hc] at this
  have ho1 := owned_call hi hc hl
  obtain ⟨ho, hh⟩ := owned_run hi1 ho1 hne
  have hi2 := inv_run (f := f) hi1 evs
  rw [← hs] at ho hh hi2
  refine ⟨hh, ?_, ?_⟩
  · intro g' h' e hk hp he
    refine ⟨?_, ?_⟩
    · simp only [step, e]
      rw [enter_value hi2 ho.gen hk hp he]
    · intro hg
      have hnl : ¬ Live h' := by
        intro hlive
        obtain ⟨x, ex, hx, hlx⟩ := ho.handle
        exact hg (hi2.unique g' g h' x e ex hlive hlx (by rw [hk, hx]))
      simp only [step, e, content, hp]
      rw [finish_other hnl, hk, hi2.values k v ho.gen]
  · refine ⟨_, _, call_shared ho.gen, rfl, rfl, ?_⟩
    have hi3 : Inv (call f s2 k).1 := inv_call hi2 k
    rw [call_shared ho.gen] at hi3
    simp only [step, get_append_right]
    rw [enter_value hi3 ho.gen rfl rfl rfl]

/-- The end of that context, by leaving the `with` block in any way, by `content` or by losing the last reference,
writes the object back, and nothing else. -/
theorem C38_write_back {s s1 : State K V W} (h : Reachable f s) {k : K} {g : Nat} {v : V}
    (hc : step f s (.call k) = (s1, .handle g)) (hl : s1.log = s.log ++ [.started k v])
    {evs : List (Event K W)} (hne : ∀ ev ∈ evs, ¬ Ends g ev) {s2 : State K V W} (hs : s2 = run f s1 evs)
    {ev : Event K W} (he : Ends g ev) (hx : ∀ e, ev = .exit g e → ∃ h, s2.handles[g]? = some h ∧ h.place = .inside) :
    (step f s2 ev).1.log = s2.log ++ [.finished k v] ∧ (step f s2 ev).1.world = (f.second k v s2.world).1 := by
  have hi := inv_reachable h
  have hi1 : Inv s1 := by have := inv_step (f := f) hi (.call k); rwa [hc] at this
  obtain ⟨ho, -⟩ := owned_run hi1 (owned_call hi hc hl) hne
  have hi2 := inv_run (f := f) hi1 evs
  rw [← hs] at ho hi2
  exact owned_end hi2 ho he hx

/-- If nothing is open for the arguments, a call runs the function up to its `yield`. If that fails the exception
is raised and nothing is open. -/
theorem C38_call {s : State K V W} (h : Reachable f s) {k : K} (hc : AllWritten (history k s.log)) :
    (∀ w v, f.first k s.world = (w, .ok v) → ∃ s1, step f s (.call k) = (s1, .handle s.handles.length) ∧
      s1.world = w ∧ s1.log = s.log ++ [.started k v] ∧ (step f s1 (.enter s.handles.length)).2 = .value v) ∧
    (∀ w e, f.first k s.world = (w, .error e) → ∃ s1, step f s (.call k) = (s1, .raised e) ∧
      s1.world = w ∧ s1.log = s.log ∧ s1.handles = s.handles) := by
  have hi := inv_reachable h
  have hn : ∀ v, s.generators k ≠ some (.suspended v) := by
    intro v hv
    rcases hi.logged k with ⟨v', l, -, h2, h3⟩ | ⟨h1, -⟩
    · rw [h2] at hc
      clear h2 hv
      induction h3 with
      | nil => cases hc
      | both h ih => cases hc with | both hc => exact ih hc
    · exact h1 v hv
  refine ⟨?_, ?_⟩
  · intro w v hf
    refine ⟨_, call_ok hn hf, rfl, rfl, ?_⟩
    have hi1 := inv_call (f := f) hi k
    rw [call_ok hn hf] at hi1
    simp only [step, get_append_right]
    rw [enter_value hi1 (set_same _ _ _) rfl rfl rfl]
  · intro w e hf
    exact ⟨_, call_error hn hf, rfl, rfl, rfl⟩

section
/-- the first object is 0, the second 1 etc.; writing back counts -/
private def counting : Function Bool Nat Nat := ⟨fun _ w => (w, .ok w), fun _ _ w => (w + 1, none)⟩

example : Reachable counting (run counting (State.init 0) [.call true, .call false, .call true, .enter 2, .enter 0]) :=
  ⟨0, _, rfl⟩
example : (run counting (State.init 0) [.call true, .call false, .call true, .enter 2, .enter 0, .exit 2 none,
    .exit 0 (some .typeError), .drop 1, .call true, .content 3]).log =
    [.started true 0, .started false 0, .finished true 0, .finished false 0, .started true 2, .finished true 2] := by decide
example : (step counting (run counting (State.init 0) [.call true, .enter 0, .call true]) (.enter 1)).2 = .value 0 := by decide

/-- A context that shares the object but is entered only after the one that created it has ended has no object. -/
theorem C38_late_violation : ∃ (s : State Bool Nat Nat), Reachable counting s ∧
    (step counting s (.call true)).2 = .handle 0 ∧
    (step counting (step counting s (.call true)).1 (.call true)).2 = .handle 1 ∧
    (step counting (run counting s [.call true, .call true, .content 0]) (.enter 1)).2 = .raised .runtimeError :=
  ⟨State.init 0, ⟨0, [], rfl⟩, by decide, by decide, by decide⟩
end

/-! ### C69 -/

/-- An exception leaves the `with` block, unless it is a `KeyError` and the context was not the first one with these
arguments, or writing back fails. -/
theorem C69_exception_partial {s : State K V W} (h : Reachable f s) {g : Nat} {x : Handle K}
    (hx : s.handles[g]? = some x) (hp : x.place = .inside) (e : Err) (hk : x.owner = false → e ≠ .keyError) :
    (step f s (.exit g (some e))).2 = .raised e ∨
    (x.owner = true ∧ ∃ v e', (f.second x.key v s.world).2 = some e' ∧
      (step f s (.exit g (some e))).2 = .raised e') := by
  have hi := inv_reachable h
  simp only [step, hx, exit, hp]
  cases ho : x.owner with
  | false =>
    left
    rw [finish_other (by simp [Live, ho])]
    have := hk ho
    simp [this]
  | true =>
    have hl : Live x := ⟨ho, by simp [hp]⟩
    obtain ⟨v, -, -, hr, -⟩ := finish_owner (f := f) hi ⟨x, hx, rfl, hl⟩ hl
    cases hf : finish f s g x with
    | mk s' r =>
      rw [hf] at hr
      cases r with
      | none => left; simp
      | some e' => right; exact ⟨rfl, v, e', hr.symm, rfl⟩

/-- Without an exception in the block, leaving it raises only what writing back raises. -/
theorem C69_no_exception {s : State K V W} (h : Reachable f s) {g : Nat} {x : Handle K}
    (hx : s.handles[g]? = some x) (hp : x.place = .inside) :
    (step f s (.exit g none)).2 = .done ∨
    (x.owner = true ∧ ∃ v e', (f.second x.key v s.world).2 = some e' ∧ (step f s (.exit g none)).2 = .raised e') := by
  have hi := inv_reachable h
  simp only [step, hx, exit, hp]
  cases ho : x.owner with
  | false =>
    left
    rw [finish_other (by simp [Live, ho])]
  | true =>
    have hl : Live x := ⟨ho, by simp [hp]⟩
    obtain ⟨v, -, -, hr, -⟩ := finish_owner (f := f) hi ⟨x, hx, rfl, hl⟩ hl
    cases hf : finish f s g x with
    | mk s' r =>
      rw [hf] at hr
      cases r with
      | none => left; rfl
      | some e' => right; exact ⟨rfl, v, e', hr.symm, rfl⟩

/-- A `KeyError` raised in the second of two nested `with` blocks of the same accessor is swallowed, whatever the
accessor is. -/
theorem C69_keyError_violation {w w' : W} {k : K} {v : V} (hf : f.first k w = (w', .ok v)) :
    (step f (run f (State.init w) [.call k, .enter 0, .call k, .enter 1]) (.exit 1 (some .keyError))).2 = .swallowed ∧
    (step f (run f (State.init w) [.call k, .enter 0]) (.exit 0 (some .keyError))).2 ≠ .swallowed := by
  constructor
  · simp [run, step, call, State.init, hf, Context.set, enter, mark, exit, finish]
  · intro hc
    have hr : Reachable f (run f (State.init w : State K V W) [.call k, .enter 0]) := ⟨w, _, rfl⟩
    have hx : (run f (State.init w) [.call k, .enter 0]).handles[0]? = some ⟨k, true, .inside, true⟩ := by
      simp [run, step, call, State.init, hf, Context.set, enter, mark]
    rcases C69_exception_partial hr hx rfl .keyError (by simp) with h | ⟨-, v, e', -, h⟩
    · rw [hc] at h; cases h
    · rw [hc] at h; cases h

example : counting.first true 0 = (0, .ok 0) := rfl

end Specfile.Props
