import Verif.Proof.Update4
/-
Lemmas about `update`: if references form a tree, values read as requested.
-/
namespace Specfile.Update
open Py Regex Spec Props Template

/-- what never changes -/
structure Shape (e e' : Entity) : Prop where
  name : e'.name = e.name
  isTag : e'.isTag = e.isTag
  position : e'.position = e.position
  disabled : e'.disabled = e.disabled

theorem Shape.refl (e : Entity) : Shape e e := ⟨rfl, rfl, rfl, rfl⟩
theorem Shape.trans {a b c : Entity} (h : Shape a b) (g : Shape b c) : Shape a c :=
  ⟨g.name.trans h.name, g.isTag.trans h.isTag, g.position.trans h.position, g.disabled.trans h.disabled⟩
theorem Shape.symm {a b : Entity} (h : Shape a b) : Shape b a :=
  ⟨h.name.symm, h.isTag.symm, h.position.symm, h.disabled.symm⟩

theorem Kept.shapes {a b c : List Entity} (h : Kept Shape a b) (g : Kept Shape b c) : Kept Shape a c :=
  Kept.trans (R := Shape) (S := Shape) (fun _ _ _ h g => Shape.trans h g) h g

theorem Kept.shape {p : Nat} {a b : List Entity} (h : Kept (Step p) a b) : Kept Shape a b :=
  ⟨h.length, fun i e e' he he' => let s := h.each i e e' he he'; ⟨s.name, s.isTag, s.position, s.disabled⟩⟩

/-- values change only inside `U`, names to be flipped are added only inside `T` -/
structure Change (U : Nat → Prop) (T : Str → Prop) (es es' : List Entity) : Prop where
  shape : Kept Shape es es'
  value : ∀ (i : Nat) e e', es[i]? = some e → es'[i]? = some e' → ¬ U i → e'.value = e.value ∧ e'.updated = e.updated
  flips : ∀ (i : Nat) e e', es[i]? = some e → es'[i]? = some e' → e'.flipPending = true → e.flipPending = true ∨ T e.name
  kept : ∀ (i : Nat) e e', es[i]? = some e → es'[i]? = some e' → e.flipPending = true → e'.flipPending = true

theorem Change.refl (U : Nat → Prop) (T : Str → Prop) (es : List Entity) : Change U T es es where
  shape := Kept.refl Shape.refl es
  value := by intro i e e' h h' _; rw [h] at h'; cases h'; exact ⟨rfl, rfl⟩
  flips := by intro i e e' h h' hf; rw [h] at h'; cases h'; exact .inl hf
  kept := by intro i e e' h h' hf; rw [h] at h'; cases h'; exact hf

theorem Change.mono {U U' : Nat → Prop} {T T' : Str → Prop} {es es' : List Entity} (h : Change U T es es')
    (hU : ∀ i, U i → U' i) (hT : ∀ x, T x → T' x) : Change U' T' es es' where
  shape := h.shape
  value i e e' a b c := h.value i e e' a b (fun d => c (hU i d))
  flips i e e' a b c := (h.flips i e e' a b c).imp id (hT _)
  kept := h.kept

theorem Change.trans {U : Nat → Prop} {T : Str → Prop} {a b c : List Entity} (h : Change U T a b) (g : Change U T b c) :
    Change U T a c where
  shape := h.shape.shapes g.shape
  value i e e' he he' hu := by
    obtain ⟨x, hx, hs⟩ := h.shape.get he
    have h1 := h.value i e x he hx hu
    have h2 := g.value i x e' hx he' hu
    exact ⟨h2.1.trans h1.1, h2.2.trans h1.2⟩
  flips i e e' he he' hf := by
    obtain ⟨x, hx, hs⟩ := h.shape.get he
    rcases g.flips i x e' hx he' hf with h1 | h1
    · exact h.flips i e x he hx h1
    · exact .inr (hs.name ▸ h1)
  kept i e e' he he' hf := by
    obtain ⟨x, hx, hs⟩ := h.shape.get he
    exact g.kept i x e' hx he' (h.kept i e x he hx hf)

theorem Change.modify {U : Nat → Prop} {T : Str → Prop} {es : List Entity} {i : Nat} {f : Entity → Entity}
    (hs : ∀ e, Shape e (f e) ∧ (f e).flipPending = e.flipPending)
    (hv : U i ∨ ∀ e, (f e).value = e.value ∧ (f e).updated = e.updated) : Change U T es (es.modify i f) := by
  have key : ∀ (j : Nat) e e', es[j]? = some e → (es.modify i f)[j]? = some e' → (i = j ∧ e' = f e) ∨ (i ≠ j ∧ e' = e) := by
    intro j e e' h h'
    rw [List.getElem?_modify, h] at h'
    by_cases hij : i = j
    · simp [hij] at h'; exact .inl ⟨hij, h'.symm⟩
    · simp [hij] at h'; exact .inr ⟨hij, h'.symm⟩
  refine ⟨Kept.modify Shape.refl (fun e _ => (hs e).1), ?_, ?_, ?_⟩
  · intro j e e' h h' hu
    rcases key j e e' h h' with ⟨rfl, rfl⟩ | ⟨-, rfl⟩
    · rcases hv with hv | hv
      · exact absurd hv hu
      · exact hv e
    · exact ⟨rfl, rfl⟩
  · intro j e e' h h' hf
    rcases key j e e' h h' with ⟨rfl, rfl⟩ | ⟨-, rfl⟩
    · rw [(hs e).2] at hf; exact .inl hf
    · exact .inl hf
  · intro j e e' h h' hf
    rcases key j e e' h h' with ⟨rfl, rfl⟩ | ⟨-, rfl⟩
    · rw [(hs e).2]; exact hf
    · exact hf

theorem designates_shape [Uni] {x : Str} {e e' : Entity} (h : Shape e e') : Designates x e' ↔ Designates x e := by
  unfold Designates; rw [h.isTag, h.name]

theorem closest_shape [Uni] {es es' : List Entity} (h : Kept Shape es es') {x : Str} {p i : Nat} (hc : Closest es x p i) :
    Closest es' x p i := by
  obtain ⟨⟨e, h1, h2, h3⟩, h4⟩ := hc
  obtain ⟨e', he', hs⟩ := h.get h1
  refine ⟨⟨e', he', hs.position ▸ h2, (designates_shape hs).mpr h3⟩, ?_⟩
  intro j f hj hf hp hd
  obtain ⟨g, hg, hs'⟩ := h.back hf
  exact h4 j g hj hg (hs'.position ▸ hp) ((designates_shape hs').mp hd)

theorem isTarget_iff [Uni] {x : Str} {p : Nat} {e : Entity} :
    isTarget x p e = true ↔ e.position < p ∧ Designates x e := by
  unfold isTarget Designates
  cases e.isTag <;> simp

theorem closest_iff [Uni] {es : List Entity} {x : Str} {p i : Nat} (h : closest es x p = some i) : Closest es x p i := by
  obtain ⟨e, h1, h2, h3⟩ := closest_some h
  rw [isTarget_iff] at h2
  refine ⟨⟨e, h1, h2⟩, fun j f hj hf hp hd => ?_⟩
  have := h3 j f hj hf
  rw [isTarget_iff.mpr ⟨hp, hd⟩] at this
  cases this

theorem references_ok [Uni] {v : Str} {nodes : List Node} (h : ValueParser.parse v = .ok nodes) :
    references v = referredAll nodes ∧ tests v = testedAll nodes := by
  simp [references, tests, h]

/-- how a text reads depends only on the entities under it -/
theorem reading_stable [Uni] {ex : Str → Except Err Str} {es0 n n' : List Entity} {p : Nat} {t w q : Str}
    (hr : Reading ex es0 n p t w q) (h0 : Kept Shape es0 n) (h1 : Kept Shape n n')
    (hv : ∀ x ∈ references t, ∀ i, Under es0 p x i → ∀ e e', n[i]? = some e → n'[i]? = some e' →
      e'.value = e.value ∧ e'.updated = e.updated)
    (hf : ∀ z, z ∈ tests t ∨ (∃ x ∈ references t, TestedUnder es0 p x z) → ∀ (i : Nat) e e', n[i]? = some e →
      n'[i]? = some e' → e.name = z → e'.flipPending = e.flipPending) :
    Reading ex es0 n' p t w q := by
  induction hr with
  | replaced => exact .replaced
  | @rewritten p v w q nodes entities flips ps d target a1 a2 a3 a4 a5 a6 a7 a8 ih =>
    obtain ⟨r1, r2⟩ := references_ok a1
    have href : ∀ x s, Part.reference x s ∈ ps → x ∈ references v := fun x s h => r1 ▸ parts_referred a4 h
    have hunder : ∀ x s y, Part.reference x s ∈ ps → d x = some y → ∀ e, es0[target x]? = some e →
        e.position < p ∧ Designates x e := by
      intro x s y hx hy e he
      obtain ⟨⟨⟨f, b1, b2, b3⟩, -⟩, -⟩ := a7 x s y hx hy
      have hs := h0.each _ _ _ he b1
      exact ⟨hs.position ▸ b2, (designates_shape hs).mp b3⟩
    refine .rewritten (target := target) a1 a2 ?_ a4 a5 a6 ?_ ?_
    · intro x hx
      rw [a3 x hx]
      have hfx := hf x (.inl (r2 ▸ hx))
      constructor
      · rintro ⟨e, he, hp, hn, hfl⟩
        obtain ⟨i, hi⟩ := List.getElem?_of_mem he
        obtain ⟨e', he', hs⟩ := h1.get hi
        exact ⟨e', List.mem_of_getElem? he', hs.position ▸ hp, hs.name ▸ hn, by rw [hfx i e e' hi he' hn]; exact hfl⟩
      · rintro ⟨e', he', hp, hn, hfl⟩
        obtain ⟨i, hi⟩ := List.getElem?_of_mem he'
        obtain ⟨e, he, hs⟩ := h1.back hi
        have hn' : e.name = x := hs.name ▸ hn
        exact ⟨e, List.mem_of_getElem? he, hs.position ▸ hp, hn', by rw [← hfx i e e' he hi hn']; exact hfl⟩
    · intro x s y hx hy
      obtain ⟨c1, e, e', c2, c3, c4, c5⟩ := a7 x s y hx hy
      obtain ⟨f, hf', hs⟩ := h1.get c3
      refine ⟨closest_shape h1 c1, e, f, c2, hf', ?_, c5⟩
      obtain ⟨u1, u2⟩ := hunder x s y hx hy e c2
      rw [(hv x (href x s hx) (target x) (.here c2 u1 u2) e' f c3 hf').2]
      exact c4
    · intro x s y e f hx hy he hf'
      obtain ⟨e', he', hs⟩ := h1.back hf'
      obtain ⟨u1, u2⟩ := hunder x s y hx hy e he
      rw [(hv x (href x s hx) (target x) (.here he u1 u2) e' f he' hf').1]
      refine ih x s y e e' hx hy he he' ?_ ?_
      · intro x' hx' i hi
        exact hv x (href x s hx) i (.child he u1 u2 hx' hi)
      · intro z hz
        refine hf z (.inr ⟨x, href x s hx, ?_⟩)
        rcases hz with hz | ⟨x', hx', i, f, b1, b2, b3⟩
        · exact ⟨target x, e, .here he u1 u2, he, hz⟩
        · exact ⟨i, f, .child he u1 u2 hx' b1, b2, b3⟩

/-- entities called `z` are not going to be flipped -/
def Calm (es : List Entity) (z : Str) : Prop := ∀ e ∈ es, e.name = z → e.flipPending = false

/-- the entities under the reference have their old values -/
def Fresh [Uni] (es0 es : List Entity) (p : Nat) (x : Str) : Prop :=
  ∀ i, Under es0 p x i → ∀ e e', es0[i]? = some e → es[i]? = some e' → e'.value = e.value

theorem Calm.change {U : Nat → Prop} {T : Str → Prop} {es es' : List Entity} (h : Change U T es es') {z : Str}
    (hc : Calm es z) (hz : ¬ T z) : Calm es' z := by
  intro e' he' hn
  obtain ⟨i, hi⟩ := List.getElem?_of_mem he'
  obtain ⟨e, he, hs⟩ := h.shape.back hi
  cases hf : e'.flipPending with
  | false => rfl
  | true =>
    have hn' : e.name = z := hs.name ▸ hn
    rcases h.flips i e e' he hi hf with h1 | h1
    · rw [hc e (List.mem_of_getElem? he) hn'] at h1; cases h1
    · exact absurd (hn' ▸ h1) hz

theorem Fresh.change [Uni] {U : Nat → Prop} {T : Str → Prop} {es0 es es' : List Entity} (h : Change U T es es') {p : Nat} {x : Str}
    (hc : Fresh es0 es p x) (hx : ∀ i, Under es0 p x i → ¬ U i) : Fresh es0 es' p x := by
  intro i hi e e' he he'
  obtain ⟨f, hf, hs⟩ := h.shape.back he'
  rw [(h.value i f e' hf he' (hx i hi)).1]
  exact hc i hi e f he hf

/-- what a call of `update` guarantees -/
def Guarantee [Uni] (ex : Str → Except Err Str) (es0 : List Entity) (p0 : Nat) (v0 : Str) (rec : Rec) : Prop :=
  ∀ {s t p}, Text es0 p0 v0 s t p → ∀ {q es v' es'}, q ≠ [] → '\n' ∉ q → rec t q p es = .ok (v', es') →
    Kept Shape es0 es → (∀ x ∈ references t, Fresh es0 es p x) →
    (∀ z, z ∈ tests t ∨ z ∈ references t ∨ (∃ x ∈ references t, UsedUnder es0 p x z) → Calm es z) →
    Change (fun i => ∃ x ∈ references t, Under es0 p x i)
      (fun z => z ∈ tests t ∨ ∃ x ∈ references t, TestedUnder es0 p x z) es es' ∧ Reading ex es0 es' p t v' q

mutual
theorem refersNode_iff [Uni] {e : Entity} : ∀ (n : Node), refersNode e n = true ↔
    ∃ x ∈ mentioned n, isNamed e x = true
  | .lit _ => by simp [refersNode, mentioned]
  | .shell _ => by simp [refersNode, mentioned]
  | .expr _ => by simp [refersNode, mentioned]
  | .builtin _ _ => by simp [refersNode, mentioned]
  | .sub _ _ => by simp [refersNode, mentioned]
  | .encl _ _ _ => by simp [refersNode, mentioned]
  | .cond _ _ b => by simp [refersNode, mentioned, refers_iff b]
theorem refers_iff [Uni] {e : Entity} : ∀ (ns : List Node), refers e ns = true ↔
    ∃ x ∈ mentionedAll ns, isNamed e x = true
  | [] => by simp [refers, mentionedAll]
  | n :: ns => by
    simp only [refers, mentionedAll, Bool.or_eq_true, refersNode_iff n, refers_iff ns, List.mem_append]
    grind
end

theorem independent_of [Uni] {e e0 : Entity} (hs : Shape e0 e) {val : Str} (h : findReference e val = .ok false) :
    Independent e0 val := by
  unfold findReference at h
  split at h
  · cases h
  · rename_i ns hn
    simp only [Except.ok.injEq] at h
    refine ⟨ns, hn, fun x hx => ?_⟩
    have h2 : ¬ isNamed e x = true := fun hh => by
      rw [(refers_iff ns).mpr ⟨x, hx, hh⟩] at h; cases h
    unfold isNamed at h2
    rw [hs.isTag, hs.name] at h2
    simp only [Bool.or_eq_true, Bool.and_eq_true, beq_iff_eq, not_or, not_and] at h2
    exact ⟨fun hh => h2.2 hh.symm, fun hh hl => h2.1 hh hl.symm⟩

theorem updateGroups_reading [Uni] {ex : Str → Except Err Str} {es0 : List Entity} {p0 : Nat} {v0 : Str} {rec : Rec}
    (tree : TreeLike es0 p0 v0)
    (hrec : Guarantee ex es0 p0 v0 rec) {s : Option Nat} {t : Str} {p : Nat} (ht : Text es0 p0 v0 s t p) :
    ∀ {d : List (Str × Str)} {es es' : List Entity} {b : Bool}, (d.map (·.1)).Nodup →
      (∀ gv ∈ d, ¬ s% "sub_" <+: gv.1 → gv.1 ∈ references t ∧ gv.2 ≠ [] ∧ '\n' ∉ gv.2) → Kept Shape es0 es →
      (∀ x ∈ references t, x ∈ d.map (·.1) → Fresh es0 es p x) →
      (∀ x ∈ references t, x ∈ d.map (·.1) → ∀ z, UsedUnder es0 p x z → Calm es z) →
      updateGroups rec p d es = .ok (b, es') →
      Change (fun i => ∃ x ∈ references t, x ∈ d.map (·.1) ∧ Under es0 p x i)
        (fun z => ∃ x ∈ references t, x ∈ d.map (·.1) ∧ TestedUnder es0 p x z) es es' ∧
      (b = true → ∀ gv ∈ d, ¬ s% "sub_" <+: gv.1 → ∃ i e e', Closest es' gv.1 p i ∧ es0[i]? = some e ∧ es'[i]? = some e' ∧
        e'.updated = true ∧ Independent e gv.2 ∧ Reading ex es0 es' e.position e.value e'.value gv.2) := by
  intro d
  induction d with
  | nil =>
    intro es es' b _ _ _ _ _ h
    simp only [updateGroups] at h
    cases h
    exact ⟨.refl _ _ _, by simp⟩
  | cons gv d ih =>
    intro es es' b hnd hd h0 hfr hca h
    obtain ⟨g, w⟩ := gv
    simp only [List.map_cons, List.nodup_cons] at hnd
    unfold updateGroups at h
    have hmono : ∀ {a b}, Change (fun i => ∃ x ∈ references t, x ∈ d.map (·.1) ∧ Under es0 p x i)
        (fun z => ∃ x ∈ references t, x ∈ d.map (·.1) ∧ TestedUnder es0 p x z) a b →
        Change (fun i => ∃ x ∈ references t, x ∈ ((g, w) :: d).map (·.1) ∧ Under es0 p x i)
        (fun z => ∃ x ∈ references t, x ∈ ((g, w) :: d).map (·.1) ∧ TestedUnder es0 p x z) a b := by
      intro a b hc
      refine hc.mono ?_ ?_
      · rintro i ⟨x, h1, h2, h3⟩; exact ⟨x, h1, by simp only [List.map_cons, List.mem_cons]; exact .inr h2, h3⟩
      · rintro i ⟨x, h1, h2, h3⟩; exact ⟨x, h1, by simp only [List.map_cons, List.mem_cons]; exact .inr h2, h3⟩
    have hsub : ∀ x, x ∈ d.map (·.1) → x ∈ ((g, w) :: d).map (·.1) := by
      intro x hx; simp only [List.map_cons, List.mem_cons]; exact .inr hx
    split at h
    · rename_i hsubg
      simp only [startsWith, List.isPrefixOf_iff_prefix] at hsubg
      obtain ⟨c1, c2⟩ := ih hnd.2 (fun gv hgv => hd gv (.tail _ hgv)) h0 (fun x hx hxd => hfr x hx (hsub x hxd))
        (fun x hx hxd => hca x hx (hsub x hxd)) h
      refine ⟨hmono c1, fun hb gv hgv hns => ?_⟩
      rcases List.mem_cons.mp hgv with rfl | hgv
      · exact absurd hsubg hns
      · exact c2 hb gv hgv hns
    · rename_i hsubg
      simp only [startsWith, List.isPrefixOf_iff_prefix] at hsubg
      obtain ⟨hgref, hwne, hwline⟩ := hd (g, w) (.head _) hsubg
      split at h
      · cases h
      · rename_i i hi
        have hcl := closest_iff hi
        obtain ⟨⟨e, he, hpos, hdes⟩, -⟩ := id hcl
        rw [he] at h
        simp only at h
        split at h
        · cases h; exact ⟨.refl _ _ _, by simp⟩
        · split at h
          · cases h
          · cases h; exact ⟨.refl _ _ _, by simp⟩
          · rename_i hfind
            split at h
            · cases h
            · rename_i v es1 hr
              obtain ⟨e0, he0, hs0⟩ := h0.back he
              have hpos0 : e0.position < p := hs0.position ▸ hpos
              have hdes0 : Designates g e0 := (designates_shape hs0).mp hdes
              have hund : Under es0 p g i := .here he0 hpos0 hdes0
              have hgd : g ∈ ((g, w) :: d).map (·.1) := by simp
              have hval : e.value = e0.value := hfr g hgref hgd i hund e0 e he0 he
              have htext : Text es0 p0 v0 (some i) e0.value e0.position :=
                ⟨e0, he0, by have := text_position ht; omega, rfl, rfl⟩
              rw [hval, hs0.position] at hr
              -- the nested call
              have hlock : Change (fun _ => False) (fun _ => False) es (es.modify i (fun e => { e with locked := true })) :=
                .modify (fun e => ⟨⟨rfl, rfl, rfl, rfl⟩, rfl⟩) (.inr fun e => ⟨rfl, rfl⟩)
              obtain ⟨n1, n2⟩ := hrec htext hwne hwline hr (h0.shapes hlock.shape)
                (fun x hx => Fresh.change (p := e0.position) hlock
                  (fun j hj => hfr g hgref hgd j (.child he0 hpos0 hdes0 hx hj)) (fun _ _ h => h))
                (fun z hz => Calm.change hlock (hca g hgref hgd z (by
                  rcases hz with hz | hz | ⟨x, hx, j, f, f1, f2, f3⟩
                  · exact ⟨i, e0, hund, he0, .inl hz⟩
                  · exact ⟨i, e0, hund, he0, .inr hz⟩
                  · exact ⟨j, f, .child he0 hpos0 hdes0 hx f1, f2, f3⟩)) (fun h => h))
              -- all changes up to the rest of the groups
              have hset : Change (fun j => j = i) (fun _ => False) es1
                  (es1.modify i (fun e => { e with value := v, locked := false, updated := true })) :=
                .modify (fun e => ⟨⟨rfl, rfl, rfl, rfl⟩, rfl⟩) (.inl rfl)
              have hall : Change (fun j => Under es0 p g j) (fun z => TestedUnder es0 p g z) es
                  (es1.modify i (fun e => { e with value := v, locked := false, updated := true })) := by
                refine .trans (hlock.mono (fun _ h => h.elim) (fun _ h => h.elim)) (.trans (n1.mono ?_ ?_)
                  (hset.mono ?_ (fun _ h => h.elim)))
                · rintro j ⟨x, hx, hj⟩; exact .child he0 hpos0 hdes0 hx hj
                · rintro z (hz | ⟨x, hx, j, f, f1, f2, f3⟩)
                  · exact ⟨i, e0, hund, he0, hz⟩
                  · exact ⟨j, f, .child he0 hpos0 hdes0 hx f1, f2, f3⟩
                · rintro j rfl; exact hund
              have hne : ∀ x, x ∈ d.map (·.1) → g ≠ x := fun x hx hh => hnd.1 (hh ▸ hx)
              have hshape := h0.shapes hall.shape
              obtain ⟨c1, c2⟩ := ih hnd.2 (fun gv hgv => hd gv (.tail _ hgv)) hshape
                (fun x hx hxd => Fresh.change hall (hfr x hx (hsub x hxd))
                  (fun j hj hj' => under_disjoint tree ht hgref hx (hne x hxd) hj' hj))
                (fun x hx hxd z hz => Calm.change hall (hca x hx (hsub x hxd) z hz)
                  (fun hz' => tested_disjoint tree ht hgref hx (hne x hxd) hz' hz)) h
              refine ⟨.trans (hall.mono ?_ ?_) (hmono c1), fun hb gv hgv hns => ?_⟩
              · intro j hj; exact ⟨g, hgref, hgd, hj⟩
              · intro z hz; exact ⟨g, hgref, hgd, hz⟩
              · rcases List.mem_cons.mp hgv with rfl | hgv
                · -- the entity after the nested call
                  obtain ⟨f1, hf1, hsf1⟩ := (hlock.shape.shapes n1.shape).get he
                  have hf2 : (es1.modify i (fun e => { e with value := v, locked := false, updated := true }))[i]? =
                      some { f1 with value := v, locked := false, updated := true } := by
                    rw [List.getElem?_modify, hf1]; simp
                  obtain ⟨f3, hf3, hsf3⟩ := c1.shape.get hf2
                  have hout : ¬ ∃ x ∈ references t, x ∈ d.map (·.1) ∧ Under es0 p x i := by
                    rintro ⟨x, hx, hxd, hu⟩
                    exact under_disjoint tree ht hgref hx (hne x hxd) hund hu
                  obtain ⟨v1, v2⟩ := c1.value i _ _ hf2 hf3 hout
                  refine ⟨i, e0, f3, closest_shape (hall.shape.shapes c1.shape) hcl, he0, hf3, v2.trans rfl,
                    independent_of hs0 hfind, ?_⟩
                  have hv3 : f3.value = v := v1
                  rw [hv3]
                  refine reading_stable n2 (h0.shapes (hlock.shape.shapes n1.shape)) (hset.shape.shapes c1.shape) ?_ ?_
                  · intro x hx j hj a b ha hb
                    have hju : Under es0 p g j := .child he0 hpos0 hdes0 hx hj
                    have hji : j ≠ i := by
                      rintro rfl
                      obtain ⟨_, k1, k2⟩ := hj.position
                      rw [he0] at k1; cases k1
                      omega
                    obtain ⟨m, hm, -⟩ := hset.shape.get ha
                    have q1 := hset.value j a m ha hm hji
                    have q2 := c1.value j m b hm hb (by
                      rintro ⟨y, hy, hyd, hu⟩
                      exact under_disjoint tree ht hgref hy (hne y hyd) hju hu)
                    exact ⟨q2.1.trans q1.1, q2.2.trans q1.2⟩
                  · intro z hz j a b ha hb hn
                    have hzu : TestedUnder es0 p g z := by
                      rcases hz with hz | ⟨x, hx, j, f, f1, f2, f3⟩
                      · exact ⟨i, e0, hund, he0, hz⟩
                      · exact ⟨j, f, .child he0 hpos0 hdes0 hx f1, f2, f3⟩
                    obtain ⟨m, hm, hsm⟩ := hset.shape.get ha
                    cases hfl : a.flipPending with
                    | true => exact c1.kept j m b hm hb (hset.kept j a m ha hm hfl)
                    | false =>
                      cases hfb : b.flipPending with
                      | false => rfl
                      | true =>
                        rcases c1.flips j m b hm hb hfb with h5 | ⟨y, hy, hyd, hu⟩
                        · rcases hset.flips j a m ha hm h5 with h6 | h6
                          · rw [hfl] at h6; cases h6
                          · exact h6.elim
                        · refine (tested_disjoint tree ht hy hgref (fun hh => hne y hyd hh.symm) hu ?_).elim
                          obtain ⟨k, f, k1, k2, k3⟩ := hzu
                          exact ⟨k, f, k1, k2, .inl (by rw [hsm.name, hn]; exact k3)⟩
                · exact c2 hb gv hgv hns

theorem rewritten_value [Uni] {d : Str → Option Str} {near : Bool} {ps : List Part} {t r : Str}
    (h : Rewritten d near ps t r) {x s : Str} (hx : Part.reference x s ∈ ps) : ∃ w, d x = some w ∧ w ≠ [] ∧ '\n' ∉ w := by
  induction h with
  | nil => cases hx
  | constant _ ih => simp at hx; exact ih hx
  | literal _ _ ih => simp at hx; exact ih hx
  | reference h1 h2 h3 _ ih =>
    simp only [List.mem_cons, Part.reference.injEq] at hx
    rcases hx with ⟨rfl, -⟩ | hx
    · exact ⟨_, h1, h2, h3⟩
    · exact ih hx

theorem mem_groupItems {B : Built} {m : St Str} {g w : Str} :
    (g, w) ∈ groupItems B m ↔ g ∈ B.groups ∧ m.get g = some w := by
  simp only [groupItems, List.mem_filterMap, Option.map_eq_some_iff, Prod.mk.injEq]
  constructor
  · rintro ⟨a, h1, b, h2, rfl, rfl⟩; exact ⟨h1, h2⟩
  · rintro ⟨h1, h2⟩; exact ⟨g, h1, w, h2, rfl, rfl⟩

theorem groupItems_nodup {B : Built} {m : St Str} (h : B.groups.Nodup) : ((groupItems B m).map (·.1)).Nodup := by
  unfold groupItems
  generalize B.groups = l at h
  induction l with
  | nil => simp
  | cons g l ih =>
    rw [List.nodup_cons] at h
    rw [List.filterMap_cons]
    cases hg : m.get g with
    | none => simp only [Option.map_none]; exact ih h.2
    | some w =>
      simp only [Option.map_some, List.map_cons, List.nodup_cons]
      refine ⟨?_, ih h.2⟩
      intro hh
      simp only [List.mem_map, List.mem_filterMap, Option.map_eq_some_iff] at hh
      obtain ⟨_, ⟨a, h1, b, h2, rfl⟩, rfl⟩ := hh
      exact h.1 h1

theorem mem_modifiable [Uni] {es : List Entity} {p : Nat} {x : Str} (hc : Calm es x) :
    x ∈ modifiable es p ↔ Available es p x := by
  simp only [modifiable, Available, List.mem_append, List.mem_map, List.mem_filter, Bool.and_eq_true, decide_eq_true_eq,
    Bool.or_eq_true, Bool.not_eq_true']
  constructor
  · rintro (⟨e, ⟨h1, h2, -⟩, h4⟩ | ⟨e, ⟨h1, h2, h3⟩, h4⟩)
    · exact ⟨e, h1, h2, .inl h4⟩
    · exact ⟨e, h1, h2, .inr ⟨h3, h4⟩⟩
  · rintro ⟨e, h1, h2, h3 | ⟨h3, h4⟩⟩
    · exact .inl ⟨e, ⟨h1, h2, .inl (hc e h1 h3)⟩, h3⟩
    · exact .inr ⟨e, ⟨h1, h2, h3⟩, h4⟩

theorem available_shape [Uni] {es es' : List Entity} (h : Kept Shape es es') {p : Nat} {x : Str} :
    Available es' p x ↔ Available es p x := by
  constructor
  · rintro ⟨e', h1, h2, h3⟩
    obtain ⟨i, hi⟩ := List.getElem?_of_mem h1
    obtain ⟨e, he, hs⟩ := h.back hi
    exact ⟨e, List.mem_of_getElem? he, hs.position ▸ h2, hs.name ▸ hs.isTag ▸ h3⟩
  · rintro ⟨e, h1, h2, h3⟩
    obtain ⟨i, hi⟩ := List.getElem?_of_mem h1
    obtain ⟨e', he, hs⟩ := h.get hi
    exact ⟨e', List.mem_of_getElem? he, hs.position ▸ h2, by rw [hs.name, hs.isTag]; exact h3⟩

theorem flip_get {flips : List Str} {p : Nat} {es : List Entity} {i : Nat} {e' : Entity}
    (h : (flip flips p es)[i]? = some e') : ∃ e, es[i]? = some e ∧
      e' = (if e.position < p ∧ flips.contains e.name then { e with flipPending := true } else e) := by
  simp only [flip, List.getElem?_map, Option.map_eq_some_iff] at h
  obtain ⟨e, h1, h2⟩ := h
  exact ⟨e, h1, h2.symm⟩

theorem flip_change {flips : List Str} {p : Nat} (es : List Entity) :
    Change (fun _ => False) (fun z => z ∈ flips) es (flip flips p es) where
  shape := (flip_kept (pos := p) es).shape
  value i e e' he he' _ := by
    obtain ⟨f, hf, rfl⟩ := flip_get he'
    rw [he] at hf; cases hf
    split <;> exact ⟨rfl, rfl⟩
  flips i e e' he he' hfl := by
    obtain ⟨f, hf, rfl⟩ := flip_get he'
    rw [he] at hf; cases hf
    split at hfl
    · rename_i h; exact .inr (by simpa using h.2)
    · exact .inl hfl
  kept i e e' he he' hfl := by
    obtain ⟨f, hf, rfl⟩ := flip_get he'
    rw [he] at hf; cases hf
    split
    · rfl
    · exact hfl

theorem applyMatch_reading [Uni] {isIdent : Str → Bool} {ex : Str → Except Err Str} {es0 : List Entity} {p0 : Nat}
    {v0 : Str} {rec : Rec} (tree : TreeLike es0 p0 v0) (hrec : Guarantee ex es0 p0 v0 rec) {s : Option Nat} {t : Str} {p : Nat}
    (ht : Text es0 p0 v0 s t p) {q v' : Str} {es es' : List Entity} {F flips : List Str} {B : Built} {m : St Str}
    (hF : ∀ x ∈ F, x ∈ flippable es p) (hB : construct isIdent ex (modifiable es p) F t = .ok (B, flips))
    (hm : rmatch B.re q = some m) (hne : q ≠ []) (hline : '\n' ∉ q)
    (h : applyMatch rec q p es B flips m = .ok (v', es')) (h0 : Kept Shape es0 es)
    (hfr : ∀ x ∈ references t, Fresh es0 es p x)
    (hca : ∀ z, z ∈ tests t ∨ z ∈ references t ∨ (∃ x ∈ references t, UsedUnder es0 p x z) → Calm es z) :
    Change (fun i => ∃ x ∈ references t, Under es0 p x i)
      (fun z => z ∈ tests t ∨ ∃ x ∈ references t, TestedUnder es0 p x z) es es' ∧ Reading ex es0 es' p t v' q := by
  obtain ⟨nodes, ps, text, m1, m2, m3, m4, m5, m6, m7, m8, m9⟩ := construct_match hB hm hne hline
  obtain ⟨r1, r2⟩ := references_ok m1
  have href : ∀ x s, Part.reference x s ∈ ps → x ∈ references t := fun x s h => r1 ▸ parts_referred m2 h
  have hitems : ∀ gv ∈ groupItems B m, ¬ s% "sub_" <+: gv.1 → gv.1 ∈ references t ∧ gv.2 ≠ [] ∧ '\n' ∉ gv.2 := by
    rintro ⟨g, w⟩ hgv hns
    rw [mem_groupItems] at hgv
    rcases m8 g hgv.1 with h | ⟨u, hu⟩
    · exact absurd h hns
    · obtain ⟨w', k1, k2, k3⟩ := rewritten_value m4 hu
      rw [hgv.2] at k1; cases k1
      exact ⟨href g u hu, k2, k3⟩
  have hgroups : ∀ {b es1}, updateGroups rec p (groupItems B m) es = .ok (b, es1) → _ := fun hg =>
    updateGroups_reading tree hrec ht (groupItems_nodup m7) hitems h0 (fun x hx _ => hfr x hx)
      (fun x hx _ z hz => hca z (.inr (.inr ⟨x, hx, hz⟩))) hg
  have hmono : ∀ {a b}, Change (fun i => ∃ x ∈ references t, x ∈ (groupItems B m).map (·.1) ∧ Under es0 p x i)
      (fun z => ∃ x ∈ references t, x ∈ (groupItems B m).map (·.1) ∧ TestedUnder es0 p x z) a b →
      Change (fun i => ∃ x ∈ references t, Under es0 p x i)
        (fun z => z ∈ tests t ∨ ∃ x ∈ references t, TestedUnder es0 p x z) a b := fun hc =>
    hc.mono (fun i ⟨x, h1, _, h2⟩ => ⟨x, h1, h2⟩) (fun z ⟨x, h1, _, h2⟩ => .inr ⟨x, h1, h2⟩)
  unfold applyMatch at h
  split at h
  · cases h
  · rename_i es1 hg
    cases h
    exact ⟨hmono (hgroups hg).1, .replaced⟩
  · rename_i es1 hg
    rw [m5] at h
    simp only at h
    cases h
    obtain ⟨c1, c2⟩ := hgroups hg
    have hfc := flip_change (flips := flips) (p := p) es1
    have hft : ∀ z, z ∈ flips → z ∈ tests t := fun z hz => r2 ▸ (m6 z hz).2.2
    have hsh1 := h0.shapes c1.shape
    refine ⟨.trans (hmono c1) (hfc.mono (fun _ h => h.elim) (fun z hz => .inl (hft z hz))), ?_⟩
    have hchoice : ∀ x, ∃ i, ∀ sx y, Part.reference x sx ∈ ps → m.get x = some y → ∃ e e', Closest es1 x p i ∧
        es0[i]? = some e ∧ es1[i]? = some e' ∧ e'.updated = true ∧ Independent e y ∧
        Reading ex es0 es1 e.position e.value e'.value y := by
      intro x
      by_cases hx : ∃ sx y, Part.reference x sx ∈ ps ∧ m.get x = some y
      · obtain ⟨sx, y, h1, h2⟩ := hx
        obtain ⟨i, e, e', k⟩ := c2 rfl (x, y) (mem_groupItems.mpr ⟨m9 x sx h1, h2⟩) (tree.names ht (href x sx h1))
        refine ⟨i, fun _ y' _ hy' => ?_⟩
        rw [h2] at hy'; cases hy'
        exact ⟨e, e', k⟩
      · exact ⟨0, fun sx y h1 h2 => absurd ⟨sx, y, h1, h2⟩ hx⟩
    obtain ⟨target, htarget⟩ := Classical.axiomOfChoice hchoice
    refine .rewritten (target := target) m1 ?_ ?_ m2 m3 m4 ?_ ?_
    · intro x hx
      rw [← available_shape h0]
      refine mem_modifiable (hca x ?_)
      rcases hx with hx | hx
      · exact .inr (.inl (r1 ▸ hx))
      · exact .inl (r2 ▸ hx)
    · intro x hx
      have hxt : x ∈ tests t := r2 ▸ hx
      constructor
      · intro hxf
        have := hF x (m6 x hxf).1
        simp only [flippable, List.mem_map, List.mem_filter, Bool.and_eq_true, decide_eq_true_eq] at this
        obtain ⟨e, ⟨k1, ⟨k2, -⟩, -⟩, k4⟩ := this
        obtain ⟨i, hi⟩ := List.getElem?_of_mem k1
        obtain ⟨e1, he1, hs1⟩ := c1.shape.get hi
        refine ⟨{ e1 with flipPending := true }, ?_, hs1.position ▸ k2, hs1.name.trans k4, rfl⟩
        simp only [flip, List.mem_map]
        refine ⟨e1, List.mem_of_getElem? he1, ?_⟩
        rw [if_pos ⟨hs1.position ▸ k2, by rw [hs1.name, k4]; simpa using hxf⟩]
      · rintro ⟨e', he', -, k2, k3⟩
        obtain ⟨i, hi⟩ := List.getElem?_of_mem he'
        obtain ⟨e1, he1, hs1⟩ := hfc.shape.back hi
        rcases hfc.flips i e1 e' he1 hi k3 with k4 | k4
        · have hcalm : Calm es1 x := Calm.change c1 (hca x (.inl hxt)) (by
            rintro ⟨y, hy, -, hty⟩
            exact tested_outside tree ht hty (.inl hxt))
          rw [hcalm e1 (List.mem_of_getElem? he1) (hs1.name ▸ k2)] at k4; cases k4
        · rw [← hs1.name, k2] at k4; exact k4
    · intro x sx y hx hy
      obtain ⟨e, e', k1, k2, k3, k4, k5, -⟩ := htarget x sx y hx hy
      obtain ⟨f, hf, -⟩ := hfc.shape.get k3
      exact ⟨closest_shape hfc.shape k1, e, f, k2, hf, (hfc.value _ _ _ k3 hf (fun h => h)).2.trans k4, k5⟩
    · intro x sx y e f hx hy he hf
      obtain ⟨e', e1, k1, k2, k3, k4, k5, k6⟩ := htarget x sx y hx hy
      rw [he] at k2; cases k2
      rw [(hfc.value _ _ _ k3 hf (fun h => h)).1]
      have hs := hsh1.each _ _ _ he k3
      obtain ⟨⟨g, l1, l2, l3⟩, -⟩ := k1
      rw [k3] at l1; cases l1
      have hpos : e.position < p := hs.position ▸ l2
      have hdes : Designates x e := (designates_shape hs).mp l3
      refine reading_stable k6 hsh1 hfc.shape ?_ ?_
      · intro z hz i hi a b ha hb
        exact hfc.value i a b ha hb (fun h => h)
      · intro z hz i a b ha hb hn
        cases hfa : a.flipPending with
        | true => exact hfc.kept i a b ha hb hfa
        | false =>
          cases hfb : b.flipPending with
          | false => rfl
          | true =>
            rcases hfc.flips i a b ha hb hfb with k | k
            · rw [hfa] at k; cases k
            · rw [hn] at k
              refine (tested_outside tree ht (x := x) (z := z) ?_ (.inl (hft z k))).elim
              rcases hz with hz | ⟨y', hy', j, f', f1, f2, f3⟩
              · exact ⟨target x, e, .here he hpos hdes, he, hz⟩
              · exact ⟨j, f', .child he hpos hdes hy' f1, f2, f3⟩

theorem update_guarantee [Uni] {isIdent : Str → Bool} {ex : Str → Except Err Str} {es0 : List Entity} {p0 : Nat} {v0 : Str}
    (tree : TreeLike es0 p0 v0) : ∀ fuel, Guarantee ex es0 p0 v0 (update isIdent ex fuel) := by
  intro fuel
  induction fuel with
  | zero => intro s t p _ q es v' es' _ _ h; simp [update] at h
  | succ fuel ih =>
    intro s t p ht q es v' es' hne hline h h0 hfr hca
    unfold update at h
    split at h
    · rename_i heq
      cases h
      exact ⟨.refl _ _ _, .replaced⟩
    · split at h
      · cases h
      · rename_i B flips hB
        split at h
        · rename_i m hm
          exact applyMatch_reading tree ih ht (fun _ h => h) hB hm hne hline h h0 hfr hca
        · split at h
          · cases h
          · rename_i B' flips' hB'
            split at h
            · rename_i m hm
              exact applyMatch_reading tree ih ht (by simp) hB' hm hne hline h h0 hfr hca
            · cases h
              exact ⟨.refl _ _ _, .replaced⟩

end Specfile.Update
