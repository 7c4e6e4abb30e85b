import Verif.Proof.Repeat
/-
Lemmas for C97: after an update, the same update finds everything as it has to be.
-/
namespace Specfile.Update
open Py Regex Spec Props Template

/-- what identifies an entity -/
structure Same (e e' : Entity) : Prop where
  name : e'.name = e.name
  isTag : e'.isTag = e.isTag
  position : e'.position = e.position

theorem Kept.weaken {R S : Entity → Entity → Prop} (hRS : ∀ a b, R a b → S a b) {a b : List Entity} (h : Kept R a b) :
    Kept S a b :=
  ⟨h.length, fun i e e' he he' => hRS _ _ (h.each i e e' he he')⟩

theorem Kept.same {a b : List Entity} (h : Kept Shape a b) : Kept Same a b :=
  h.weaken fun _ _ s => ⟨s.name, s.isTag, s.position⟩

/-- an entity without what changes -/
def bare (e : Entity) : Entity :=
  { e with value := [], disabled := false, locked := false, updated := false, flipPending := false }

theorem Kept.bare {a b : List Entity} (h : Kept Same a b) : b.map bare = a.map bare := by
  apply List.ext_getElem?
  intro i
  rw [List.getElem?_map, List.getElem?_map]
  cases ha : a[i]? with
  | none =>
    have : b[i]? = none := by
      cases hb : b[i]? with
      | none => rfl
      | some e => obtain ⟨f, hf, -⟩ := h.back hb; rw [ha] at hf; cases hf
    rw [this]
  | some e =>
    obtain ⟨e', he', hs⟩ := h.get ha
    rw [he']
    simp only [Option.map_some, Update.bare, Option.some.injEq, Entity.mk.injEq]
    exact ⟨hs.name, trivial, hs.isTag, hs.position, trivial, trivial, trivial, trivial⟩

theorem lastIdx_map {α β : Type} {p : β → Bool} {q : α → Bool} {f : α → β} (h : ∀ a, p (f a) = q a) : ∀ (l : List α) (k : Nat),
    lastIdx p k (l.map f) = lastIdx q k l := by
  intro l
  induction l with
  | nil => intro k; rfl
  | cons a l ih => intro k; simp only [List.map_cons, lastIdx, ih, h]

theorem closest_same [Uni] {a b : List Entity} (h : Kept Same a b) (x : Str) (p : Nat) : closest b x p = closest a x p := by
  unfold closest
  rw [← lastIdx_map (f := bare) (p := isTarget x p) (q := isTarget x p) (fun _ => rfl) b,
    ← lastIdx_map (f := bare) (p := isTarget x p) (q := isTarget x p) (fun _ => rfl) a, h.bare]

/-- no entity is going to be flipped -/
def Resting (es : List Entity) : Prop := ∀ e ∈ es, e.flipPending = false

theorem modifiable_bare [Uni] (p : Nat) : ∀ {es : List Entity}, Resting es → modifiable es p = modifiable (es.map bare) p := by
  have h1 : ∀ {es : List Entity}, Resting es →
      (es.filter (fun e => decide (e.position < p) && (!e.flipPending || e.disabled))).map (·.name) =
      ((es.map bare).filter (fun e => decide (e.position < p) && (!e.flipPending || e.disabled))).map (·.name) := by
    intro es
    induction es with
    | nil => intro _; rfl
    | cons e es ih =>
      intro h
      have he := h e (.head _)
      have := ih (fun f hf => h f (.tail _ hf))
      simp only [List.map_cons, List.filter_cons]
      have hb : (decide ((bare e).position < p) && (!(bare e).flipPending || (bare e).disabled)) =
          (decide (e.position < p) && (!e.flipPending || e.disabled)) := by simp only [bare, he]; rfl
      rw [hb]
      split
      · simp only [List.map_cons, this]; rfl
      · exact this
  have h2 : ∀ {es : List Entity}, (es.filter (fun e => decide (e.position < p) && e.isTag)).map (fun e => Uni.upper e.name) =
      ((es.map bare).filter (fun e => decide (e.position < p) && e.isTag)).map (fun e => Uni.upper e.name) := by
    intro es
    induction es with
    | nil => rfl
    | cons e es ih =>
      simp only [List.map_cons, List.filter_cons]
      have hb : (decide ((bare e).position < p) && (bare e).isTag) = (decide (e.position < p) && e.isTag) := rfl
      rw [hb]
      split
      · simp only [List.map_cons, ih]; rfl
      · exact ih
  intro es h
  unfold modifiable
  rw [h1 h, h2]

theorem modifiable_same [Uni] {a b : List Entity} (h : Kept Same a b) (ha : Resting a) (hb : Resting b) (p : Nat) :
    modifiable b p = modifiable a p := by
  rw [modifiable_bare p ha, modifiable_bare p hb, h.bare]

theorem findReference_same [Uni] {e e' : Entity} (h : Same e e') (y : Str) : findReference e' y = findReference e y := by
  have hn : ∀ x, isNamed e' x = isNamed e x := fun x => by simp only [isNamed, h.isTag, h.name]
  unfold findReference
  split
  · rfl
  · rename_i ns _
    have : refers e' ns = refers e ns := by
      rw [Bool.eq_iff_iff, refers_iff, refers_iff]
      simp only [hn]
    rw [this]

/-- `w`, which `t` became, reads as `q` in the way `update` would make it read so -/
inductive Settled [Uni] (isIdent : Str → Bool) (ex : Str → Except Err Str) (old new : List Entity) :
    Nat → Nat → Str → Str → Str → Prop
  | done {n p t q} : Settled isIdent ex old new (n + 1) p t q q
  | fits {n p : Nat} {t w q : Str} {B : Built} {m : St Str} {target : Str → Nat} : w ≠ q →
      (∀ flippable, construct isIdent ex (modifiable new p) flippable w = .ok (B, [])) → rmatch B.re q = some m →
      substitute m.get B.template = .ok w →
      (∀ x y, (x, y) ∈ groupItems B m → ¬ s% "sub_" <+: x → x ∈ references t ∧ closest new x p = some (target x) ∧
        ∃ e e', old[target x]? = some e ∧ new[target x]? = some e' ∧ e'.updated = true ∧ findReference e' y = .ok false) →
      (∀ x y e e', (x, y) ∈ groupItems B m → ¬ s% "sub_" <+: x → old[target x]? = some e → new[target x]? = some e' →
        Settled isIdent ex old new n e.position e.value e'.value y) →
      Settled isIdent ex old new (n + 1) p t w q

theorem settled_stable [Uni] {isIdent : Str → Bool} {ex : Str → Except Err Str} {es0 a b : List Entity} {n p : Nat}
    {t w q : Str} (hr : Settled isIdent ex es0 a n p t w q) (h0 : Kept Shape es0 a) (h1 : Kept Shape a b) (ha : Resting a)
    (hb : Resting b)
    (hv : ∀ x ∈ references t, ∀ i, Under es0 p x i → ∀ e e', a[i]? = some e → b[i]? = some e' →
      e'.value = e.value ∧ e'.updated = e.updated) : Settled isIdent ex es0 b n p t w q := by
  induction hr with
  | done => exact .done
  | @fits n p t w q B m target a1 a2 a3 a4 a5 a6 ih =>
    have hunder : ∀ x y, (x, y) ∈ groupItems B m → ¬ s% "sub_" <+: x → ∀ e, es0[target x]? = some e →
        e.position < p ∧ Designates x e := by
      intro x y hx hs e he
      obtain ⟨-, c1, -⟩ := a5 x y hx hs
      obtain ⟨⟨f, b1, b2, b3⟩, -⟩ := closest_iff c1
      have hs := h0.each _ _ _ he b1
      exact ⟨hs.position ▸ b2, (designates_shape hs).mp b3⟩
    refine .fits (target := target) a1 ?_ a3 a4 ?_ ?_
    · rw [modifiable_same h1.same ha hb]; exact a2
    · intro x y hx hs
      obtain ⟨c0, c1, e, e', c2, c3, c4, c5⟩ := a5 x y hx hs
      obtain ⟨f, hf, hsf⟩ := h1.get c3
      obtain ⟨u1, u2⟩ := hunder x y hx hs e c2
      exact ⟨c0, (closest_same h1.same x p).trans c1, e, f, c2, hf, by rw [(hv x c0 _ (.here c2 u1 u2) e' f c3 hf).2]; exact c4,
        (findReference_same ⟨hsf.name, hsf.isTag, hsf.position⟩ y).trans c5⟩
    · intro x y e f hx hs he hf
      obtain ⟨e', he', -⟩ := h1.back hf
      obtain ⟨u1, u2⟩ := hunder x y hx hs e he
      obtain ⟨c0, -⟩ := a5 x y hx hs
      rw [(hv x c0 _ (.here he u1 u2) e' f he' hf).1]
      refine ih x y e e' hx hs he he' ?_
      intro z hz i hi
      exact hv x c0 i (.child he u1 u2 hz hi)

/-- what a call of `update` guarantees -/
def Settles [Uni] (isIdent : Str → Bool) (ex ex' : Str → Except Err Str) (es0 : List Entity) (p0 : Nat) (v0 : Str) (n : Nat) :
    Prop :=
  ∀ {s t p}, Text es0 p0 v0 s t p → ∀ {q es v' es'}, q ≠ [] → '\n' ∉ q → '%' ∉ q → update isIdent ex n t q p es = .ok (v', es') →
    Kept Shape es0 es → Resting es → (∀ x ∈ references t, Fresh es0 es p x) →
    Change (fun i => ∃ x ∈ references t, Under es0 p x i) (fun _ => False) es es' ∧
      Settled isIdent ex' es0 es' n p t v' q

theorem Resting.change {U : Nat → Prop} {es es' : List Entity} (h : Change U (fun _ => False) es es') (hr : Resting es) :
    Resting es' := by
  intro e' he'
  obtain ⟨i, hi⟩ := List.getElem?_of_mem he'
  obtain ⟨e, he, -⟩ := h.shape.back hi
  cases hf : e'.flipPending with
  | false => rfl
  | true =>
    rcases h.flips i e e' he hi hf with h1 | h1
    · rw [hr e (List.mem_of_getElem? he)] at h1; cases h1
    · exact h1.elim

theorem updateGroups_settles [Uni] {isIdent : Str → Bool} {ex ex' : Str → Except Err Str} {es0 : List Entity} {p0 : Nat} {v0 : Str}
    {n : Nat} (tree : TreeLike es0 p0 v0)
    (hrec : Settles isIdent ex ex' es0 p0 v0 n) {s : Option Nat} {t : Str} {p : Nat} (ht : Text es0 p0 v0 s t p) :
    ∀ {d : List (Str × Str)} {es es' : List Entity} {b : Bool}, (d.map (·.1)).Nodup →
      (∀ gv ∈ d, ¬ s% "sub_" <+: gv.1 → gv.1 ∈ references t ∧ gv.2 ≠ [] ∧ '\n' ∉ gv.2 ∧ '%' ∉ gv.2) → Kept Shape es0 es →
      Resting es → (∀ x ∈ references t, x ∈ d.map (·.1) → Fresh es0 es p x) →
      updateGroups (update isIdent ex n) p d es = .ok (b, es') →
      Change (fun i => ∃ x ∈ references t, x ∈ d.map (·.1) ∧ Under es0 p x i) (fun _ => False) es es' ∧
      (b = true → ∀ gv ∈ d, ¬ s% "sub_" <+: gv.1 → ∃ i e e', closest es' gv.1 p = some i ∧ es0[i]? = some e ∧
        es'[i]? = some e' ∧ e'.updated = true ∧ findReference e' gv.2 = .ok false ∧
        Settled isIdent ex' es0 es' n e.position e.value e'.value gv.2) := by
  intro d
  induction d with
  | nil =>
    intro es es' b _ _ _ _ _ h
    simp only [updateGroups] at h
    cases h
    exact ⟨.refl _ _ _, by simp⟩
  | cons gv d ih =>
    intro es es' b hnd hd h0 hrest hfr h
    obtain ⟨g, w⟩ := gv
    simp only [List.map_cons, List.nodup_cons] at hnd
    unfold updateGroups at h
    have hmono : ∀ {a b}, Change (fun i => ∃ x ∈ references t, x ∈ d.map (·.1) ∧ Under es0 p x i) (fun _ => False) a b →
        Change (fun i => ∃ x ∈ references t, x ∈ ((g, w) :: d).map (·.1) ∧ Under es0 p x i) (fun _ => False) a b := by
      intro a b hc
      refine hc.mono ?_ (fun _ h => h)
      rintro i ⟨x, h1, h2, h3⟩; exact ⟨x, h1, by simp only [List.map_cons, List.mem_cons]; exact .inr h2, h3⟩
    have hsub : ∀ x, x ∈ d.map (·.1) → x ∈ ((g, w) :: d).map (·.1) := by
      intro x hx; simp only [List.map_cons, List.mem_cons]; exact .inr hx
    split at h
    · rename_i hsubg
      simp only [startsWith, List.isPrefixOf_iff_prefix] at hsubg
      obtain ⟨c1, c2⟩ := ih hnd.2 (fun gv hgv => hd gv (.tail _ hgv)) h0 hrest (fun x hx hxd => hfr x hx (hsub x hxd)) h
      refine ⟨hmono c1, fun hb gv hgv hns => ?_⟩
      rcases List.mem_cons.mp hgv with rfl | hgv
      · exact absurd hsubg hns
      · exact c2 hb gv hgv hns
    · rename_i hsubg
      simp only [startsWith, List.isPrefixOf_iff_prefix] at hsubg
      obtain ⟨hgref, hwne, hwline, hwpct⟩ := hd (g, w) (.head _) hsubg
      split at h
      · cases h
      · rename_i i hi
        have hcl := closest_iff hi
        obtain ⟨⟨e, he, hpos, hdes⟩, -⟩ := id hcl
        rw [he] at h
        simp only at h
        split at h
        · cases h; exact ⟨.refl _ _ _, by simp⟩
        · split at h
          · cases h
          · cases h; exact ⟨.refl _ _ _, by simp⟩
          · rename_i hfind
            split at h
            · cases h
            · rename_i v es1 hr
              obtain ⟨e0, he0, hs0⟩ := h0.back he
              have hpos0 : e0.position < p := hs0.position ▸ hpos
              have hdes0 : Designates g e0 := (designates_shape hs0).mp hdes
              have hund : Under es0 p g i := .here he0 hpos0 hdes0
              have hgd : g ∈ ((g, w) :: d).map (·.1) := by simp
              have hval : e.value = e0.value := hfr g hgref hgd i hund e0 e he0 he
              have htext : Text es0 p0 v0 (some i) e0.value e0.position :=
                ⟨e0, he0, by have := text_position ht; omega, rfl, rfl⟩
              rw [hval, hs0.position] at hr
              have hlock : Change (fun _ => False) (fun _ => False) es (es.modify i (fun e => { e with locked := true })) :=
                .modify (fun e => ⟨⟨rfl, rfl, rfl, rfl⟩, rfl⟩) (.inr fun e => ⟨rfl, rfl⟩)
              have hrl := hrest.change hlock
              obtain ⟨n1, n2⟩ := hrec htext hwne hwline hwpct hr (h0.shapes hlock.shape) hrl
                (fun x hx => Fresh.change (p := e0.position) hlock
                  (fun j hj => hfr g hgref hgd j (.child he0 hpos0 hdes0 hx hj)) (fun _ _ h => h))
              have hset : Change (fun j => j = i) (fun _ => False) es1
                  (es1.modify i (fun e => { e with value := v, locked := false, updated := true })) :=
                .modify (fun e => ⟨⟨rfl, rfl, rfl, rfl⟩, rfl⟩) (.inl rfl)
              have hr1 := hrl.change n1
              have hr2 := hr1.change hset
              have hall : Change (fun j => Under es0 p g j) (fun _ => False) es
                  (es1.modify i (fun e => { e with value := v, locked := false, updated := true })) := by
                refine .trans (hlock.mono (fun _ h => h.elim) (fun _ h => h.elim)) (.trans (n1.mono ?_ (fun _ h => h))
                  (hset.mono ?_ (fun _ h => h.elim)))
                · rintro j ⟨x, hx, hj⟩; exact .child he0 hpos0 hdes0 hx hj
                · rintro j rfl; exact hund
              have hne : ∀ x, x ∈ d.map (·.1) → g ≠ x := fun x hx hh => hnd.1 (hh ▸ hx)
              obtain ⟨c1, c2⟩ := ih hnd.2 (fun gv hgv => hd gv (.tail _ hgv)) (h0.shapes hall.shape) hr2
                (fun x hx hxd => Fresh.change hall (hfr x hx (hsub x hxd))
                  (fun j hj hj' => under_disjoint tree ht hgref hx (hne x hxd) hj' hj)) h
              refine ⟨.trans (hall.mono ?_ (fun _ h => h)) (hmono c1), fun hb gv hgv hns => ?_⟩
              · intro j hj; exact ⟨g, hgref, hgd, hj⟩
              · rcases List.mem_cons.mp hgv with rfl | hgv
                · obtain ⟨f1, hf1, hsf1⟩ := (hlock.shape.shapes n1.shape).get he
                  have hf2 : (es1.modify i (fun e => { e with value := v, locked := false, updated := true }))[i]? =
                      some { f1 with value := v, locked := false, updated := true } := by
                    rw [List.getElem?_modify, hf1]; simp
                  obtain ⟨f3, hf3, hsf3⟩ := c1.shape.get hf2
                  have hout : ¬ ∃ x ∈ references t, x ∈ d.map (·.1) ∧ Under es0 p x i := by
                    rintro ⟨x, hx, hxd, hu⟩
                    exact under_disjoint tree ht hgref hx (hne x hxd) hund hu
                  obtain ⟨v1, v2⟩ := c1.value i _ _ hf2 hf3 hout
                  have hsh := (hall.shape.shapes c1.shape).same
                  refine ⟨i, e0, f3, (closest_same hsh g p).trans hi, he0, hf3, v2.trans rfl,
                    (findReference_same (hsh.each _ _ _ he hf3) w).trans hfind, ?_⟩
                  have hv3 : f3.value = v := v1
                  rw [hv3]
                  refine settled_stable n2 (h0.shapes (hlock.shape.shapes n1.shape)) (hset.shape.shapes c1.shape) hr1
                    (hr2.change c1) ?_
                  intro x hx j hj a b ha hb
                  have hju : Under es0 p g j := .child he0 hpos0 hdes0 hx hj
                  have hji : j ≠ i := by
                    rintro rfl
                    obtain ⟨_, k1, k2⟩ := hj.position
                    rw [he0] at k1; cases k1
                    omega
                  obtain ⟨m, hm, -⟩ := hset.shape.get ha
                  have q1 := hset.value j a m ha hm hji
                  have q2 := c1.value j m b hm hb (by
                    rintro ⟨y, hy, hyd, hu⟩
                    exact under_disjoint tree ht hgref hy (hne y hyd) hju hu)
                  exact ⟨q2.1.trans q1.1, q2.2.trans q1.2⟩
                · exact c2 hb gv hgv hns

theorem rewritten_chars [Uni] {d : Str → Option Str} {near : Bool} {ps : List Part} {t r : Str}
    (h : Rewritten d near ps t r) {x s w : Str} (hx : Part.reference x s ∈ ps) (hw : d x = some w) : ∀ c ∈ w, c ∈ r := by
  induction h with
  | nil => cases hx
  | constant _ ih => simp at hx; exact fun c hc => List.mem_append_right _ (ih hx c hc)
  | literal _ _ ih => simp at hx; exact fun c hc => List.mem_append_right _ (ih hx c hc)
  | reference h1 h2 h3 _ ih =>
    simp only [List.mem_cons, Part.reference.injEq] at hx
    rcases hx with ⟨rfl, -⟩ | hx
    · rw [h1] at hw; cases hw; exact fun c hc => List.mem_append_left _ hc
    · exact fun c hc => List.mem_append_right _ (ih hx c hc)

theorem flip_nil (p : Nat) (es : List Entity) : flip [] p es = es := by
  unfold flip
  induction es with
  | nil => rfl
  | cons e es ih => simp

theorem applyMatch_settles [Uni] {isIdent : Str → Bool} {ex ex' : Str → Except Err Str} {es0 : List Entity} {p0 : Nat}
    {v0 : Str} {n : Nat} (tree : TreeLike es0 p0 v0) (hsimple : ∀ {s t p}, Text es0 p0 v0 s t p → Simple t)
    (hex : SameConstants es0 p0 v0 ex ex')
    (hrec : Settles isIdent ex ex' es0 p0 v0 n) {s : Option Nat} {t : Str} {p : Nat}
    (ht : Text es0 p0 v0 s t p) {q v' : Str} {es es' : List Entity} {F flips : List Str} {B : Built} {m : St Str}
    (hB : construct isIdent ex (modifiable es p) F t = .ok (B, flips))
    (hm : rmatch B.re q = some m) (hne : q ≠ []) (hline : '\n' ∉ q) (hpct : '%' ∉ q)
    (h : applyMatch (update isIdent ex n) q p es B flips m = .ok (v', es')) (h0 : Kept Shape es0 es) (hrest : Resting es)
    (hfr : ∀ x ∈ references t, Fresh es0 es p x) :
    Change (fun i => ∃ x ∈ references t, Under es0 p x i) (fun _ => False) es es' ∧
      Settled isIdent ex' es0 es' (n + 1) p t v' q := by
  obtain ⟨nodes, ps, text, m1, m2, m3, m4, m5, m6, m7, m8, m9⟩ := construct_match hB hm hne hline
  obtain ⟨v, k1, k2, rfl, k4⟩ := construct_repeat (hsimple ht) hB hm hne hline hpct
  rw [k1] at m5; cases m5
  obtain ⟨r1, -⟩ := references_ok m1
  have href : ∀ x s, Part.reference x s ∈ ps → x ∈ references t := fun x s h => r1 ▸ parts_referred m2 h
  have hitems : ∀ gv ∈ groupItems B m, ¬ s% "sub_" <+: gv.1 →
      gv.1 ∈ references t ∧ gv.2 ≠ [] ∧ '\n' ∉ gv.2 ∧ '%' ∉ gv.2 := by
    rintro ⟨g, w⟩ hgv hns
    rw [mem_groupItems] at hgv
    rcases m8 g hgv.1 with h | ⟨u, hu⟩
    · exact absurd h hns
    · obtain ⟨w', l1, l2, l3⟩ := rewritten_value m4 hu
      rw [hgv.2] at l1; cases l1
      exact ⟨href g u hu, l2, l3, fun hh => hpct (rewritten_chars m4 hu hgv.2 _ hh)⟩
  have hgroups : ∀ {b es1}, updateGroups (update isIdent ex n) p (groupItems B m) es = .ok (b, es1) → _ := fun hg =>
    updateGroups_settles tree hrec ht (groupItems_nodup m7) hitems h0 hrest (fun x hx _ => hfr x hx) hg
  have hmono : ∀ {a b}, Change (fun i => ∃ x ∈ references t, x ∈ (groupItems B m).map (·.1) ∧ Under es0 p x i)
      (fun _ => False) a b → Change (fun i => ∃ x ∈ references t, Under es0 p x i) (fun _ => False) a b := fun hc =>
    hc.mono (fun i ⟨x, h1, _, h2⟩ => ⟨x, h1, h2⟩) (fun _ h => h)
  unfold applyMatch at h
  split at h
  · cases h
  · rename_i es1 hg
    cases h
    exact ⟨hmono (hgroups hg).1, .done⟩
  · rename_i es1 hg
    rw [k1] at h
    simp only [flip_nil] at h
    cases h
    obtain ⟨c1, c2⟩ := hgroups hg
    refine ⟨hmono c1, ?_⟩
    by_cases hvq : v' = q
    · rw [hvq]; exact .done
    have hchoice : ∀ x, ∃ i, ∀ y, (x, y) ∈ groupItems B m → ¬ s% "sub_" <+: x → ∃ e e', closest es' x p = some i ∧
        es0[i]? = some e ∧ es'[i]? = some e' ∧ e'.updated = true ∧ findReference e' y = .ok false ∧
        Settled isIdent ex' es0 es' n e.position e.value e'.value y := by
      intro x
      by_cases hx : ∃ y, (x, y) ∈ groupItems B m ∧ ¬ s% "sub_" <+: x
      · obtain ⟨y, h1, h2⟩ := hx
        obtain ⟨i, e, e', k⟩ := c2 rfl (x, y) h1 h2
        refine ⟨i, fun y' hy' _ => ?_⟩
        rw [mem_groupItems] at h1 hy'
        have := h1.2.symm.trans hy'.2
        cases this
        exact ⟨e, e', k⟩
      · exact ⟨0, fun y h1 h2 => absurd ⟨y, h1, h2⟩ hx⟩
    obtain ⟨target, htarget⟩ := Classical.axiomOfChoice hchoice
    refine .fits (target := target) hvq ?_ hm k1 ?_ ?_
    · rw [modifiable_same c1.shape.same hrest (hrest.change (hmono c1))]
      refine fun fl => k4 ex' fl fun ns hns n hn h1 h2 => hex _ _ _ ns ht hns n hn h1 fun x hx hav => h2 x hx ?_
      exact (mem_modifiable (fun e he _ => hrest e he)).mpr ((available_shape h0).mpr hav)
    · intro x y hx hs
      obtain ⟨e, e', l1, l2, l3, l4, l5, -⟩ := htarget x y hx hs
      exact ⟨(hitems (x, y) hx hs).1, l1, e, e', l2, l3, l4, l5⟩
    · intro x y e e' hx hs he he'
      obtain ⟨f, f', l1, l2, l3, l4, l5, l6⟩ := htarget x y hx hs
      rw [he] at l2; cases l2
      rw [he'] at l3; cases l3
      exact l6

theorem update_settles [Uni] {isIdent : Str → Bool} {ex ex' : Str → Except Err Str} {es0 : List Entity} {p0 : Nat} {v0 : Str}
    (tree : TreeLike es0 p0 v0) (hsimple : ∀ {s t p}, Text es0 p0 v0 s t p → Simple t)
    (hex : SameConstants es0 p0 v0 ex ex') :
    ∀ n, Settles isIdent ex ex' es0 p0 v0 n := by
  intro n
  induction n with
  | zero => intro s t p _ q es v' es' _ _ _ h; simp [update] at h
  | succ n ih =>
    intro s t p ht q es v' es' hne hline hpct h h0 hrest hfr
    unfold update at h
    split at h
    · cases h
      exact ⟨.refl _ _ _, .done⟩
    · split at h
      · cases h
      · rename_i B flips hB
        split at h
        · rename_i m hm
          exact applyMatch_settles tree hsimple hex ih ht hB hm hne hline hpct h h0 hrest hfr
        · split at h
          · cases h
          · rename_i B' flips' hB'
            split at h
            · rename_i m hm
              exact applyMatch_settles tree hsimple hex ih ht hB' hm hne hline hpct h h0 hrest hfr
            · cases h
              exact ⟨.refl _ _ _, .done⟩

/-! the second time -/

/-- the same entity, updated only if it already was; before line `p` it has the same value -/
structure Alike (p : Nat) (e e' : Entity) : Prop where
  same : Same e e'
  value : e.position < p → e'.value = e.value
  flipPending : e'.flipPending = false
  updated : e'.updated = true → e.updated = true

/-- locked entities stay locked, others do not become locked -/
def SameLock (e e' : Entity) : Prop := e'.locked = e.locked ∧ e'.position = e.position

theorem Kept.locks {a b c : List Entity} (h : Kept SameLock a b) (g : Kept SameLock b c) : Kept SameLock a c :=
  Kept.trans (R := SameLock) (S := SameLock) (fun _ _ _ h g => ⟨g.1.trans h.1, g.2.trans h.2⟩) h g

/-- entities before line `p` are not locked -/
def Free (es : List Entity) (p : Nat) : Prop := ∀ e ∈ es, e.position < p → e.locked = false

theorem Free.kept {a b : List Entity} {p : Nat} (h : Kept SameLock a b) (hf : Free a p) : Free b p := by
  intro e he hp
  obtain ⟨i, hi⟩ := List.getElem?_of_mem he
  obtain ⟨f, hf', hl, hpos⟩ := h.back hi
  rw [hl]
  exact hf f (List.mem_of_getElem? hf') (hpos ▸ hp)

theorem Kept.resting {P : Nat} {a b : List Entity} (h : Kept (Alike P) a b) : Resting b := by
  intro e he
  obtain ⟨i, hi⟩ := List.getElem?_of_mem he
  obtain ⟨f, hf, hs⟩ := h.back hi
  exact hs.flipPending

theorem get_modify {es : List Entity} {i j : Nat} {f : Entity → Entity} {e' : Entity} (h : (es.modify i f)[j]? = some e') :
    ∃ e, es[j]? = some e ∧ e' = if i = j then f e else e := by
  rw [List.getElem?_modify] at h
  cases he : es[j]? with
  | none => rw [he] at h; cases h
  | some e =>
    rw [he] at h
    refine ⟨e, rfl, ?_⟩
    cases h
    split <;> rfl

theorem settled_update [Uni] {isIdent : Str → Bool} {ex : Str → Except Err Str} {old new : List Entity} {n p P : Nat}
    {t w q : Str} (h : Settled isIdent ex old new n p t w q) (h0 : Kept Shape old new) (hrest : Resting new) : p ≤ P → ∀ {es : List Entity},
    Kept (Alike P) new es → Free es p → ∃ es', update isIdent ex n w q p es = .ok (w, es') ∧ Kept (Alike P) new es' ∧
      Kept SameLock es es' := by
  have hrefl : ∀ es, Kept SameLock es es := fun es => Kept.refl (fun _ => ⟨rfl, rfl⟩) es
  induction h with
  | done =>
    intro _ es ha _
    exact ⟨es, by simp [update], ha, hrefl es⟩
  | @fits n p t w q B m target a1 a2 a3 a4 a5 a6 ih =>
    intro hP es ha hf
    have groups : ∀ (d : List (Str × Str)), (∀ gv ∈ d, gv ∈ groupItems B m) → ∀ {es : List Entity}, Kept (Alike P) new es →
        Free es p → ∃ es', updateGroups (update isIdent ex n) p d es = .ok (true, es') ∧ Kept (Alike P) new es' ∧
          Kept SameLock es es' := by
      intro d
      induction d with
      | nil => intro _ es ha _; exact ⟨es, rfl, ha, hrefl es⟩
      | cons gv d ihd =>
        intro hd es ha hf
        obtain ⟨g, y⟩ := gv
        unfold updateGroups
        by_cases hsub : s% "sub_" <+: g
        · rw [if_pos (by simpa [startsWith] using hsub)]
          exact ihd (fun gv h => hd gv (.tail _ h)) ha hf
        · rw [if_neg (by simpa [startsWith] using hsub)]
          obtain ⟨c0, c1, e, e', c2, c3, c4, c5⟩ := a5 g y (hd _ (.head _)) hsub
          have hsame : Kept Same new es := ha.weaken fun _ _ h => h.same
          obtain ⟨f, hf', hal⟩ := ha.get c3
          obtain ⟨⟨e'', l1, l2, -⟩, -⟩ := closest_iff c1
          rw [c3] at l1; cases l1
          have hpos : f.position < p := hal.same.position ▸ l2
          have hlk : f.locked = false := hf f (List.mem_of_getElem? hf') hpos
          rw [closest_same hsame, c1]
          simp only [hf', hlk, Bool.false_eq_true, if_false, findReference_same hal.same, c5]
          -- the nested call
          have halk : Kept (Alike P) new (es.modify (target g) (fun e => { e with locked := true })) := by
            refine ⟨by rw [List.length_modify]; exact ha.length, fun j x x' hx hx' => ?_⟩
            obtain ⟨z, hz, rfl⟩ := get_modify hx'
            have := ha.each j x z hx hz
            split
            · exact ⟨⟨this.same.name, this.same.isTag, this.same.position⟩, this.value, this.flipPending, this.updated⟩
            · exact this
          have hfree : Free (es.modify (target g) (fun e => { e with locked := true })) f.position := by
            intro x hx hxp
            obtain ⟨j, hj⟩ := List.getElem?_of_mem hx
            obtain ⟨z, hz, rfl⟩ := get_modify hj
            by_cases hj' : target g = j
            · rw [if_pos hj'] at hxp ⊢
              subst hj'
              rw [hf'] at hz; cases hz
              simp only at hxp
              omega
            · rw [if_neg hj'] at hxp ⊢
              exact hf z (List.mem_of_getElem? hz) (by omega)
          have hpos' : f.position = e.position := hal.same.position.trans (h0.each _ _ _ c2 c3).position
          obtain ⟨es1, n1, n2, n3⟩ := ih g y e e' (hd _ (.head _)) hsub c2 c3 (by omega) halk (hpos' ▸ hfree)
          rw [hal.value (by omega), hpos', n1]
          simp only
          have hal1 : Kept (Alike P) new (es1.modify (target g) (fun x => { x with value := e'.value, locked := false, updated := true })) := by
            refine ⟨by rw [List.length_modify]; exact n2.length, fun j x x' hx hx' => ?_⟩
            obtain ⟨z, hz, rfl⟩ := get_modify hx'
            have := n2.each j x z hx hz
            split
            · rename_i hj
              subst hj
              rw [c3] at hx; cases hx
              exact ⟨⟨this.same.name, this.same.isTag, this.same.position⟩, fun _ => rfl, this.flipPending, fun _ => c4⟩
            · exact this
          have hlock1 : Kept SameLock es (es1.modify (target g) (fun x => { x with value := e'.value, locked := false, updated := true })) := by
            refine ⟨by rw [List.length_modify, n3.length, List.length_modify], fun j x x' hx hx' => ?_⟩
            obtain ⟨z, hz, rfl⟩ := get_modify hx'
            obtain ⟨u, hu, hul⟩ := n3.back hz
            obtain ⟨x0, hx0, rfl⟩ := get_modify hu
            rw [hx] at hx0; cases hx0
            by_cases hj' : target g = j
            · rw [if_pos hj'] at hul ⊢
              subst hj'
              rw [hf'] at hx; cases hx
              exact ⟨hlk.symm, hul.2⟩
            · rw [if_neg hj'] at hul ⊢
              exact hul
          obtain ⟨es2, k1, k2, k3⟩ := ihd (fun gv h => hd gv (.tail _ h)) hal1 (hf.kept hlock1)
          exact ⟨es2, k1, k2, hlock1.locks k3⟩
    obtain ⟨es', g1, g2, g3⟩ := groups _ (fun _ h => h) ha hf
    refine ⟨es', ?_, g2, g3⟩
    have hmod : modifiable es p = modifiable new p := modifiable_same (ha.weaken fun _ _ h => h.same) hrest ha.resting p
    unfold update
    rw [if_neg a1, hmod, a2]
    simp only [a3, applyMatch, g1, a4, flip_nil]

end Specfile.Update
