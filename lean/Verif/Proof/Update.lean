import Verif.Model.UpdateValue
import Verif.Props.Template
/-
`update`: what happens to the entities.
-/
namespace Specfile.Update
open Py Regex Template Spec ValueParser

theorem lastIdx_some {α : Type} {p : α → Bool} : ∀ {l : List α} {i j : Nat}, lastIdx p i l = some j →
    i ≤ j ∧ ∃ x, l[j - i]? = some x ∧ p x = true ∧ ∀ k y, j - i < k → l[k]? = some y → p y = false := by
  have none_all : ∀ {l : List α} {i : Nat}, lastIdx p i l = none → ∀ x ∈ l, p x = false := by
    intro l
    induction l with
    | nil => simp
    | cons x xs ih =>
      intro i h
      unfold lastIdx at h
      split at h
      · cases h
      · rename_i hn
        split at h
        · cases h
        · rename_i hx
          simp only [List.mem_cons, forall_eq_or_imp]
          exact ⟨by simpa using hx, ih hn⟩
  intro l
  induction l with
  | nil => simp [lastIdx]
  | cons x xs ih =>
    intro i j h
    unfold lastIdx at h
    split at h
    · rename_i k hk
      cases h
      obtain ⟨h1, y, h2, h3, h4⟩ := ih hk
      obtain ⟨d, rfl⟩ := Nat.exists_eq_add_of_le h1
      refine ⟨by omega, y, ?_, h3, ?_⟩
      · rw [show i + 1 + d - i = d + 1 by omega, List.getElem?_cons_succ]
        rw [show i + 1 + d - (i + 1) = d by omega] at h2
        exact h2
      · intro k z hk hz
        obtain ⟨k, rfl⟩ := Nat.exists_eq_add_of_le (show 1 ≤ k by omega)
        rw [Nat.add_comm, List.getElem?_cons_succ] at hz
        exact h4 k z (by omega) hz
    · rename_i hn
      split at h
      · rename_i hx
        cases h
        refine ⟨Nat.le_refl _, x, by simp, hx, ?_⟩
        intro k z hk hz
        obtain ⟨k, rfl⟩ := Nat.exists_eq_add_of_le (show 1 ≤ k by omega)
        rw [Nat.add_comm, List.getElem?_cons_succ] at hz
        exact none_all hn z (List.mem_of_getElem? hz)
      · cases h

theorem lastIdx_none {α : Type} {p : α → Bool} : ∀ {l : List α} {i : Nat}, lastIdx p i l = none → ∀ x ∈ l, p x = false := by
  intro l
  induction l with
  | nil => simp
  | cons x xs ih =>
    intro i h
    unfold lastIdx at h
    split at h
    · cases h
    · rename_i hn
      split at h
      · cases h
      · rename_i hx
        simp only [List.mem_cons, forall_eq_or_imp]
        exact ⟨by simpa using hx, ih hn⟩

theorem closest_some [Uni] {es : List Entity} {g : Str} {pos i : Nat} (h : closest es g pos = some i) :
    ∃ e, es[i]? = some e ∧ isTarget g pos e = true ∧ ∀ k y, i < k → es[k]? = some y → isTarget g pos y = false := by
  obtain ⟨-, h⟩ := lastIdx_some h
  simpa using h

theorem isTarget_lt [Uni] {es : Entity} {g : Str} {pos : Nat} (h : isTarget g pos es = true) : es.position < pos := by
  simp only [isTarget, Bool.and_eq_true, decide_eq_true_eq] at h
  exact h.1

/-- what may become of an entity when a value at `pos` is updated -/
structure Step (pos : Nat) (e e' : Entity) : Prop where
  name : e'.name = e.name
  isTag : e'.isTag = e.isTag
  position : e'.position = e.position
  disabled : e'.disabled = e.disabled
  locked : e'.locked = e.locked
  later : pos ≤ e.position → e' = e
  updated : e.updated = true → e'.updated = true
  value : e'.updated = e.updated ∨ e'.updated = true
  same : e'.updated = false → e'.value = e.value
  flip : e.flipPending = true → e'.flipPending = true

theorem Step.refl (pos : Nat) (e : Entity) : Step pos e e :=
  ⟨rfl, rfl, rfl, rfl, rfl, fun _ => rfl, id, .inl rfl, fun _ => rfl, id⟩

theorem Step.trans {pos : Nat} {a b c : Entity} (h : Step pos a b) (g : Step pos b c) : Step pos a c where
  name := g.name.trans h.name
  isTag := g.isTag.trans h.isTag
  position := g.position.trans h.position
  disabled := g.disabled.trans h.disabled
  locked := g.locked.trans h.locked
  later hp := (g.later (by rw [h.position]; exact hp)).trans (h.later hp)
  updated hu := g.updated (h.updated hu)
  value := by
    rcases g.value with g' | g'
    · rcases h.value with h' | h'
      · exact .inl (g'.trans h')
      · exact .inr (g'.trans h')
    · exact .inr g'
  same hc := by
    have hb : b.updated = false := by
      cases hb : b.updated with
      | false => rfl
      | true => exact absurd (g.updated hb) (by simp [hc])
    exact (g.same hc).trans (h.same hb)
  flip hf := g.flip (h.flip hf)

theorem Step.mono {p q : Nat} {a b : Entity} (h : Step p a b) (hpq : p ≤ q) : Step q a b :=
  { h with later := fun hq => h.later (Nat.le_trans hpq hq) }

/-- element by element -/
structure Kept (R : Entity → Entity → Prop) (es es' : List Entity) : Prop where
  length : es'.length = es.length
  each : ∀ (i : Nat) (e e' : Entity), es[i]? = some e → es'[i]? = some e' → R e e'

theorem Kept.refl {R : Entity → Entity → Prop} (hr : ∀ e, R e e) (es : List Entity) : Kept R es es :=
  ⟨rfl, fun i e e' h h' => by rw [h] at h'; cases h'; exact hr _⟩

theorem Kept.get {R : Entity → Entity → Prop} {es es' : List Entity} (h : Kept R es es') {i : Nat} {e : Entity}
    (he : es[i]? = some e) : ∃ e', es'[i]? = some e' ∧ R e e' := by
  have hi : i < es'.length := by rw [h.length]; exact (List.getElem?_eq_some_iff.mp he).1
  exact ⟨es'[i], List.getElem?_eq_getElem hi, h.each i e _ he (List.getElem?_eq_getElem hi)⟩

theorem Kept.back {R : Entity → Entity → Prop} {es es' : List Entity} (h : Kept R es es') {i : Nat} {e' : Entity}
    (he : es'[i]? = some e') : ∃ e, es[i]? = some e ∧ R e e' := by
  have hi : i < es.length := by rw [← h.length]; exact (List.getElem?_eq_some_iff.mp he).1
  exact ⟨es[i], List.getElem?_eq_getElem hi, h.each i _ e' (List.getElem?_eq_getElem hi) he⟩

theorem Kept.trans {R S T : Entity → Entity → Prop} (ht : ∀ a b c, R a b → S b c → T a c) {a b c : List Entity}
    (h : Kept R a b) (g : Kept S b c) : Kept T a c where
  length := g.length.trans h.length
  each i x z hx hz := by
    obtain ⟨y, hy, hxy⟩ := h.get hx
    exact ht _ _ _ hxy (g.each i y z hy hz)

theorem Kept.steps {pos : Nat} {a b c : List Entity} (h : Kept (Step pos) a b) (g : Kept (Step pos) b c) :
    Kept (Step pos) a c := Kept.trans (R := Step pos) (S := Step pos) (fun _ _ _ h g => Step.trans h g) h g

theorem Kept.modify {R : Entity → Entity → Prop} (hr : ∀ e, R e e) {es : List Entity} {i : Nat} {f : Entity → Entity}
    (hf : ∀ e, es[i]? = some e → R e (f e)) : Kept R es (es.modify i f) where
  length := by simp
  each j e e' h h' := by
    rw [List.getElem?_modify] at h'
    by_cases hij : i = j
    · subst hij
      rw [h] at h'
      simp only [if_true, Option.map_eq_map, Option.map_some, Option.some.injEq] at h'
      subst h'
      exact hf e h
    · rw [h] at h'
      simp only [hij, if_false, Option.map_eq_map, Option.map_some, Option.some.injEq] at h'
      subst h'
      exact hr e

theorem flip_kept {flips : List Str} {pos : Nat} (es : List Entity) : Kept (Step pos) es (flip flips pos es) where
  length := by simp [flip]
  each i e e' h h' := by
    simp only [flip, List.getElem?_map, h, Option.map_some, Option.some.injEq] at h'
    subst h'
    split
    · rename_i hc
      exact ⟨rfl, rfl, rfl, rfl, rfl, fun hp => absurd hc.1 (by omega), id, .inl rfl, fun _ => rfl, fun _ => rfl⟩
    · exact Step.refl pos e

abbrev Rec := Str → Str → Nat → List Entity → Except Err (Str × List Entity)

theorem updateGroups_kept [Uni] {rec : Rec} {pos : Nat}
    (hrec : ∀ v q p es v' es', rec v q p es = .ok (v', es') → Kept (Step p) es es') :
    ∀ {d : List (Str × Str)} {es es' : List Entity} {b : Bool}, updateGroups rec pos d es = .ok (b, es') →
      Kept (Step pos) es es' := by
  intro d
  induction d with
  | nil =>
    intro es es' b h
    simp only [updateGroups] at h
    cases h
    exact Kept.refl (Step.refl pos) _
  | cons gv d ih =>
    intro es es' b h
    obtain ⟨g, w⟩ := gv
    unfold updateGroups at h
    split at h
    · exact ih h
    · split at h
      · cases h
      · rename_i i hi
        obtain ⟨e, he, ht, -⟩ := closest_some hi
        rw [he] at h
        simp only at h
        split at h
        · cases h; exact Kept.refl (Step.refl pos) _
        · rename_i hl
          split at h
          · cases h
          · cases h; exact Kept.refl (Step.refl pos) _
          · split at h
            · cases h
            · rename_i v es1 hr
              refine Kept.steps ?_ (ih h)
              have k1 := hrec _ _ _ _ _ _ hr
              have hp := isTarget_lt ht
              refine ⟨by simp [k1.length], fun j x x' hx hx' => ?_⟩
              rw [List.getElem?_modify] at hx'
              have hj : j < es1.length := by
                rw [k1.length, List.length_modify]
                exact (List.getElem?_eq_some_iff.mp hx).1
              have h1 : es1[j]? = some es1[j] := List.getElem?_eq_getElem hj
              rw [h1] at hx'
              simp only [Option.map_eq_map, Option.map_some, Option.some.injEq] at hx'
              have h2 := k1.each j (if i = j then { x with locked := true } else x) es1[j]
                (by rw [List.getElem?_modify, hx]; by_cases hij : i = j <;> simp [hij]) h1
              by_cases hij : i = j
              · subst hij
                rw [he] at hx
                cases hx
                simp only [if_true] at h2 hx'
                subst hx'
                exact ⟨h2.name, h2.isTag, h2.position, h2.disabled, by simp only; cases hb : e.locked <;> simp_all,
                  fun hp' => absurd hp (by omega), fun _ => rfl, .inr rfl, by simp, h2.flip⟩
              · simp only [hij, if_false] at h2 hx'
                subst hx'
                exact h2.mono (by omega)

theorem applyMatch_kept [Uni] {rec : Rec} {pos : Nat}
    (hrec : ∀ v q p es v' es', rec v q p es = .ok (v', es') → Kept (Step p) es es')
    {q v : Str} {es es' : List Entity} {B : Built} {flips : List Str} {m : St Str}
    (h : applyMatch rec q pos es B flips m = .ok (v, es')) : Kept (Step pos) es es' := by
  unfold applyMatch at h
  split at h
  · cases h
  · rename_i es1 hg
    cases h
    exact updateGroups_kept hrec hg
  · rename_i es1 hg
    split at h
    · cases h
    · cases h
      exact (updateGroups_kept hrec hg).steps (flip_kept _)

theorem update_kept [Uni] {isIdent : Str → Bool} {ex : Str → Except Err Str} : ∀ (fuel : Nat) {v q v' : Str} {p : Nat}
    {es es' : List Entity}, update isIdent ex fuel v q p es = .ok (v', es') → Kept (Step p) es es' := by
  intro fuel
  induction fuel with
  | zero => intro _ _ _ _ _ _ h; simp [update] at h
  | succ fuel ih =>
    intro v q v' p es es' h
    have hrec : ∀ v q p es v' es', update isIdent ex fuel v q p es = .ok (v', es') → Kept (Step p) es es' :=
      fun _ _ _ _ _ _ h => ih h
    unfold update at h
    split at h
    · cases h; exact Kept.refl (Step.refl p) _
    · split at h
      · cases h
      · split at h
        · exact applyMatch_kept hrec h
        · split at h
          · cases h
          · split at h
            · exact applyMatch_kept hrec h
            · cases h; exact Kept.refl (Step.refl p) _

/-! the number of calls -/

/-- entities that are not being updated -/
def unlocked (es : List Entity) : Nat := (es.filter (fun e => !e.locked)).length

theorem unlocked_congr : ∀ {es es' : List Entity}, es'.length = es.length →
    (∀ (i : Nat) (e e' : Entity), es[i]? = some e → es'[i]? = some e' → e'.locked = e.locked) → unlocked es' = unlocked es := by
  intro es
  induction es with
  | nil => intro es' h _; cases es' <;> simp_all
  | cons e es ih =>
    intro es' h hk
    cases es' with
    | nil => simp at h
    | cons e' es' =>
      have h0 := hk 0 e e' (by simp) (by simp)
      have := ih (es' := es') (by simpa using h) (fun i a b ha hb => hk (i + 1) a b (by simpa using ha) (by simpa using hb))
      simp only [unlocked] at this ⊢
      simp only [List.filter_cons, h0]
      split <;> simp [this]

theorem unlocked_kept {p : Nat} {es es' : List Entity} (h : Kept (Step p) es es') : unlocked es' = unlocked es :=
  unlocked_congr h.length (fun i e e' he he' => (h.each i e e' he he').locked)

theorem unlocked_lock : ∀ {es : List Entity} {i : Nat} {e : Entity}, es[i]? = some e → e.locked = false →
    unlocked (es.modify i (fun e => { e with locked := true })) + 1 = unlocked es := by
  intro es
  induction es with
  | nil => intro i e h; simp at h
  | cons x xs ih =>
    intro i e h hl
    cases i with
    | zero =>
      simp only [List.getElem?_cons_zero, Option.some.injEq] at h
      subst h
      simp [unlocked, hl]
    | succ i =>
      have := ih (i := i) (e := e) (by simpa using h) hl
      simp only [unlocked, List.modify_succ_cons, List.filter_cons] at this ⊢
      split <;> simp [← this]

theorem updateGroups_congr [Uni] {rec rec' : Rec} {pos n : Nat}
    (hk : ∀ v q p es v' es', rec v q p es = .ok (v', es') → Kept (Step p) es es')
    (heq : ∀ v q p es, unlocked es < n → rec v q p es = rec' v q p es) :
    ∀ {d : List (Str × Str)} {es : List Entity}, unlocked es < n + 1 →
      updateGroups rec pos d es = updateGroups rec' pos d es := by
  intro d
  induction d with
  | nil => intro es _; simp [updateGroups]
  | cons gv d ih =>
    intro es hn
    obtain ⟨g, w⟩ := gv
    unfold updateGroups
    split
    · exact ih hn
    · cases hc : closest es g pos with
      | none => rfl
      | some i =>
        obtain ⟨e, he, ht, -⟩ := closest_some hc
        simp only [he]
        split
        · rfl
        · rename_i hl
          have hl : e.locked = false := by simpa using hl
          cases findReference e w with
          | error _ => rfl
          | ok b =>
            cases b with
            | true => rfl
            | false =>
              have hlock := unlocked_lock he hl
              rw [← heq _ _ _ _ (by omega)]
              dsimp only
              split
              · rfl
              · rename_i v es1 hr
                refine ih ?_
                have k1 := hk _ _ _ _ _ _ hr
                have : unlocked (es1.modify i (fun e => { e with value := v, locked := false, updated := true }))
                    = unlocked es := by
                  refine unlocked_congr (by simp [k1.length]) (fun j x x' hx hx' => ?_)
                  rw [List.getElem?_modify] at hx'
                  have hj : j < es1.length := by
                    rw [k1.length, List.length_modify]
                    exact (List.getElem?_eq_some_iff.mp hx).1
                  have h1 : es1[j]? = some es1[j] := List.getElem?_eq_getElem hj
                  rw [h1] at hx'
                  simp only [Option.map_eq_map, Option.map_some, Option.some.injEq] at hx'
                  have h2 := k1.each j (if i = j then { x with locked := true } else x) es1[j]
                    (by rw [List.getElem?_modify, hx]; by_cases hij : i = j <;> simp [hij]) h1
                  by_cases hij : i = j
                  · subst hij
                    rw [he] at hx
                    cases hx
                    simp only [if_true] at hx'
                    subst hx'
                    simp [hl]
                  · simp only [hij, if_false] at h2 hx'
                    subst hx'
                    exact h2.locked
                omega

theorem update_fuel [Uni] {isIdent : Str → Bool} {ex : Str → Except Err Str} : ∀ (n m : Nat) (v q : Str) (p : Nat)
    (es : List Entity), unlocked es < n → n ≤ m → update isIdent ex n v q p es = update isIdent ex m v q p es := by
  intro n
  induction n with
  | zero => intro m v q p es h; omega
  | succ n ih =>
    intro m v q p es h hm
    obtain ⟨m, rfl⟩ := Nat.exists_eq_add_of_le (show 1 ≤ m by omega)
    rw [Nat.add_comm 1 m] at *
    have hg : ∀ d, updateGroups (update isIdent ex n) p d es = updateGroups (update isIdent ex m) p d es :=
      fun d => updateGroups_congr (fun _ _ _ _ _ _ h => update_kept n h)
        (fun v q p es hu => ih m v q p es hu (by omega)) h
    unfold update
    simp only [applyMatch, hg]

/-! one line -/

theorem joinC_line {l : List Str} (h : ∀ w ∈ l, '\n' ∉ w) : '\n' ∉ joinC ' ' l := by
  induction l with
  | nil => simp [joinC]
  | cons a l ih =>
    cases l with
    | nil => simpa [joinC] using h
    | cons b l =>
      simp only [joinC, List.mem_append, List.mem_cons]
      rintro (h' | h' | h')
      · exact h a (by simp) h'
      · exact absurd h' (by decide)
      · exact ih (fun w hw => h w (by simp [hw])) h'

theorem parseF_line [Uni] : ∀ (fuel : Nat) {start : Nat} {rest : Str} {offset : Nat} {ns : List Node},
    '\n' ∉ rest → parseF fuel start rest offset = .ok ns → '\n' ∉ Node.strs ns := by
  intro fuel
  induction fuel with
  | zero => intro _ _ _ _ _ h; simp [parseF] at h
  | succ fuel ih =>
    intro start rest offset ns hq h
    rcases parseF_ok_cases h with ⟨-, rfl⟩ | ⟨-, -, rfl⟩ | ⟨b, a, -, -, h'⟩ | ⟨b, c, a, m, rest', node, ns', e1, -, -, hm, hn, hr, rfl⟩
    · simp [Node.strs]
    · simpa [Node.strs, Node.str] using hq
    · exact ih hq h'
    · have e2 := rest_decomp e1 (findMacroEnd_append hm)
      rw [e2] at hq
      simp only [List.mem_append, List.mem_cons, not_or] at hq
      obtain ⟨q1, -, q2, q3⟩ := hq
      rw [strs_append, strs_optLit]
      simp only [Node.strs, List.mem_append, not_or]
      refine ⟨q1, ?_, ih q3 hr⟩
      rcases mkNode_ok_cases hm hn with ⟨b, rfl, rfl⟩ | ⟨b, rfl, rfl⟩ | ⟨p, n, b, ns, rfl, -, hb, rfl⟩ | ⟨n, b, rfl, rfl⟩ |
        ⟨p, s, n, args, rfl, -, -, -, -, hw, rfl⟩ | ⟨p, n, rfl, -, -, rfl⟩
      · simpa [Node.str] using q2
      · simpa [Node.str] using q2
      · simp only [List.mem_append, List.mem_cons, not_or] at q2
        have := ih q2.2.2.2.1 hb
        simp [Node.str, this, q2]
      · simpa [Node.str] using q2
      · rw [encl_str]
        simp only [List.mem_append, List.mem_cons, not_or] at q2
        have hj : '\n' ∉ joinC ' ' (n :: args) := by
          refine joinC_line (fun w hw' h' => ?_)
          rw [← hw] at hw'
          exact absurd (mem_words_no_space hw' _ h') (by decide)
        simp [hj, q2]
      · simpa [Node.str] using q2

/-- the text of a part -/
def partText : Part → Str
  | .constant _ t => t
  | .literal s => s
  | .reference _ t => t

theorem parts_text {ex : Str → Except Err Str} {entities flips : List Str} {ns : List Node} {ps : List Part}
    (h : Parts ex entities flips ns ps) : (ps.map partText).flatten = Node.strs ns := by
  induction h with
  | nil => rfl
  | lit _ ih => simp [Node.strs, Node.str, partText, ih]
  | reference _ _ _ ih => simp [Node.strs, partText, ih]
  | constant _ _ _ _ ih => simp [Node.strs, partText, ih]
  | closed _ _ ih => simp [Node.strs, partText, ih]
  | opened _ _ _ _ ihb ih => simp [Node.strs, Node.str, partText, ih, ihb]

theorem rewritten_line [Uni] {d : Str → Option Str} {near : Bool} {ps : List Part} {t r : Str}
    (h : Rewritten d near ps t r) : '\n' ∉ (ps.map partText).flatten → '\n' ∉ t := by
  induction h with
  | nil => simp
  | constant _ ih => simp only [partText, List.map_cons, List.flatten_cons, List.mem_append, not_or]; exact fun h => ⟨h.1, ih h.2⟩
  | literal hc _ ih =>
    simp only [partText, List.map_cons, List.flatten_cons, List.mem_append, not_or]
    refine fun h => ⟨?_, ih h.2⟩
    have h1 := h.1
    have cut : ∀ {b a : Bool} {s p m q : Str}, Cut b a s p m q → '\n' ∉ s → '\n' ∉ p ∧ '\n' ∉ q := by
      intro b a s p m q hc hs
      rcases hc.text with e | e <;> rw [e] at hs <;> simp only [List.mem_append, not_or] at hs
      · exact ⟨hs.1, hs.2.2⟩
      · exact ⟨hs.1.1, hs.1.2.2⟩
    cases hc with
    | kept _ => exact h1
    | delimiters hc =>
      have := cut hc h1
      simp [this]
    | replaced hc _ _ hw =>
      have := cut hc h1
      simp [this, hw]
  | reference _ _ _ _ ih => simp only [partText, List.map_cons, List.flatten_cons, List.mem_append, not_or]; exact fun h => ⟨h.1, ih h.2⟩

theorem captures_perm {s : St Str} {a b : List Str} (h : Captures s a) (hab : ∀ x, x ∈ a ↔ x ∈ b) : Captures s b :=
  ⟨fun x => (hab x).symm.trans (h.1 x), h.2⟩

theorem build_captures [Uni] {isIdent : Str → Bool} : ∀ {ts before : List Tok} {named : List Str} {sub : Nat} {B : Built}
    {s t : St Str}, build isIdent before named sub ts = .ok B → Captures s named → t ∈ run B.re s →
    Captures t (B.groups ++ named) := by
  intro ts
  induction ts with
  | nil =>
    intro before named sub B s t hb hc ht
    simp only [build] at hb
    cases hb
    rw [mem_eos] at ht
    obtain ⟨rfl, h⟩ := ht
    exact hc
  | cons tok ts ih =>
    intro before named sub B s t hb hc ht
    cases tok with
    | c r x =>
      simp only [build] at hb
      split at hb
      · cases hb
      · rename_i b hb'
        cases hb
        rw [mem_cat] at ht
        obtain ⟨u, hu, ht⟩ := ht
        rw [mem_lit] at hu
        obtain ⟨r', er, rfl⟩ := hu
        have := ih hb' (hc.adv r r') ht
        exact this
    | g n x =>
      simp only [build] at hb
      split at hb
      · split at hb
        · cases hb
        · rename_i b hb'
          cases hb
          rw [mem_cat] at ht
          obtain ⟨u, hu, ht⟩ := ht
          rw [mem_bref] at hu
          obtain ⟨w, r', hw, er, rfl⟩ := hu
          have := ih hb' (hc.adv w r') ht
          exact this
      · split at hb
        · split at hb
          · cases hb
          · rename_i b hb'
            cases hb
            rw [mem_cat] at ht
            obtain ⟨u, hu, ht⟩ := ht
            rw [plus, mem_grp_dots] at hu
            obtain ⟨w, r', er, hw1, hw2, rfl⟩ := hu
            exact captures_perm (ih hb' (hc.cons hw1 hw2 _ _) ht) (fun y => by simp [or_left_comm])
        · cases hb
    | v x =>
      simp only [build] at hb
      split at hb
      · split at hb
        · cases hb
        · rename_i b hb'
          cases hb
          rw [mem_cat] at ht
          obtain ⟨u, hu, ht⟩ := ht
          rw [mem_lit] at hu
          obtain ⟨r', er, rfl⟩ := hu
          have := ih hb' (hc.adv x r') ht
          exact this
      · rename_i m hm
        split at hb
        · split at hb
          · cases hb
          · rename_i b hb'
            cases hb
            rw [mem_cat] at ht
            obtain ⟨u, hu, ht⟩ := ht
            rw [mem_cat] at ht
            obtain ⟨u2, hu2, ht⟩ := ht
            rw [mem_lit] at hu
            obtain ⟨r', er, rfl⟩ := hu
            rw [mem_lit] at hu2
            obtain ⟨r'', er2, rfl⟩ := hu2
            have := ih hb' ((hc.adv _ r').adv _ r'') ht
            exact this
        · split at hb
          · cases hb
          · split at hb
            · cases hb
            · rename_i b hb'
              cases hb
              rw [mem_cat] at ht
              obtain ⟨u, hu, ht⟩ := ht
              rw [mem_cat] at ht
              obtain ⟨u2, hu2, ht⟩ := ht
              rw [mem_cat] at ht
              obtain ⟨u3, hu3, ht⟩ := ht
              rw [mem_lit] at hu
              obtain ⟨r', er, rfl⟩ := hu
              rw [plusL, mem_grp_dots] at hu2
              obtain ⟨w, r1, er1, hw1, hw2, rfl⟩ := hu2
              rw [mem_lit] at hu3
              obtain ⟨r'', er2, rfl⟩ := hu3
              exact captures_perm (ih hb' ((Captures.cons (hc.adv _ r') hw1 hw2 _ _).adv _ r'') ht)
                (fun y => by simp [or_left_comm])

theorem build_groups [Uni] {isIdent : Str → Bool} : ∀ {ts before : List Tok} {named : List Str} {sub : Nat} {B : Built},
    build isIdent before named sub ts = .ok B → B.groups.Nodup ∧ (∀ x ∈ B.groups, x ∉ named) ∧
      (∀ x ∈ B.groups, IsSub x ∨ ∃ t, Tok.g x t ∈ ts) ∧ (∀ x t, Tok.g x t ∈ ts → x ∈ B.groups ∨ x ∈ named) := by
  intro ts
  induction ts with
  | nil =>
    intro before named sub B hb
    simp only [build] at hb
    cases hb
    simp
  | cons tok ts ih =>
    intro before named sub B hb
    cases tok with
    | c r x =>
      simp only [build] at hb
      split at hb
      · cases hb
      · rename_i b hb'
        cases hb
        simpa using ih hb'
    | g n x =>
      simp only [build] at hb
      split at hb
      · rename_i hn
        split at hb
        · cases hb
        · rename_i b hb'
          cases hb
          obtain ⟨h1, h2, h3, h4⟩ := ih hb'
          refine ⟨h1, h2, fun y hy => ?_, fun y t hy => ?_⟩
          · rcases h3 y hy with h | ⟨t, h⟩
            · exact .inl h
            · exact .inr ⟨t, by simp [h]⟩
          · simp only [List.mem_cons, Tok.g.injEq] at hy
            rcases hy with ⟨rfl, -⟩ | hy
            · exact .inr (by simpa using hn)
            · exact h4 y t hy
      · rename_i hn
        have hn : n ∉ named := by simpa using hn
        split at hb
        · split at hb
          · cases hb
          · rename_i b hb'
            cases hb
            obtain ⟨h1, h2, h3, h4⟩ := ih hb'
            refine ⟨?_, fun y hy => ?_, fun y hy => ?_, fun y t hy => ?_⟩
            · exact List.nodup_cons.mpr ⟨fun h => h2 n h (by simp), h1⟩
            · simp only [List.mem_cons] at hy
              rcases hy with rfl | hy
              · exact hn
              · exact fun h => h2 y hy (by simp [h])
            · simp only [List.mem_cons] at hy
              rcases hy with rfl | hy
              · exact .inr ⟨x, by simp⟩
              · rcases h3 y hy with h | ⟨t, h⟩
                · exact .inl h
                · exact .inr ⟨t, by simp [h]⟩
            · simp only [List.mem_cons, Tok.g.injEq] at hy
              rcases hy with ⟨rfl, -⟩ | hy
              · exact .inl (by simp)
              · have := h4 y t hy
                simp only [List.mem_cons] at this ⊢
                rcases this with h | h | h
                · exact .inl (.inr h)
                · exact .inl (.inl h)
                · exact .inr h
        · cases hb
    | v x =>
      simp only [build] at hb
      split at hb
      · split at hb
        · cases hb
        · rename_i b hb'
          cases hb
          simpa using ih hb'
      · split at hb
        · split at hb
          · cases hb
          · rename_i b hb'
            cases hb
            simpa using ih hb'
        · split at hb
          · cases hb
          · rename_i hn
            have hn : subName sub ∉ named := by simpa using hn
            split at hb
            · cases hb
            · rename_i b hb'
              cases hb
              obtain ⟨h1, h2, h3, h4⟩ := ih hb'
              refine ⟨?_, fun y hy => ?_, fun y hy => ?_, fun y t hy => ?_⟩
              · exact List.nodup_cons.mpr ⟨fun h => h2 _ h (by simp), h1⟩
              · simp only [List.mem_cons] at hy
                rcases hy with rfl | hy
                · exact hn
                · exact fun h => h2 y hy (by simp [h])
              · simp only [List.mem_cons] at hy
                rcases hy with rfl | hy
                · exact .inl (isSub_subName sub)
                · rcases h3 y hy with h | ⟨t, h⟩
                  · exact .inl h
                  · exact .inr ⟨t, by simp [h]⟩
              · simp only [List.mem_cons, reduceCtorEq, false_or] at hy
                have := h4 y t hy
                simp only [List.mem_cons] at this ⊢
                rcases this with h | h | h
                · exact .inl (.inr h)
                · exact .inl (.inl h)
                · exact .inr h

end Specfile.Update
