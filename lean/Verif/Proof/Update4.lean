import Verif.Spec.Reading
import Verif.Proof.Update3
import Verif.Props.Template
/-
Lemmas about `update`: the constructed expression and the references of the value.
-/
namespace Specfile.Update
open Py Regex Spec Props Template

theorem squash_groups : ∀ {ts ts' : List Tok}, squash ts = some ts' → ∀ x t, Tok.g x t ∈ ts' ↔ Tok.g x t ∈ ts := by
  intro ts
  induction ts with
  | nil => intro ts' h x t; simp only [squash] at h; cases h; rfl
  | cons a ts ih =>
    intro ts' h x t
    simp only [squash] at h
    split at h
    · cases h
    · rename_i r hr
      have hi := ih hr x t
      split at h <;> cases h <;> simp_all

theorem evaluate_flips {ex : Str → Except Err Str} {modifiable flippable : List Str} {p y : Str} {f g : Flips} {b : Bool}
    (he : evaluate ex modifiable flippable p y f = .ok (b, g)) : ∀ x ∈ g.toFlip, x ∈ f.toFlip ∨ x = y := by
  intro x hx
  unfold evaluate at he
  dsimp only at he
  split at he
  · cases he; exact .inl hx
  · split at he
    · cases he
    · split at he
      · split at he
        · cases he; exact .inl hx
        · split at he
          · cases he; exact .inl hx
          · cases he
            rcases List.mem_cons.mp hx with h | h
            · exact .inr h
            · exact .inl h
      · split at he
        · cases he; exact .inl hx
        · cases he; exact .inl hx

mutual
theorem openNode_tests {ex : Str → Except Err Str} {modifiable flippable : List Str} : ∀ (n : Node) {f g : Flips}
    {ps : List Piece}, openNode ex modifiable flippable n f = .ok (ps, g) →
    ∀ x ∈ g.toFlip, x ∈ f.toFlip ∨ x ∈ tested n
  | .cond p y body, f, g, ps, h => by
    intro x hx
    simp only [openNode] at h
    have hev : ∀ b f1, evaluate ex modifiable flippable p y f = .ok (b, f1) → ∀ x ∈ f1.toFlip, x ∈ f.toFlip ∨ x = y := by
      intro b f1 he x hx
      exact evaluate_flips he x hx
    split at h
    · cases h
    · rename_i f1 he
      cases h
      rcases hev _ _ he x hx with h | h
      · exact .inl h
      · right; simp [tested, h]
    · rename_i f1 he
      split at h
      · cases h
      · rename_i ps' f2 hb
        cases h
        rcases openNodes_tests body hb x hx with h | h
        · rcases hev _ _ he x h with h | h
          · exact .inl h
          · right; simp [tested, h]
        · right; simp [tested, h]
  | .lit s, f, g, ps, h => by simp only [openNode] at h; cases h; exact fun x h => .inl h
  | .shell s, f, g, ps, h => by simp only [openNode] at h; cases h; exact fun x h => .inl h
  | .expr s, f, g, ps, h => by simp only [openNode] at h; cases h; exact fun x h => .inl h
  | .sub _ s, f, g, ps, h => by simp only [openNode] at h; cases h; exact fun x h => .inl h
  | .encl _ s _, f, g, ps, h => by simp only [openNode] at h; cases h; exact fun x h => .inl h
  | .builtin _ s, f, g, ps, h => by simp only [openNode] at h; cases h; exact fun x h => .inl h
theorem openNodes_tests {ex : Str → Except Err Str} {modifiable flippable : List Str} : ∀ (l : List Node) {f g : Flips}
    {ps : List Piece}, openNodes ex modifiable flippable l f = .ok (ps, g) →
    ∀ x ∈ g.toFlip, x ∈ f.toFlip ∨ x ∈ testedAll l
  | [], f, g, ps, h => by simp only [openNodes] at h; cases h; exact fun x h => .inl h
  | n :: ns, f, g, ps, h => by
    intro x hx
    simp only [openNodes] at h
    split at h
    · cases h
    · rename_i ps1 f1 hn
      split at h
      · cases h
      · rename_i ps2 f2 hns
        cases h
        rcases openNodes_tests ns hns x hx with h | h
        · rcases openNode_tests n hn x h with h | h
          · exact .inl h
          · right; simp [testedAll, h]
        · right; simp [testedAll, h]
end

theorem parts_referred {ex : Str → Except Err Str} {entities flips : List Str} {ns : List Node} {ps : List Part}
    (hp : Parts ex entities flips ns ps) {x t : Str} (hx : Part.reference x t ∈ ps) : x ∈ referredAll ns := by
  induction hp with
  | nil => cases hx
  | lit _ ih => simp at hx; simp [referredAll, ih hx]
  | @reference n y ns ps hr _ _ ih =>
    simp only [List.mem_cons, Part.reference.injEq] at hx
    rcases hx with ⟨rfl, -⟩ | hx
    · simp only [referredAll, List.mem_append]
      left
      cases hr with
      | plain h => simp [referred, h]
      | braced h => simp [referred, h]
    · simp [referredAll, ih hx]
  | constant _ _ _ _ ih => simp at hx; simp [referredAll, ih hx]
  | closed _ _ ih => simp at hx; simp [referredAll, ih hx]
  | opened _ _ _ _ ih1 ih2 =>
    simp only [List.mem_cons, reduceCtorEq, List.mem_append, false_or] at hx
    rcases hx with hx | hx
    · simp [referredAll, referred, ih1 hx]
    · simp [referredAll, ih2 hx]

/-- what is known about a match of the constructed expression -/
theorem construct_match [Uni] {isIdent : Str → Bool} {ex : Str → Except Err Str} {entities flippable : List Str}
    {value requested : Str} {B : Built} {flips : List Str} {m : St Str}
    (h : construct isIdent ex entities flippable value = .ok (B, flips)) (hm : rmatch B.re requested = some m)
    (hne : requested ≠ []) (hline : '\n' ∉ requested) :
    ∃ nodes ps text, ValueParser.parse value = .ok nodes ∧ Parts ex entities flips nodes ps ∧ ¬ Unseparated ps ∧
      Rewritten m.get false ps text requested ∧ substitute m.get B.template = .ok text ∧
      (∀ x ∈ flips, x ∈ flippable ∧ x ∈ entities ∧ x ∈ testedAll nodes) ∧ B.groups.Nodup ∧
      (∀ x ∈ B.groups, s% "sub_" <+: x ∨ ∃ t, .reference x t ∈ ps) ∧ (∀ x t, .reference x t ∈ ps → x ∈ B.groups) := by
  have h0 := h
  unfold construct at h
  split at h
  · cases h
  · rename_i nodes hn
    split at h
    · cases h
    · rename_i ps f ho
      split at h
      · cases h
      · rename_i ts ht
        obtain ⟨g1, g2, g3⟩ := openNodes_parts nodes (f := ⟨[], []⟩) ⟨by simp, by simp⟩ ho
        have hp := g3 f g1 (.refl f) ts ht
        split at h
        · cases h
          have := mem_of_rmatch hm
          rw [mem_cat] at this
          obtain ⟨u, hu, ht⟩ := this
          rw [mem_bos] at hu
          rw [mem_eos] at ht
          rw [hu.1] at ht
          rcases ht.2 with h | h
          · exact absurd h hne
          · exact absurd (by rw [show requested = _ from h]; simp) hline
        · rename_i ts' hs
          split at h
          · cases h
          · rename_i b hb
            cases h
            have ht := (parts_tidy (q := fun _ => True) hp (C73_match_partial.ValueParserTidy hn)).1
            obtain ⟨s1, -, -, -, s5⟩ := squash_some (d := m.get) hs ht
            have := mem_of_rmatch hm
            rw [mem_cat] at this
            obtain ⟨u, hu, ht⟩ := this
            rw [mem_bos] at hu
            obtain ⟨rfl, -⟩ := hu
            obtain ⟨r, txt, b1, b2, b3, b4, -⟩ := build_sound hb (s := init requested)
              ⟨by simp [init, St.get], by simp [init, St.get]⟩ ht
            simp only [init] at b2
            have hr : requested = r := by
              rcases b3 with b3 | b3
              · rw [b2, b3]; simp
              · exact absurd (by rw [b2, b3]; simp) hline
            obtain ⟨c1, -, c3, c4⟩ := build_groups hb
            have hpart : ∀ x t, Part.reference x t ∈ ts.map part ↔ Tok.g x t ∈ ts := by
              intro x t
              simp only [List.mem_map]
              constructor
              · rintro ⟨a, ha, h⟩
                cases a <;> simp [part] at h
                obtain ⟨rfl, rfl⟩ := h
                exact ha
              · intro h; exact ⟨_, h, rfl⟩
            refine ⟨nodes, _, txt, hn, hp, s5, hr ▸ (s1 _ _ _).mpr b1, b4, ?_, c1, ?_, ?_⟩
            · intro x hx
              refine ⟨(g1.allowed x hx).1, (g1.allowed x hx).2, ?_⟩
              have := openNodes_tests nodes ho x hx
              simpa using this
            · intro x hx
              rcases c3 x hx with h | ⟨t, h⟩
              · exact .inl h
              · exact .inr ⟨t, (hpart x t).mpr ((squash_groups hs x t).mp h)⟩
            · intro x t hx
              have := c4 x t ((squash_groups hs x t).mpr ((hpart x t).mp hx))
              simpa using this

/-! the references of the tree -/

/-- the entities that are reached from the reference `x` on line `p` -/
inductive Under [Uni] (es : List Entity) (p : Nat) (x : Str) : Nat → Prop
  | here {i e} : es[i]? = some e → e.position < p → Designates x e → Under es p x i
  | next {k e y i e'} : Under es p x k → es[k]? = some e → y ∈ references e.value → es[i]? = some e' →
      e'.position < e.position → Designates y e' → Under es p x i

theorem Under.position [Uni] {es : List Entity} {p : Nat} {x : Str} {i : Nat} (h : Under es p x i) :
    ∃ e, es[i]? = some e ∧ e.position < p := by
  induction h with
  | here h1 h2 _ => exact ⟨_, h1, h2⟩
  | next h1 h2 h3 h4 h5 _ ih =>
    obtain ⟨e, he, hp⟩ := ih
    rw [h2] at he; cases he
    exact ⟨_, h4, by omega⟩

theorem Under.child [Uni] {es : List Entity} {p : Nat} {x y : Str} {k i : Nat} {e : Entity} (hk : es[k]? = some e)
    (hp : e.position < p) (hd : Designates x e) (hy : y ∈ references e.value) (h : Under es e.position y i) :
    Under es p x i := by
  induction h with
  | here h1 h2 h3 => exact .next (.here hk hp hd) hk hy h1 h2 h3
  | next h1 h2 h3 h4 h5 h6 ih => exact .next ih h2 h3 h4 h5 h6

theorem designates_lower [Uni] {e : Entity} {x y : Str} (hx : Designates x e) (hy : Designates y e) :
    Uni.lower x = Uni.lower y := by
  unfold Designates at hx hy
  by_cases h : e.isTag = true
  · rw [if_pos h] at hx hy; rw [← hx, ← hy]
  · rw [if_neg h] at hx hy; rw [← hx, ← hy]

theorem text_position {es : List Entity} {p : Nat} {v : Str} {s : Option Nat} {t : Str} {q : Nat}
    (h : Text es p v s t q) : q ≤ p := by
  cases s with
  | none => simp only [Text] at h; omega
  | some i => simp only [Text] at h; obtain ⟨e, _, h1, _, h2⟩ := h; omega

theorem text_unique {es : List Entity} {p : Nat} {v : Str} {s : Option Nat} {t t' : Str} {q q' : Nat}
    (h : Text es p v s t q) (h' : Text es p v s t' q') : t = t' ∧ q = q' := by
  cases s with
  | none => simp only [Text] at h h'; exact ⟨h.1.trans h'.1.symm, h.2.trans h'.2.symm⟩
  | some i =>
    simp only [Text] at h h'
    obtain ⟨e, a1, a2, a3, a4⟩ := h
    obtain ⟨e', b1, b2, b3, b4⟩ := h'
    rw [a1] at b1; cases b1
    exact ⟨a3.trans b3.symm, a4.trans b4.symm⟩

theorem Under.text [Uni] {es : List Entity} {p0 : Nat} {v0 : Str} {p : Nat} (hp : p ≤ p0) {x : Str} {i : Nat}
    (h : Under es p x i) : ∃ e, es[i]? = some e ∧ e.position < p ∧ Text es p0 v0 (some i) e.value e.position := by
  obtain ⟨e, he, hlt⟩ := h.position
  exact ⟨e, he, hlt, e, he, by omega, rfl, rfl⟩

/-- different references of a text reach different entities -/
theorem under_disjoint [Uni] {es : List Entity} {p0 : Nat} {v0 : Str} (tree : TreeLike es p0 v0) {s : Option Nat} {t : Str}
    {p : Nat} (ht : Text es p0 v0 s t p) {x y : Str} (hx : x ∈ references t) (hy : y ∈ references t) (hxy : x ≠ y) {i : Nat}
    (h1 : Under es p x i) (h2 : Under es p y i) : False := by
  have hp := text_position ht
  obtain ⟨a, ha⟩ := List.getElem?_of_mem hx
  obtain ⟨b, hb⟩ := List.getElem?_of_mem hy
  have key : ∀ {z : Str} {c : Nat}, (references t)[c]? = some z → ∀ {k : Nat} {e : Entity} {w : Str}, es[k]? = some e →
      e.position < p → w ∈ references e.value → Uni.lower z = Uni.lower w → False := by
    intro z c hc k e w hk hlt hw hl
    obtain ⟨d, hd⟩ := List.getElem?_of_mem hw
    have hs := (tree.once ht (s' := some k) ⟨e, hk, by omega, rfl, rfl⟩ hc hd hl).1
    subst hs
    obtain ⟨e', he', _, _, hq⟩ := ht
    rw [hk] at he'; cases he'
    omega
  induction h1 with
  | @here i e g1 g2 g3 =>
    cases h2 with
    | here k1 k2 k3 =>
      rw [g1] at k1; cases k1
      obtain ⟨-, rfl⟩ := tree.once ht ht ha hb (designates_lower g3 k3)
      rw [ha] at hb; cases hb
      exact hxy rfl
    | next k1 k2 k3 k4 k5 k6 =>
      rw [g1] at k4; cases k4
      obtain ⟨_, k7, k8⟩ := k1.position
      rw [k2] at k7; cases k7
      exact key ha k2 k8 k3 (designates_lower g3 k6)
  | @next k e z i e' g1 g2 g3 g4 g5 g6 ih =>
    cases h2 with
    | here k1 k2 k3 =>
      rw [g4] at k1; cases k1
      obtain ⟨_, k7, k8⟩ := g1.position
      rw [g2] at k7; cases k7
      exact key hb g2 k8 g3 (designates_lower k3 g6)
    | next k1 k2 k3 k4 k5 k6 =>
      rw [g4] at k4; cases k4
      obtain ⟨c, hc⟩ := List.getElem?_of_mem g3
      obtain ⟨d, hd⟩ := List.getElem?_of_mem k3
      obtain ⟨_, k7, k8⟩ := k1.position
      rw [k2] at k7; cases k7
      obtain ⟨_, g7, g8⟩ := g1.position
      rw [g2] at g7; cases g7
      obtain ⟨h, -⟩ := tree.once (s := some _) (s' := some _) ⟨_, g2, by omega, rfl, rfl⟩ ⟨_, k2, by omega, rfl, rfl⟩ hc hd
        (designates_lower g6 k6)
      cases h
      exact ih k1

/-- what is tested under a reference -/
def TestedUnder [Uni] (es : List Entity) (p : Nat) (x : Str) (z : Str) : Prop :=
  ∃ i e, Under es p x i ∧ es[i]? = some e ∧ z ∈ tests e.value

def UsedUnder [Uni] (es : List Entity) (p : Nat) (x : Str) (z : Str) : Prop :=
  ∃ i e, Under es p x i ∧ es[i]? = some e ∧ (z ∈ tests e.value ∨ z ∈ references e.value)

theorem tested_disjoint [Uni] {es : List Entity} {p0 : Nat} {v0 : Str} (tree : TreeLike es p0 v0) {s : Option Nat} {t : Str}
    {p : Nat} (ht : Text es p0 v0 s t p) {x y : Str} (hx : x ∈ references t) (hy : y ∈ references t) (hxy : x ≠ y) {z : Str}
    (h1 : TestedUnder es p x z) (h2 : UsedUnder es p y z) : False := by
  have hp := text_position ht
  obtain ⟨i, e, a1, a2, a3⟩ := h1
  obtain ⟨j, f, b1, b2, b3⟩ := h2
  obtain ⟨e', c1, c2, c3⟩ := a1.text (v0 := v0) hp
  rw [a2] at c1; cases c1
  obtain ⟨f', d1, d2, d3⟩ := b1.text (v0 := v0) hp
  rw [b2] at d1; cases d1
  have := tree.apart c3 d3 a3 b3
  cases this
  exact under_disjoint tree ht hx hy hxy a1 b1

theorem tested_outside [Uni] {es : List Entity} {p0 : Nat} {v0 : Str} (tree : TreeLike es p0 v0) {s : Option Nat} {t : Str}
    {p : Nat} (ht : Text es p0 v0 s t p) {x : Str} {z : Str}
    (h1 : TestedUnder es p x z) (h2 : z ∈ tests t ∨ z ∈ references t) : False := by
  have hp := text_position ht
  obtain ⟨i, e, a1, a2, a3⟩ := h1
  obtain ⟨e', c1, c2, c3⟩ := a1.text (v0 := v0) hp
  rw [a2] at c1; cases c1
  have := tree.apart c3 ht a3 h2
  subst this
  obtain ⟨_, h, _, _, hq⟩ := ht
  rw [a2] at h; cases h
  omega

end Specfile.Update
