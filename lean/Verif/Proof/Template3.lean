import Verif.Proof.Template2
import Verif.Proof.ValueParser
/-
Helper lemmas for C73: conditionals, tokens, merged tokens.
-/
namespace Specfile.Template
open Py Regex Spec

/-! ### merged tokens -/

theorem rewritten_cons_congr [Uni] {d : Str → Option Str} {p : Part} {ps qs : List Part}
    (h : ∀ near t r, Rewritten d near ps t r ↔ Rewritten d near qs t r)
    (hf : referenceFirst ps = referenceFirst qs) (near : Bool) (t r : Str) :
    Rewritten d near (p :: ps) t r ↔ Rewritten d near (p :: qs) t r := by
  constructor
  · intro hr
    cases hr with
    | constant hr => exact .constant ((h ..).mp hr)
    | literal hc hr => exact .literal (hf ▸ hc) ((h ..).mp hr)
    | reference h1 h2 h3 hr => exact .reference h1 h2 h3 ((h ..).mp hr)
  · intro hr
    cases hr with
    | constant hr => exact .constant ((h ..).mpr hr)
    | literal hc hr => exact .literal (hf ▸ hc) ((h ..).mpr hr)
    | reference h1 h2 h3 hr => exact .reference h1 h2 h3 ((h ..).mpr hr)

theorem rewritten_merge [Uni] {d : Str → Option Str} {a b a' b' : Str} {ps : List Part} (near : Bool) (t r : Str) :
    Rewritten d near (.constant a b :: .constant a' b' :: ps) t r ↔
      Rewritten d near (.constant (a ++ a') (b ++ b') :: ps) t r := by
  constructor
  · intro hr
    cases hr with
    | constant hr =>
      cases hr with
      | constant hr =>
        rename_i t r
        have : Rewritten d (near && (a ++ a').isEmpty) ps t r := by
          rw [Bool.and_assoc] at hr
          cases a <;> simpa using hr
        have := Rewritten.constant (s := b ++ b') this
        simpa using this
  · intro hr
    cases hr with
    | constant hr =>
      rename_i t r
      have : Rewritten d (near && a.isEmpty && a'.isEmpty) ps t r := by
        rw [Bool.and_assoc]
        cases a <;> simpa using hr
      have := Rewritten.constant (s := b) (Rewritten.constant (s := b') this)
      simpa using this

theorem referenceFirst_merge (a b a' b' : Str) (ps : List Part) :
    referenceFirst (.constant a b :: .constant a' b' :: ps) = referenceFirst (.constant (a ++ a') (b ++ b') :: ps) := by
  simp only [referenceFirst]
  cases a <;> simp

/-- no two literals in a row -/
def Apart : List Part → Prop
  | .literal _ :: .literal _ :: _ => False
  | _ :: ps => Apart ps
  | [] => True

theorem apart_tail {p : Part} {ps : List Part} (h : Apart (p :: ps)) : Apart ps := by
  cases p <;> cases ps with
  | nil => trivial
  | cons q ps => cases q <;> simp_all [Apart]

theorem squash_head {t : Tok} {ts r : List Tok} (h : squash (t :: ts) = some r) :
    ∃ u r', r = u :: r' ∧ (match t, u with
      | .c _ _, .c _ _ => True
      | .v _, .v _ => True
      | .g _ _, .g _ _ => True
      | _, _ => False) := by
  simp only [squash] at h
  split at h
  · cases h
  · split at h
    · cases h; exact ⟨_, _, rfl, trivial⟩
    · cases h; exact ⟨_, _, rfl, trivial⟩
    · cases h
    · cases h
      refine ⟨_, _, rfl, ?_⟩
      cases t <;> trivial

theorem squash_some [Uni] {d : Str → Option Str} : ∀ {ts r : List Tok}, squash ts = some r → Apart (ts.map part) →
    (∀ near t x, Rewritten d near (ts.map part) t x ↔ Rewritten d near (r.map part) t x) ∧
      referenceFirst (ts.map part) = referenceFirst (r.map part) ∧
      (∀ s, Tok.v s ∈ r → Tok.v s ∈ ts) ∧ (∀ n s, Tok.g n s ∈ r → Tok.g n s ∈ ts) ∧
      ¬ Unseparated (ts.map part) := by
  intro ts
  induction ts with
  | nil =>
    intro r h _
    cases h
    refine ⟨fun _ _ _ => .rfl, rfl, fun _ h => h, fun _ _ h => h, ?_⟩
    rintro ⟨a, x, s, y, t, b, e⟩
    simp at e
  | cons t ts ih =>
    intro r h ha
    have ha' : Apart (ts.map part) := apart_tail ha
    have hsep : ∀ {u}, squash ts = some u → ¬ Unseparated (ts.map part) → (∀ x s y z b, t = .g x s → ts ≠ .g y z :: b) →
        ¬ Unseparated ((t :: ts).map part) := by
      rintro u hu hns hne ⟨a, x, s, y, z, b, e⟩
      cases a with
      | nil =>
        cases t with
        | c _ _ => simp [part] at e
        | v _ => simp [part] at e
        | g x' s' =>
          cases ts with
          | nil => simp at e
          | cons t2 ts =>
            cases t2 with
            | c _ _ => simp [part] at e
            | v _ => simp [part] at e
            | g y z => exact hne _ _ _ _ _ rfl rfl
      | cons a0 a =>
        simp only [List.map_cons, List.cons_append, List.cons.injEq] at e
        exact hns ⟨a, x, s, y, z, b, e.2⟩
    simp only [squash] at h
    split at h
    · cases h
    · rename_i u hu
      obtain ⟨i1, i2, i3, i4, i5⟩ := ih hu ha'
      split at h
      · rename_i a b a' b' r0
        cases h
        refine ⟨?_, ?_, ?_, ?_, hsep hu i5 (by rintro x s y z b0 ⟨⟩)⟩
        · intro near t x
          simp only [List.map_cons, part]
          rw [rewritten_cons_congr i1 i2]
          simp only [List.map_cons, part]
          exact rewritten_merge ..
        · simp only [List.map_cons, part]
          rw [← referenceFirst_merge]
          simp only [referenceFirst, i2, List.map_cons, part]
        · intro s hs
          simp only [List.mem_cons, reduceCtorEq, false_or] at hs ⊢
          exact i3 s (by simp [hs])
        · intro n s hs
          simp only [List.mem_cons, reduceCtorEq, false_or] at hs ⊢
          exact i4 n s (by simp [hs])
      · rename_i a b r0
        exfalso
        cases ts with
        | nil => simp [squash] at hu
        | cons t2 ts =>
          obtain ⟨v, r', e, hk⟩ := squash_head hu
          cases e
          cases t2 with
          | c _ _ => exact hk
          | g _ _ => exact hk
          | v _ => simp [Apart, part] at ha
      · cases h
      · rename_i n1 n2 n3
        cases h
        refine ⟨fun near t x => ?_, ?_, ?_, ?_, ?_⟩
        · simp only [List.map_cons]
          exact rewritten_cons_congr i1 i2 ..
        · simp only [List.map_cons]
          cases t <;> simp only [part, referenceFirst, i2]
        · intro s hs
          simp only [List.mem_cons] at hs ⊢
          exact hs.imp id (i3 s)
        · intro n s hs
          simp only [List.mem_cons] at hs ⊢
          exact hs.imp id (i4 n s)
        · refine hsep hu i5 ?_
          rintro x s y z b rfl rfl
          obtain ⟨v, r', e, hk⟩ := squash_head hu
          subst e
          cases v with
          | c _ _ => exact hk
          | v _ => exact hk
          | g y' z' => exact n3 _ _ _ _ _ rfl rfl

theorem squash_none : ∀ {ts : List Tok}, squash ts = none → Unseparated (ts.map part) := by
  intro ts
  induction ts with
  | nil => intro h; cases h
  | cons t ts ih =>
    intro h
    simp only [squash] at h
    split at h
    · rename_i hu
      obtain ⟨a, x, s, y, z, b, e⟩ := ih hu
      exact ⟨part t :: a, x, s, y, z, b, by simp [e]⟩
    · rename_i u hu
      split at h
      · cases h
      · cases h
      · rename_i n x n' x' r0
        cases ts with
        | nil => simp [squash] at hu
        | cons t2 ts =>
          obtain ⟨v, r', e, hk⟩ := squash_head hu
          cases e
          cases t2 with
          | c _ _ => exact hk.elim
          | v _ => exact hk.elim
          | g n2 x2 => exact ⟨[], n, x, n2, x2, _, rfl⟩
      · cases h

end Specfile.Template
