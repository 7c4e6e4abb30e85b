import Verif.Spec.Undo
import Verif.Model.Tags
/-
Lemmas for C100: the lines around an inserted tag.
-/
namespace Specfile.Proof.Undo
open Py Spec

theorem startsWith_prefix {l p : Str} : startsWith l p = true ↔ p <+: l := by
  simp [startsWith]

theorem dropWhile_head {l : List Str} (h : l.head? ≠ some []) : l.dropWhile (·.isEmpty) = l := by
  cases l with
  | nil => rfl
  | cons x l =>
    have : x ≠ [] := by simpa using h
    cases x with
    | nil => exact absurd rfl this
    | cons c x => simp [List.dropWhile]

/-- joining the parts of lines that do not end with an empty line -/
theorem compress_kept {a b : List Str} (ha : a.getLast? ≠ some []) :
    Tags.compress a b = a ++ b ↔ ¬ ∃ c, b = [] :: [] :: c := by
  have h1 : (a.reverse.dropWhile (·.isEmpty)).reverse = a := by
    rw [dropWhile_head (by rw [List.head?_reverse]; exact ha), List.reverse_reverse]
  have h2 : ((!a.isEmpty && a.getLast? == some []) || (!b.isEmpty && b.head? == some [])) =
      (!b.isEmpty && b.head? == some []) := by
    have : (a.getLast? == some []) = false := by simpa using ha
    rw [this]
    simp
  unfold Tags.compress
  rw [h1, h2]
  rw [List.append_assoc, List.append_cancel_left_eq]
  cases b with
  | nil => simp
  | cons x b =>
    cases x with
    | cons c x => simp [List.dropWhile]
    | nil =>
      simp only [List.isEmpty_cons, Bool.not_false, List.head?_cons, BEq.rfl, Bool.and_self, if_true, List.dropWhile,
        List.isEmpty_nil, List.cons_append, List.nil_append, List.cons.injEq, true_and]
      cases b with
      | nil => simp
      | cons y b =>
        cases y with
        | cons c y => simp [List.dropWhile]
        | nil =>
          simp only [List.cons.injEq, true_and, exists_eq', not_true_eq_false, iff_false]
          intro h
          have : (List.dropWhile (fun x : Str => x.isEmpty) b).length ≤ b.length := by
            exact (List.dropWhile_sublist _).length_le
          simp only [List.dropWhile, List.isEmpty_nil] at h
          rw [h, List.length_cons] at this
          omega

theorem findIdx?_split {p : Str → Bool} {l : List Str} {k : Nat} (h : l.findIdx? p = some k) :
    ∃ a e b, l = a ++ e :: b ∧ a.length = k ∧ p e = true ∧ ∀ x ∈ a, p x = false := by
  obtain ⟨hk, hp, hb⟩ := List.findIdx?_eq_some_iff_getElem.1 h
  refine ⟨l.take k, l[k], l.drop (k + 1), ?_, by simp; omega, hp, ?_⟩
  · rw [← List.drop_eq_getElem_cons hk, List.take_append_drop]
  · intro x hx
    obtain ⟨i, hi, rfl⟩ := List.mem_iff_getElem.1 hx
    simp only [List.length_take] at hi
    rw [List.getElem_take]
    have := hb i (by omega)
    simpa using this

/-- the lines that were split for a new tag are joined again -/
theorem split_joined (lines : List Str) :
    Tags.compress (Tags.splitEndif lines).1 (Tags.splitEndif lines).2 = lines ↔ ¬ BlankPair lines := by
  unfold Tags.splitEndif
  cases h : lines.findIdx? (fun l => startsWith l (s% "%endif")) with
  | none =>
    have hno : ∀ l ∈ lines, ¬ s% "%endif" <+: l := by
      intro l hl hp
      have := List.findIdx?_eq_none_iff.1 h l hl
      rw [startsWith_prefix.2 hp] at this
      cases this
    have q := compress_kept (a := []) (b := lines) (by simp)
    simp only [List.nil_append] at q
    simp only [q]
    constructor
    · intro hc hb
      rcases hb with ⟨_, hb⟩ | ⟨a, e, b, rfl, he, _⟩
      · exact hc hb
      · exact hno e (by simp) he
    · exact fun hb hc => hb (.inl ⟨hno, hc⟩)
  | some k =>
    obtain ⟨a, e, b, rfl, rfl, he, ha⟩ := findIdx?_split h
    have t1 : (a ++ e :: b).take (a.length + 1) = a ++ [e] := by
      rw [List.take_append]; simp [List.take_of_length_le]
    have t2 : (a ++ e :: b).drop (a.length + 1) = b := by
      rw [List.drop_append]; simp [List.drop_of_length_le]
    have he' : s% "%endif" <+: e := startsWith_prefix.1 he
    have hne : e ≠ [] := by
      rintro rfl
      simp at he'
    have ha' : ∀ l ∈ a, ¬ s% "%endif" <+: l := by
      intro l hl hp
      have := ha l hl
      rw [startsWith_prefix.2 hp] at this
      cases this
    have q := compress_kept (a := a ++ [e]) (b := b) (by simpa using hne)
    simp only [t1, t2]
    rw [show a ++ e :: b = a ++ [e] ++ b by simp, q]
    constructor
    · rintro hc (⟨hn, _⟩ | ⟨a', e', b', hs, h1, h2⟩)
      · exact hn e (by simp) he'
      · apply hc
        rw [List.append_assoc, List.append_eq_append_iff] at hs
        rcases hs with ⟨u, q1, q2⟩ | ⟨u, q1, q2⟩
        · cases u with
          | nil =>
            simp only [List.nil_append, List.singleton_append, List.cons.injEq] at q2
            exact ⟨b', q2.2⟩
          | cons z u =>
            simp only [List.cons_append, List.cons.injEq] at q2
            exact absurd he' (h2 e (by simp [q1, q2.1]))
        · cases u with
          | nil =>
            simp only [List.nil_append, List.singleton_append, List.cons.injEq] at q2
            exact ⟨b', q2.2.symm⟩
          | cons z u =>
            simp only [List.cons_append, List.cons.injEq] at q2
            exact absurd h1 (ha' e' (by simp [q1, q2.1]))
    · rintro hb ⟨c, rfl⟩
      exact hb (.inr ⟨a, e, c, by simp, he', ha'⟩)

end Specfile.Proof.Undo
