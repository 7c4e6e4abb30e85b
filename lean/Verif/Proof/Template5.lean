import Verif.Proof.Template4
import Verif.Py.Num
/-
`construct` does not fail.
-/
namespace Specfile.Template
open Py Regex Spec

theorem subName_inj [Uni] {m n : Nat} (h : subName m = subName n) : m = n := by
  unfold subName at h
  have := congrArg decVal (List.append_cancel_left h)
  simpa using this

theorem evaluate_ok {ex : Str → Except Err Str} (hex : ∀ s, ∃ r, ex s = .ok r) {modifiable flippable : List Str} (pfx name : Str)
    (f : Flips) : ∃ b f', evaluate ex modifiable flippable pfx name f = .ok (b, f') := by
  unfold evaluate
  obtain ⟨r, hr⟩ := hex (s% "%{?" ++ name ++ s% ":1}")
  split
  · exact ⟨_, _, rfl⟩
  · rw [hr]
    simp only
    repeat' split
    all_goals exact ⟨_, _, rfl⟩

mutual
theorem openNode_ok {ex : Str → Except Err Str} (hex : ∀ s, ∃ r, ex s = .ok r) {modifiable flippable : List Str} (n : Node)
    (f : Flips) : ∃ ps f', openNode ex modifiable flippable n f = .ok (ps, f') := by
  cases n with
  | cond pfx name body =>
    obtain ⟨b, f', h⟩ := evaluate_ok (modifiable := modifiable) (flippable := flippable) hex pfx name f
    unfold openNode
    rw [h]
    cases b with
    | false => exact ⟨_, _, rfl⟩
    | true =>
      obtain ⟨ps, f'', h'⟩ := openNodes_ok (modifiable := modifiable) (flippable := flippable) hex body f'
      simp only [h']
      exact ⟨_, _, rfl⟩
  | lit s => exact ⟨_, _, by unfold openNode; rfl⟩
  | shell s => exact ⟨_, _, by unfold openNode; rfl⟩
  | expr s => exact ⟨_, _, by unfold openNode; rfl⟩
  | sub p s => exact ⟨_, _, by unfold openNode; rfl⟩
  | encl p s a => exact ⟨_, _, by unfold openNode; rfl⟩
  | builtin p s => exact ⟨_, _, by unfold openNode; rfl⟩
theorem openNodes_ok {ex : Str → Except Err Str} (hex : ∀ s, ∃ r, ex s = .ok r) {modifiable flippable : List Str} (ns : List Node)
    (f : Flips) : ∃ ps f', openNodes ex modifiable flippable ns f = .ok (ps, f') := by
  cases ns with
  | nil => exact ⟨_, _, by unfold openNodes; rfl⟩
  | cons n ns =>
    obtain ⟨ps, f1, h1⟩ := openNode_ok (modifiable := modifiable) (flippable := flippable) hex n f
    obtain ⟨qs, f2, h2⟩ := openNodes_ok (modifiable := modifiable) (flippable := flippable) hex ns f1
    unfold openNodes
    rw [h1]
    simp only [h2]
    exact ⟨_, _, rfl⟩
end

theorem constant_ok {ex : Str → Except Err Str} (hex : ∀ s, ∃ r, ex s = .ok r) (n : Node) :
    ∃ ts, constant ex n = .ok ts ∧ ∀ x t, Tok.g x t ∉ ts := by
  unfold constant
  obtain ⟨r, hr⟩ := hex n.str
  rw [hr]
  exact ⟨_, rfl, by simp⟩

theorem token_ok {ex : Str → Except Err Str} (hex : ∀ s, ∃ r, ex s = .ok r) {modifiable : List Str} (p : Piece) :
    ∃ ts, token ex modifiable p = .ok ts ∧ ∀ x t, Tok.g x t ∈ ts → x ∈ modifiable := by
  have hc : ∀ n, ∃ ts, constant ex n = .ok ts ∧ ∀ x t, Tok.g x t ∈ ts → x ∈ modifiable := by
    intro n
    obtain ⟨ts, h1, h2⟩ := constant_ok hex n
    exact ⟨ts, h1, fun x t h => absurd h (h2 x t)⟩
  unfold token
  split
  · exact ⟨_, rfl, by simp⟩
  · exact ⟨_, rfl, by simp⟩
  · exact hc _
  · exact hc _
  · exact hc _
  · split
    · rename_i h
      refine ⟨_, rfl, fun x t hx => ?_⟩
      simp only [List.mem_singleton, Tok.g.injEq] at hx
      rw [hx.1]; simpa using h.2
    · exact hc _
  · split
    · rename_i h
      refine ⟨_, rfl, fun x t hx => ?_⟩
      simp only [List.mem_singleton, Tok.g.injEq] at hx
      rw [hx.1]; simpa using h.2.2
    · exact hc _
  · exact ⟨_, rfl, by simp⟩

theorem tokens_ok {ex : Str → Except Err Str} (hex : ∀ s, ∃ r, ex s = .ok r) {modifiable : List Str} (ps : List Piece) :
    ∃ ts, tokens ex modifiable ps = .ok ts ∧ ∀ x t, Tok.g x t ∈ ts → x ∈ modifiable := by
  induction ps with
  | nil => exact ⟨[], rfl, by simp⟩
  | cons p ps ih =>
    obtain ⟨a, h1, h2⟩ := token_ok (modifiable := modifiable) hex p
    obtain ⟨b, h3, h4⟩ := ih
    refine ⟨a ++ b, by simp [tokens, h1, h3], fun x t h => ?_⟩
    rcases List.mem_append.mp h with h | h
    · exact h2 x t h
    · exact h4 x t h

theorem squash_groups' : ∀ {ts r : List Tok}, squash ts = some r → ∀ x t, Tok.g x t ∈ r → Tok.g x t ∈ ts := by
  intro ts
  induction ts with
  | nil => intro r h; simp [squash] at h; subst h; simp
  | cons a ts ih =>
    intro r h x t hx
    unfold squash at h
    split at h
    · cases h
    · rename_i r' hr
      have := ih hr x t
      split at h <;> simp only [Option.some.injEq, reduceCtorEq] at h <;> subst h <;>
        simp only [List.mem_cons, reduceCtorEq, false_or] at hx this ⊢
      · exact this hx
      · exact this hx
      · rcases hx with hx | hx
        · exact .inl hx
        · exact .inr (this hx)

theorem build_ok [Uni] {isIdent : Str → Bool} : ∀ (ts : List Tok) (before : List Tok) (named : List Str) (sub : Nat),
    (∀ n ∈ named, s% "sub_" <+: n → ∃ k, k < sub ∧ n = subName k) →
    (∀ x t, Tok.g x t ∈ ts → isIdent x = true ∧ ¬ s% "sub_" <+: x) → ∃ b, build isIdent before named sub ts = .ok b := by
  intro ts
  induction ts with
  | nil => intro before named sub _ _; exact ⟨_, rfl⟩
  | cons a ts ih =>
    intro before named sub hn hg
    have hg' : ∀ x t, Tok.g x t ∈ ts → isIdent x = true ∧ ¬ s% "sub_" <+: x := fun x t h => hg x t (.tail _ h)
    cases a with
    | c r t =>
      obtain ⟨b, hb⟩ := ih (.c r t :: before) named sub hn hg'
      simp only [build, hb]; exact ⟨_, rfl⟩
    | g n t =>
      simp only [build]
      split
      · obtain ⟨b, hb⟩ := ih (.g n t :: before) named sub hn hg'
        simp only [hb]; exact ⟨_, rfl⟩
      · obtain ⟨h1, h2⟩ := hg n t (.head _)
        obtain ⟨b, hb⟩ := ih (.g n t :: before) (n :: named) sub (by
          intro m hm hp
          rcases List.mem_cons.mp hm with rfl | hm
          · exact absurd hp h2
          · exact hn m hm hp) hg'
        simp only [h1, hb, if_true]; exact ⟨_, rfl⟩
    | v s =>
      simp only [build]
      split
      · obtain ⟨b, hb⟩ := ih (.v s :: before) named sub hn hg'
        simp only [hb]; exact ⟨_, rfl⟩
      · split
        · obtain ⟨b, hb⟩ := ih (.v s :: before) named sub hn hg'
          simp only [hb]; exact ⟨_, rfl⟩
        · have hnew : named.contains (subName sub) = false := by
            rw [Bool.eq_false_iff]
            intro h
            obtain ⟨k, hk, he⟩ := hn (subName sub) (by simpa using h) ⟨_, rfl⟩
            have := subName_inj he
            omega
          obtain ⟨b, hb⟩ := ih (.v s :: before) (subName sub :: named) (sub + 1) (by
            intro m hm hp
            rcases List.mem_cons.mp hm with rfl | hm
            · exact ⟨sub, by omega, rfl⟩
            · obtain ⟨k, hk, he⟩ := hn m hm hp
              exact ⟨k, by omega, he⟩) hg'
          simp only [hnew, hb, Bool.false_eq_true, if_false]; exact ⟨_, rfl⟩

theorem construct_ok [Uni] {isIdent : Str → Bool} {ex : Str → Except Err Str} (hex : ∀ s, ∃ r, ex s = .ok r)
    {modifiable flippable : List Str} (hm : ∀ x ∈ modifiable, isIdent x = true ∧ ¬ s% "sub_" <+: x) {value : Str}
    {nodes : List Node} (hn : ValueParser.parse value = .ok nodes) :
    ∃ B flips, construct isIdent ex modifiable flippable value = .ok (B, flips) := by
  obtain ⟨ps, f, h1⟩ := openNodes_ok (modifiable := modifiable) (flippable := flippable) hex nodes ⟨[], []⟩
  obtain ⟨ts, h2, h3⟩ := tokens_ok (modifiable := modifiable) hex ps
  unfold construct
  rw [hn]
  simp only [h1, h2]
  split
  · exact ⟨_, _, rfl⟩
  · rename_i r hr
    obtain ⟨b, hb⟩ := build_ok (isIdent := isIdent) r [] [] 0 (by simp) (fun x t h => hm x (h3 x t (squash_groups' hr x t h)))
    simp only [hb]
    exact ⟨_, _, rfl⟩

end Specfile.Template
