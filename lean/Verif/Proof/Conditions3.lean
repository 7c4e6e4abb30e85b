import Verif.Proof.Conditions2
/-
Balance of conditions; independence from lines of macro definitions.
-/
namespace Specfile
open Py Regex Spec
open MacroDefinitions (EndText end_head)
namespace Conditions

theorem resolve_total [Uni] {ex : Str → Except Err Str} (h : ∀ s e, ex s ≠ .error e) (kw e : Str) :
    ∃ b, resolve ex kw e = .ok b := by
  cases hr : resolve ex kw e with
  | ok b => exact ⟨b, rfl⟩
  | error er => obtain ⟨s, hs⟩ := resolve_error hr; exact absurd hs (h _ _)

/-- the successor depth -/
theorem keyword_cases {kw : Str} (h : kw ∈ keywords) :
    kw ∈ openers ∨ kw ∈ elifs ++ negElifs ∨ kw = s% "%else" ∨ kw = s% "%endif" := by
  simp only [keywords, List.mem_append, List.mem_cons, List.not_mem_nil, or_false] at h ⊢
  rcases h with ((h | h) | h) | h
  · exact .inl h
  · exact .inr (.inl (.inl h))
  · exact .inr (.inl (.inr h))
  · exact .inr (.inr h)

theorem not_opener {kw : Str} (h : kw ∈ elifs ++ negElifs ++ [s% "%else", s% "%endif"]) : kw ∉ openers := by
  revert kw; decide

theorem not_middle {kw : Str} (h : kw ∈ openers ++ [s% "%endif"]) :
    kw ∉ elifs ++ negElifs ++ [s% "%else"] := by
  revert kw; decide

theorem middle_keyword {kw : Str} (h : kw ∈ elifs ++ negElifs ++ [s% "%else"]) : kw ∈ keywords := by
  revert kw; decide

theorem expands_fun {ex : Str → Except Err Str} {line l l' : Str} (h : Expands ex line l)
    (h' : Expands ex line l') : l = l' := by
  rcases h with h | ⟨h, rfl⟩ <;> rcases h' with h' | ⟨h', rfl⟩ <;> simp_all

theorem loop_ok_iff [Uni] {ex : Oracle} {exc : List Range} {i : Nat} {l : Str} {ls : List Str}
    {br br' : List Bool} {f : Bool}
    (h : step ex exc i l ls br = .ok (f, [], br')) :
    (∃ r, loop ex exc i [] br (l :: ls) = .ok r) ↔ ∃ r, loop ex exc (i + 1) [] br' ls = .ok r := by
  rw [loop_step h]
  cases loop ex exc (i + 1) [] br' ls <;> simp [pre]

end Conditions
end Specfile
