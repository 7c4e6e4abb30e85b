import Verif.Proof.Conditions3
/-
Lines of macro definitions do not influence conditions.
-/
namespace Specfile
open Py Regex Spec
namespace Conditions

theorem condRe_expr {line : Str} {m : St G} (h : rmatch condRe line = some m) :
    (m.get .expr = none) ∨ ∃ b e x r, m.get .expr = some b ∧ m.get .fin = some e ∧
      line = x ++ b ++ e ++ r ∧ (∀ c ∈ r, isSpace c = true) ∧ ((∀ c ∈ e, isSpace c = true) ∨ e = ['\\']) := by
  rw [condRe_eq] at h
  have h := List.mem_of_head? h
  simp only [mem_cat, star, mem_rep', mem_grp, kwd_mem] at h
  obtain ⟨_, ⟨w, r, h1, h2, _, rfl⟩, _, ⟨u, v, ⟨kw, hk, r', h3, rfl⟩, h4, rfl⟩, h5⟩ := h
  simp only [init] at h1 h3 h4
  simp only [afterRe, star, plus, mem_cat, mem_opt, mem_rep', mem_eos, mem_grp, starL, mem_alt, mem_ch] at h5
  obtain ⟨_, ⟨w1, r1, h6, _, _, rfl⟩, x, h7, rfl, hend⟩ := h5
  simp only at h6 h7 hend
  rcases h7 with ⟨_, ⟨w2, r2, h8, _, _, rfl⟩, _, ⟨_, b, ⟨w3, r3, h9, _, _, rfl⟩, h10, rfl⟩, _, e, h11, h12, rfl⟩ | rfl
  · right
    simp only at h8 h9 h10 h12 hend
    have hb : w3 = b := by
      rw [h9] at h10; exact List.append_cancel_right h10
    subst hb
    rcases h11 with ⟨w4, r4, h13, h14, _, rfl⟩ | ⟨cs, h13, rfl⟩
    · simp only at h13 h12 hend
      have : w4 = e := by rw [h13] at h12; exact List.append_cancel_right h12
      subst this
      refine ⟨w3, w4, w ++ kw ++ w1 ++ w2, r4, by simp [St.get], by simp [St.get], ?_, ?_, .inl (List.all_eq_true.1 h14)⟩
      · rw [h1, h3, h6, h8, h9, h13]; simp
      · rcases hend with h | h <;> rw [h] <;> simp; decide
    · simp only at h13 h12 hend
      have : ['\\'] = e := by
        rw [h13] at h12
        exact List.append_cancel_right (bs := cs) h12
      subst this
      refine ⟨w3, ['\\'], w ++ kw ++ w1 ++ w2, cs, by simp [St.get], by simp [St.get], ?_, ?_, .inr rfl⟩
      · rw [h1, h3, h6, h8, h9, h13]; simp
      · rcases hend with h | h <;> rw [h] <;> simp; decide
  · left; simp [St.get, init]

theorem sameOutside_here {inBody : Nat → Prop} {i : Nat} {l l' : Str} {ls ls' : List Str}
    (h : SameOutside inBody i (l :: ls) (l' :: ls')) (hi : ¬ inBody i) :
    l' = l ∧ SameOutside inBody (i + 1) ls ls' := by
  cases h with
  | same h => exact ⟨rfl, h⟩
  | inBody h => contradiction

theorem notJoined_tail {ex : Oracle} {inBody : Nat → Prop} {i : Nat} {l : Str} {ls : List Str}
    (h : NotJoined ex inBody i (l :: ls)) : NotJoined ex inBody (i + 1) ls := by
  intro k line hk hi
  have := h (k + 1) line (by simpa using hk)
  rw [show i + (k + 1) = i + 1 + k by omega] at this
  exact this hi

theorem endsWith_two {s : Str} : s.getLast? = some '\\' → s.dropLast.getLast? = some '\\' →
    EndsInTwoBackslashes s := by
  intro h1 h2
  obtain ⟨a, rfl⟩ := List.getLast?_eq_some_iff.1 h1
  rw [List.dropLast_concat] at h2
  obtain ⟨b, rfl⟩ := List.getLast?_eq_some_iff.1 h2
  exact ⟨b, [], by simp, by simp⟩

theorem continuation_congr {ex : Oracle} {inBody : Nat → Prop} {i : Nat} {acc : Str} {ls ls' : List Str}
    (h : SameOutside inBody i ls ls') (hn : NotJoined ex inBody i ls)
    (h2 : acc.getLast? = some '\\' → acc.dropLast.getLast? ≠ some '\\')
    (h1 : acc.getLast? = some '\\' → ¬ inBody i) :
    continuation acc ls = continuation acc ls' := by
  induction ls generalizing i acc ls' with
  | nil => cases h; rfl
  | cons l ls ih =>
    cases ls' with
    | nil => cases h
    | cons l' ls' =>
      by_cases he : acc.getLast? = some '\\'
      · obtain ⟨rfl, hT⟩ := sameOutside_here h (h1 he)
        have hj := hn 0 l' rfl (by simpa using h1 he) l' (.inl rfl)
        have : endsWith acc ['\\'] = true := endsWith_one.2 he
        simp only [continuation, this, if_true]
        obtain ⟨a, rfl⟩ := List.getLast?_eq_some_iff.1 he
        have h2 := h2 he
        rw [List.dropLast_concat] at h2 ⊢
        rw [ih hT (notJoined_tail hn)]
        · intro h3 h4
          cases hl : l'.reverse with
          | nil =>
            have : l' = [] := by simpa using hl
            subst this
            rw [List.append_nil] at h3
            exact h2 h3
          | cons c cs =>
            have hl : l' = cs.reverse ++ [c] := by rw [← List.reverse_reverse l', hl]; simp
            subst hl
            rw [← List.append_assoc, List.getLast?_concat] at h3
            rw [← List.append_assoc, List.dropLast_concat] at h4
            simp only [Option.some.injEq] at h3
            subst h3
            cases hc : cs with
            | nil => subst hc; simp at h4; exact h2 h4
            | cons d ds =>
              subst hc
              rw [List.reverse_cons, ← List.append_assoc, List.getLast?_concat] at h4
              simp only [Option.some.injEq] at h4
              subst h4
              exact hj.1 ⟨ds.reverse, [], by simp, by simp⟩
        · intro h3 hb
          cases hl : l'.reverse with
          | nil =>
            have : l' = [] := by simpa using hl
            subst this
            rw [List.append_nil] at h3
            exact h2 h3
          | cons c cs =>
            have hl : l' = cs.reverse ++ [c] := by rw [← List.reverse_reverse l', hl]; simp
            subst hl
            rw [← List.append_assoc, List.getLast?_concat] at h3
            simp only [Option.some.injEq] at h3
            subst h3
            exact hj.2 hb ⟨cs.reverse, [], by simp, by simp⟩
      · rw [continuation_stop he, continuation_stop he]

theorem expression_congr {ex : Oracle} {inBody : Nat → Prop} {i : Nat} {l : Str} {m : St G} {ls ls' : List Str}
    (hm : rmatch condRe l = some m)
    (h : SameOutside inBody (i + 1) ls ls') (hn : NotJoined ex inBody (i + 1) ls)
    (hl : ¬ EndsInTwoBackslashes l ∧ (inBody (i + 1) → ¬ EndsInBackslash l)) :
    expression (m.get .expr) (m.get .fin) ls = expression (m.get .expr) (m.get .fin) ls' := by
  rcases condRe_expr hm with h0 | ⟨b, e, x, r, hb, he, hx, hr, hes⟩
  · rw [h0]; rfl
  · rw [hb, he]
    unfold expression
    by_cases hbe : b.isEmpty = true
    · simp [hbe]
    · simp only [hbe, Bool.false_eq_true, if_false, Option.some.injEq]
      rw [continuation_congr h hn]
      · intro h1 h2
        apply hl.1
        split at h1
        · rename_i hE
          subst hE
          simp only [if_true, List.dropLast_concat] at h2
          obtain ⟨a, rfl⟩ := List.getLast?_eq_some_iff.1 h2
          exact ⟨x ++ a, r, by rw [hx]; simp, hr⟩
        · rename_i hE
          simp only [hE, if_false] at h2
          obtain ⟨a, rfl⟩ := List.getLast?_eq_some_iff.1 h1
          rw [List.dropLast_concat] at h2
          obtain ⟨a, rfl⟩ := List.getLast?_eq_some_iff.1 h2
          refine ⟨x ++ a, e ++ r, by rw [hx]; simp, ?_⟩
          intro c hc
          rcases List.mem_append.1 hc with hc | hc
          · rcases hes with hes | hes
            · exact hes c hc
            · exact absurd hes hE
          · exact hr c hc
      · intro h1 hb
        apply hl.2 hb
        split at h1
        · rename_i hE
          subst hE
          exact ⟨x ++ b, r, by rw [hx]; simp, hr⟩
        · rename_i hE
          obtain ⟨a, rfl⟩ := List.getLast?_eq_some_iff.1 h1
          refine ⟨x ++ a, e ++ r, by rw [hx]; simp, ?_⟩
          intro c hc
          rcases List.mem_append.1 hc with hc | hc
          · rcases hes with hes | hes
            · exact hes c hc
            · exact absurd hes hE
          · exact hr c hc

theorem step_congr [Uni] {ex : Oracle} {exc : List Range} {inBody : Nat → Prop}
    {i : Nat} {line : Str} {ls ls' : List Str}
    {br : List Bool} (hi : ¬ inBody i) (h : SameOutside inBody (i + 1) ls ls')
    (hn : NotJoined ex inBody i (line :: ls)) :
    step ex exc i line ls br = step ex exc i line ls' br := by
  unfold step
  split
  · rfl
  · split
    · rfl
    · split
      · rfl
      · rename_i l hl
        split
        · rfl
        · rename_i m hm
          have hl' : l = line ∨ ex i line = .ok l := by
            unfold expandLine at hl
            split at hl <;> simp_all
          have hj := hn 0 line rfl (by simpa using hi) l (by simpa using hl')
          have he := expression_congr hm h (notJoined_tail hn) hj
          rw [he]

theorem step_inBody [Uni] {ex : Oracle} {exc : List Range} {i : Nat} {line line' : Str} {ls ls' : List Str}
    {br : List Bool} (hi : isExcluded exc i = true) :
    step ex exc i line ls br = step ex exc i line' ls' br := by
  unfold step
  split
  · rfl
  · simp [hi]

/-- the flags of a result -/
def flags : Except Err (List (Str × Bool)) → Except Err (List Bool)
  | .error e => .error e
  | .ok r => .ok (r.map (·.2))

theorem flags_cons (l l' : Str) (f : Bool) {r r' : Except Err (List (Str × Bool))} (h : flags r = flags r') :
    flags (pre [(l, f)] r) = flags (pre [(l', f)] r') := by
  cases r <;> cases r' <;> simp [flags, pre] at h ⊢ <;> assumption

theorem loop_skip1 [Uni] {ex : Oracle} {exc : List Range} {i : Nat} {l : Str} {ls : List Str}
    {br skip : List Bool} {f : Bool} :
    loop ex exc i (f :: skip) br (l :: ls) = pre [(l, f)] (loop ex exc (i + 1) skip br ls) := by
  simp only [loop]
  cases loop ex exc (i + 1) skip br ls <;> simp [pre]

theorem loop_congr [Uni] {ex : Oracle} {exc : List Range} {inBody : Nat → Prop}
    (hb : ∀ i, inBody i ↔ isExcluded exc i = true) {i : Nat} {ls ls' : List Str}
    (skip br : List Bool) (h : SameOutside inBody i ls ls') (hn : NotJoined ex inBody i ls) :
    flags (loop ex exc i skip br ls) = flags (loop ex exc i skip br ls') := by
  induction ls generalizing i ls' skip br with
  | nil => cases h; rfl
  | cons l ls ih =>
    cases ls' with
    | nil => cases h
    | cons l' ls' =>
      have ht : SameOutside inBody (i + 1) ls ls' := by cases h <;> assumption
      cases skip with
      | cons f skip =>
        rw [loop_skip1, loop_skip1]
        exact flags_cons _ _ _ (ih skip br ht (notJoined_tail hn))
      | nil =>
        have hs : step ex exc i l ls br = step ex exc i l' ls' br := by
          by_cases hi : inBody i
          · exact step_inBody ((hb i).1 hi)
          · obtain ⟨rfl, _⟩ := sameOutside_here h hi
            exact step_congr hi ht hn
        cases hx : step ex exc i l' ls' br with
        | error e => simp [loop, hs, hx, flags]
        | ok x =>
          obtain ⟨f, sk, br'⟩ := x
          rw [loop_step hx, loop_step (hs.trans hx)]
          exact flags_cons _ _ _ (ih sk br' ht (notJoined_tail hn))

end Conditions
end Specfile
