import Verif.Proof.Conditions3
import Verif.Spec.Balance
/-
Balance of conditions that may continue on further lines.
-/
namespace Specfile
open Py Regex Spec
namespace Conditions

theorem joins_unique {text : Str} {ls : List Str} {n m : Nat} (h : Joins text ls n) (h' : Joins text ls m) : n = m := by
  induction h generalizing m with
  | nothing h =>
    cases h' with
    | nothing => rfl
    | ended => rfl
    | next _ => simp at h
  | ended => cases h' <;> rfl
  | @next text l ls n _ ih =>
    generalize ht : text ++ ['\\'] = t at h'
    cases h' with
    | nothing h => rw [← ht] at h; simp at h
    | next h =>
      cases List.append_cancel_right ht
      rw [ih h]

theorem furtherLines_unique {text : Str} {ls : List Str} {n m : Nat} (h : FurtherLines text ls n)
    (h' : FurtherLines text ls m) : n = m := by
  cases h with
  | lone h =>
    cases h' with
    | lone => rfl
    | text h2 => exact absurd h h2
  | text h h1 h2 =>
    cases h' with
    | lone h3 => exact absurd h3 h
    | text h3 h4 h5 => cases trimmed_unique h1 h4; exact joins_unique h2 h5

/-- the lines that are consumed are those the text continues on -/
theorem continuation_joins (text : Str) (ls : List Str) :
    Joins text ls (continuation text ls).2 ∧ (continuation text ls).2 ≤ ls.length := by
  induction ls generalizing text with
  | nil => exact ⟨.ended, Nat.le_refl _⟩
  | cons l ls ih =>
    unfold continuation
    by_cases he : endsWith text ['\\'] = true
    · obtain ⟨a, rfl⟩ := List.getLast?_eq_some_iff.1 (endsWith_one.1 he)
      simp only [he, if_true, List.dropLast_concat]
      obtain ⟨h1, h2⟩ := ih (a ++ l)
      exact ⟨.next h1, by simpa using h2⟩
    · simp only [he]
      refine ⟨.nothing ?_, Nat.zero_le _⟩
      intro h
      exact he (endsWith_one.2 h)

/-- a condition line is recognised, and the lines it continues on are consumed -/
theorem condRe_further {l kw text : Str} (hk : kw ∈ keywords) (h : ConditionLine l kw text) :
    ∃ m, rmatch condRe l = some m ∧ m.get .kwd = some kw ∧
      ∀ ls, FurtherLines text ls (expression (m.get .expr) (m.get .fin) ls).2 ∧
        (expression (m.get .expr) (m.get .fin) ls).2 ≤ ls.length := by
  obtain ⟨m, m1, m2, m3⟩ := condRe_line hk h
  refine ⟨m, m1, m2, fun ls => ?_⟩
  rcases m3 with ⟨hl, m3⟩ | ⟨hl, e, he, m3⟩
  · rw [m3]; exact ⟨.lone hl, Nat.zero_le _⟩
  · rw [m3]
    obtain ⟨j1, j2⟩ := continuation_joins e ls
    exact ⟨.text hl he j1, j2⟩

/-- the rest of balanced lines, if what the first line is is known -/
theorem balanced_plain {ex : Oracle} {inBody : Nat → Prop} {i d : Nat} {line l : Str} {ls : List Str}
    (hi : ¬ inBody i) (hx : Expands (ex i) line l) (hp : NoCondition l) (h : BalancedLines ex inBody i d (line :: ls)) :
    BalancedLines ex inBody (i + 1) d ls := by
  cases h with
  | inBody h => contradiction
  | plain _ _ _ h => exact h
  | open_ _ he hk hf => cases expands_fun he hx; exact absurd hf (hp _ (opener_class hk).1 _)
  | elif _ he hk hf => cases expands_fun he hx; exact absurd hf (hp _ (elif_class hk).1 _)
  | else_ _ he hf => cases expands_fun he hx; exact absurd hf (hp _ (by decide) _)
  | close _ he hf => cases expands_fun he hx; exact absurd hf (hp _ (by decide) _)

theorem keyword_disjoint {kw : Str} : (kw ∈ openers → kw ∉ elifs ++ negElifs ∧ kw ≠ s% "%else" ∧ kw ≠ s% "%endif") ∧
    (kw ∈ elifs ++ negElifs → kw ≠ s% "%else" ∧ kw ≠ s% "%endif") := by
  constructor <;> (revert kw; decide)

/-- what a condition line has to be followed by -/
theorem balanced_keyword {ex : Oracle} {inBody : Nat → Prop} {i d : Nat} {line l kw text : Str} {ls : List Str}
    (hi : ¬ inBody i) (hx : Expands (ex i) line l) (hk : kw ∈ keywords) (hf : ConditionLine l kw text)
    (h : BalancedLines ex inBody i d (line :: ls)) :
    (kw ∈ openers ∧ ∃ n, FurtherLines text ls n ∧ BalancedLines ex inBody (i + 1 + n) (d + 1) (ls.drop n)) ∨
    (kw ∈ elifs ++ negElifs ∧ 0 < d ∧ ∃ n, FurtherLines text ls n ∧ BalancedLines ex inBody (i + 1 + n) d (ls.drop n)) ∨
    (kw = s% "%else" ∧ 0 < d ∧ BalancedLines ex inBody (i + 1) d ls) ∨
    (kw = s% "%endif" ∧ 0 < d ∧ BalancedLines ex inBody (i + 1) (d - 1) ls) := by
  have hfst : ∀ {kw' text' l'}, kw' ∈ keywords → Expands (ex i) line l' → ConditionLine l' kw' text' →
      kw' = kw ∧ text' = text := by
    intro kw' text' l' hk' he hf'
    cases expands_fun he hx
    exact firstWord_unique hk' hk hf'.1 hf.1
  cases h with
  | inBody h => contradiction
  | plain _ he hp _ => cases expands_fun he hx; exact absurd hf (hp _ hk _)
  | open_ _ he hk' hf' hn h =>
    obtain ⟨rfl, rfl⟩ := hfst (opener_class hk').1 he hf'
    exact .inl ⟨hk', _, hn, h⟩
  | elif _ he hk' hf' hn h =>
    obtain ⟨rfl, rfl⟩ := hfst (elif_class hk').1 he hf'
    exact .inr (.inl ⟨hk', Nat.succ_pos _, _, hn, h⟩)
  | else_ _ he hf' h =>
    obtain ⟨rfl, rfl⟩ := hfst (by decide) he hf'
    exact .inr (.inr (.inl ⟨rfl, Nat.succ_pos _, h⟩))
  | close _ he hf' h =>
    obtain ⟨rfl, rfl⟩ := hfst (by decide) he hf'
    exact .inr (.inr (.inr ⟨rfl, Nat.succ_pos _, h⟩))

/-- the lines are processed exactly if they are balanced, unless an expansion fails -/
def Decided [Uni] (ex : Oracle) (inBody : Nat → Prop) (i d : Nat) (ls : List Str) :
    Except Err (List (Str × Bool)) → Prop
  | .ok _ => BalancedLines ex inBody i d ls
  | .error e => (∃ j s, ex j s = .error e) ∨ (e = .indexError ∧ ¬ BalancedLines ex inBody i d ls)

theorem decided_pre [Uni] {ex : Oracle} {inBody : Nat → Prop} {i d i' d' : Nat} {ls ls' : List Str}
    {r : Except Err (List (Str × Bool))} (xs : List (Str × Bool)) (h : Decided ex inBody i d ls r)
    (hb : BalancedLines ex inBody i' d' ls' ↔ BalancedLines ex inBody i d ls) : Decided ex inBody i' d' ls' (pre xs r) := by
  cases r with
  | ok x => exact hb.2 h
  | error e =>
    rcases h with h | ⟨h1, h2⟩
    · exact .inl h
    · exact .inr ⟨h1, fun h => h2 (hb.1 h)⟩

theorem loop_decided [Uni] {ex : Oracle} {exc : List Range} {inBody : Nat → Prop}
    (hb : ∀ i, inBody i ↔ isExcluded exc i = true) (len : Nat) (ls : List Str) (hlen : ls.length = len)
    (i : Nat) (top : Bool) (outer : List Bool) :
    Decided ex inBody i outer.length ls (loop ex exc i [] (top :: outer) ls) := by
  induction len using Nat.strongRecOn generalizing ls i top outer with
  | ind len ih =>
    cases ls with
    | nil => exact .done
    | cons line ls =>
      have ih0 := fun i top outer => ih ls.length (by rw [← hlen]; simp) ls rfl i top outer
      -- after the lines that were skipped
      have ihn : ∀ n, n ≤ ls.length → ∀ i top outer f, ∃ xs, loop ex exc i (List.replicate n f) (top :: outer) ls =
          pre xs (loop ex exc (i + n) [] (top :: outer) (ls.drop n)) ∧
          Decided ex inBody (i + n) outer.length (ls.drop n) (loop ex exc (i + n) [] (top :: outer) (ls.drop n)) := by
        intro n hn i top outer f
        have h1 := loop_skip (ex := ex) (exc := exc) (i := i) (ls.take n) (ls.drop n) (br := top :: outer) f
        rw [List.take_append_drop, List.length_take, Nat.min_eq_left hn] at h1
        exact ⟨_, h1, ih (ls.drop n).length (by rw [← hlen]; simp; omega) _ rfl _ _ _⟩
      by_cases hi : inBody i
      · rw [loop_step (step_excluded (ex := ex) (line := line) (ls := ls) top outer ((hb i).1 hi))]
        refine decided_pre _ (ih0 _ _ _) ⟨?_, .inBody hi⟩
        intro h
        generalize outer.length = d at h
        cases h <;> first | assumption | contradiction
      have hi' : isExcluded exc i = false := by rw [Bool.eq_false_iff, ne_eq, ← hb]; exact hi
      cases hxl : expandLine (ex i) line with
      | error e =>
        have hs : step ex exc i line ls (top :: outer) = .error e := by simp [step, hi', hxl]
        have hl : loop ex exc i [] (top :: outer) (line :: ls) = .error e := by simp [loop, hs]
        rw [hl]
        left
        unfold expandLine at hxl
        split at hxl <;> simp at hxl
        rename_i he'; subst hxl; exact ⟨_, _, he'⟩
      | ok l =>
      have hx : Expands (ex i) line l := by
        unfold expandLine at hxl
        split at hxl
        · rename_i h; simp at hxl; subst hxl; exact .inl h
        · rename_i h; simp at hxl; subst hxl; exact .inr ⟨h, rfl⟩
        · simp at hxl
      by_cases hp : NoCondition l
      · have hs : step ex exc i line ls (top :: outer) = .ok (top, [], top :: outer) := by
          simp [step, hi', hxl, condRe_noCondition hp]
        rw [loop_step hs]
        exact decided_pre _ (ih0 _ _ _) ⟨balanced_plain hi hx hp, .plain hi hx hp⟩
      simp only [NoCondition, Classical.not_forall, Classical.not_not] at hp
      obtain ⟨kw, hk, text, hf⟩ := hp
      obtain ⟨m, m1, m2, m3⟩ := condRe_further hk hf
      obtain ⟨m3, m4⟩ := m3 ls
      generalize he : expression (m.get .expr) (m.get .fin) ls = e at m3 m4
      have hbal := fun d => balanced_keyword (d := d) (ls := ls) hi hx hk hf
      rcases keyword_cases hk with hc | hc | rfl | rfl
      · -- %if
        obtain ⟨c1, c2, c3, c4⟩ := opener_class hc
        have hs : step ex exc i line ls (top :: outer) =
            match (if !top then .ok false else resolve (ex i) kw e.1) with
            | .error er => .error er
            | .ok branch => .ok (top, List.replicate e.2 top, branch :: top :: outer) := by
          simp only [step, hi', Bool.false_eq_true, if_false, hxl, m1, m2, Option.getD_some, c2, c3, c4, if_true, he]
          cases (if (!top) = true then (Except.ok false : Except Err Bool) else resolve (ex i) kw e.1) <;> rfl
        cases hr : (if !top then .ok false else resolve (ex i) kw e.1) with
        | error er =>
          rw [hr] at hs
          have hl : loop ex exc i [] (top :: outer) (line :: ls) = .error er := by simp [loop, hs]
          rw [hl]
          obtain ⟨s, hs⟩ := guard_error hr
          exact .inl ⟨_, s, hs⟩
        | ok t =>
          rw [hr] at hs
          obtain ⟨xs, hl, hd⟩ := ihn e.2 m4 (i + 1) t (top :: outer) top
          rw [loop_step hs, hl, pre_pre]
          refine decided_pre _ hd ⟨?_, .open_ hi hx hc hf m3⟩
          intro h
          rcases hbal _ h with ⟨-, n, hn, h⟩ | ⟨h, -⟩ | ⟨h, -⟩ | ⟨h, -⟩
          · cases furtherLines_unique hn m3; exact h
          · exact absurd h (keyword_disjoint.1 hc).1
          · exact absurd h (keyword_disjoint.1 hc).2.1
          · exact absurd h (keyword_disjoint.1 hc).2.2
      · -- %elif
        obtain ⟨c1, c2, c3, c4⟩ := elif_class hc
        cases outer with
        | nil =>
          have hs : step ex exc i line ls [top] = .error .indexError := by
            simp only [step, hi', Bool.false_eq_true, if_false, hxl, m1, m2, Option.getD_some, c2, c3, if_true]
          have hl : loop ex exc i [] [top] (line :: ls) = .error .indexError := by simp [loop, hs]
          rw [hl]
          refine .inr ⟨rfl, fun h => ?_⟩
          rcases hbal _ h with ⟨h, -⟩ | ⟨-, h, -⟩ | ⟨-, h, -⟩ | ⟨-, h, -⟩
          · exact absurd hc (keyword_disjoint.1 h).1
          all_goals exact absurd h (by simp)
        | cons b outer =>
          generalize ht : (if b then !top else top) = top'
          have hs : step ex exc i line ls (top :: b :: outer) =
              match (if !top' then .ok false else resolve (ex i) kw e.1) with
              | .error er => .error er
              | .ok branch => .ok (b, List.replicate e.2 top', branch :: b :: outer) := by
            simp only [step, hi', Bool.false_eq_true, if_false, hxl, m1, m2, Option.getD_some, c2, c3, c4, if_true, he, ht]
            cases (if (!top') = true then (Except.ok false : Except Err Bool) else resolve (ex i) kw e.1) <;> rfl
          cases hr : (if !top' then .ok false else resolve (ex i) kw e.1) with
          | error er =>
            rw [hr] at hs
            have hl : loop ex exc i [] (top :: b :: outer) (line :: ls) = .error er := by simp [loop, hs]
            rw [hl]
            obtain ⟨s, hs⟩ := guard_error hr
            exact .inl ⟨_, s, hs⟩
          | ok t =>
            rw [hr] at hs
            obtain ⟨xs, hl, hd⟩ := ihn e.2 m4 (i + 1) t (b :: outer) top'
            rw [loop_step hs, hl, pre_pre]
            refine decided_pre _ hd ⟨?_, .elif hi hx hc hf m3⟩
            intro h
            rcases hbal _ h with ⟨h, -⟩ | ⟨-, -, n, hn, h⟩ | ⟨h, -⟩ | ⟨h, -⟩
            · exact absurd hc (keyword_disjoint.1 h).1
            · cases furtherLines_unique hn m3; exact h
            · exact absurd h (keyword_disjoint.2 hc).1
            · exact absurd h (keyword_disjoint.2 hc).2
      · -- %else
        cases outer with
        | nil =>
          have hs : step ex exc i line ls [top] = .error .indexError := by
            simp [step, hi', hxl, m1, m2, startsWith, List.isPrefixOf]
          have hl : loop ex exc i [] [top] (line :: ls) = .error .indexError := by simp [loop, hs]
          rw [hl]
          refine .inr ⟨rfl, fun h => ?_⟩
          rcases hbal _ h with ⟨h, -⟩ | ⟨-, h, -⟩ | ⟨-, h, -⟩ | ⟨-, h, -⟩
          · exact absurd h (by decide)
          all_goals exact absurd h (by simp)
        | cons b outer =>
          have hs : step ex exc i line ls (top :: b :: outer) = .ok (b, [], (if b then !top else top) :: b :: outer) := by
            simp [step, hi', hxl, m1, m2, startsWith, List.isPrefixOf]
          rw [loop_step hs]
          refine decided_pre _ (ih0 _ _ _) ⟨?_, .else_ hi hx hf⟩
          intro h
          rcases hbal _ h with ⟨h, -⟩ | ⟨h, -⟩ | ⟨-, -, h⟩ | ⟨h, -⟩
          · exact absurd h (by decide)
          · exact absurd h (by decide)
          · exact h
          · exact absurd h (by decide)
      · -- %endif
        cases outer with
        | nil =>
          have hs : step ex exc i line ls [top] = .error .indexError := by
            simp [step, hi', hxl, m1, m2]
          have hl : loop ex exc i [] [top] (line :: ls) = .error .indexError := by simp [loop, hs]
          rw [hl]
          refine .inr ⟨rfl, fun h => ?_⟩
          rcases hbal _ h with ⟨h, -⟩ | ⟨-, h, -⟩ | ⟨-, h, -⟩ | ⟨-, h, -⟩
          · exact absurd h (by decide)
          all_goals exact absurd h (by simp)
        | cons b outer =>
          have hs : step ex exc i line ls (top :: b :: outer) = .ok (b, [], b :: outer) := by
            simp [step, hi', hxl, m1, m2]
          rw [loop_step hs]
          refine decided_pre _ (ih0 _ _ _) ⟨?_, .close hi hx hf⟩
          intro h
          rcases hbal _ h with ⟨h, -⟩ | ⟨h, -⟩ | ⟨h, -⟩ | ⟨-, -, h⟩
          · exact absurd h (by decide)
          · exact absurd h (by decide)
          · exact absurd h (by decide)
          · exact h

end Conditions
end Specfile
