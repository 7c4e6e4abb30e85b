import Verif.Model.ValueParser
import Verif.Py.Lemmas
import Verif.Spec.Value
/-
Helper lemmas about the value parser.
-/
namespace Specfile
open Py
namespace ValueParser

theorem findMatching_append {o c : Char} {l : Nat} {s m r : Str}
    (h : findMatching o c l s = some (m, r)) : s = m ++ r := by
  induction s generalizing l m r with
  | nil => simp [findMatching] at h
  | cons x xs ih =>
    have step : ∀ l', (findMatching o c l' xs).map (fun r => (x :: r.1, r.2)) = some (m, r) →
        x :: xs = m ++ r := by
      intro l' h
      simp only [Option.map_eq_some_iff, Prod.mk.injEq] at h
      obtain ⟨⟨m', r'⟩, h1, h2, h3⟩ := h
      rw [← h2, ← h3, ih h1]; rfl
    simp only [findMatching] at h
    split at h
    · exact step _ h
    · split at h
      · split at h
        · simp at h; simp [← h.1, h.2]
        · exact step _ h
      · split at h
        · exact step _ h
        · exact step _ h

theorem findMatching_last {o c : Char} {l : Nat} {s m r : Str}
    (h : findMatching o c l s = some (m, r)) : ∃ m', m = m' ++ [c] := by
  induction s generalizing l m r with
  | nil => simp [findMatching] at h
  | cons x xs ih =>
    have step : ∀ l', (findMatching o c l' xs).map (fun r => (x :: r.1, r.2)) = some (m, r) →
        ∃ m', m = m' ++ [c] := by
      intro l' h
      simp only [Option.map_eq_some_iff, Prod.mk.injEq] at h
      obtain ⟨⟨m', r'⟩, h1, h2, h3⟩ := h
      obtain ⟨m'', e⟩ := ih h1
      exact ⟨x :: m'', by rw [← h2, e]; rfl⟩
    simp only [findMatching] at h
    split at h
    · exact step _ h
    · split at h
      · rename_i hx
        split at h
        · simp at h; exact ⟨[], by simp [← h.1]; simpa using hx⟩
        · exact step _ h
      · split at h
        · exact step _ h
        · exact step _ h

/-- the text found by `find_matching_parenthesis` at an opening bracket is that bracket, the body,
and the closing bracket -/
theorem findMatching_inner {o c : Char} {xs m r : Str} (ho : o ≠ '\\') (hoc : o ≠ c)
    (h : findMatching o c 0 (o :: xs) = some (m, r)) :
    m = o :: (inner m ++ [c]) ∧ xs = inner m ++ c :: r := by
  have happ := findMatching_append h
  simp only [findMatching] at h
  rw [if_neg (by simpa using ho), if_neg (by simpa using hoc)] at h
  simp only [beq_self_eq_true, if_true, Option.map_eq_some_iff, Prod.mk.injEq] at h
  obtain ⟨⟨m', r'⟩, h1, h2, h3⟩ := h
  obtain ⟨m'', e⟩ := findMatching_last h1
  simp only at h2
  have hm : m = o :: (m'' ++ [c]) := by rw [← h2, e]
  have hi : inner m = m'' := by rw [hm]; simp [inner]
  rw [hi]
  refine ⟨hm, ?_⟩
  rw [hm] at happ
  simpa using happ

theorem takeOne_append (p : Char → Bool) (s : Str) : (takeOne p s).1 ++ (takeOne p s).2 = s := by
  cases s with
  | nil => rfl
  | cons c cs => simp only [takeOne]; split <;> simp

theorem closing_spec {c d : Char} (h : closing c = some d) :
    (c = '(' ∧ d = ')') ∨ (c = '{' ∧ d = '}') ∨ (c = '[' ∧ d = ']') := by
  unfold closing at h
  split at h
  · simp at h; subst h; simp_all
  · split at h
    · simp at h; subst h; simp_all
    · split at h <;> simp at h; subst h; simp_all

theorem findMacroEnd_append [Uni] {s m r : Str} (h : findMacroEnd s = some (m, r)) :
    s = m ++ r := by
  unfold findMacroEnd at h
  split at h
  · simp at h
  · split at h
    · exact findMatching_append h
    · simp only [Option.some.injEq, Prod.mk.injEq] at h
      obtain ⟨h1, h2⟩ := h
      rw [← h1, ← h2]
      simp only [List.append_assoc, takeOne_append, List.takeWhile_append_dropWhile]

theorem splitPct_some {s b a : Str} (h : splitPct s = some (b, a)) :
    s = b ++ '%' :: a ∧ '%' ∉ b := by
  induction s generalizing b with
  | nil => simp [splitPct] at h
  | cons c cs ih =>
    simp only [splitPct] at h
    split at h
    · rename_i hc; simp at h hc; simp [h.1, h.2, hc]
    · rename_i hc
      simp only [Option.map_eq_some_iff, Prod.mk.injEq] at h
      obtain ⟨⟨b', a'⟩, h1, h2, h3⟩ := h
      simp only at h2 h3
      subst h3
      obtain ⟨e1, e2⟩ := ih h1
      rw [← h2]
      simp only [List.mem_cons, not_or]
      refine ⟨by rw [e1]; rfl, fun e => hc (by simp [← e]), e2⟩

theorem splitPct_none {s : Str} : splitPct s = none ↔ '%' ∉ s := by
  induction s with
  | nil => simp [splitPct]
  | cons c cs ih =>
    simp only [splitPct]
    split
    · rename_i hc; simp at hc; simp [hc]
    · rename_i hc; simp at hc; simp [ih]; intro _ h; exact hc h.symm

theorem splitColon_some {s b a : Str} (h : splitColon s = some (b, a)) :
    s = b ++ ':' :: a ∧ ':' ∉ b := by
  induction s generalizing b with
  | nil => simp [splitColon] at h
  | cons c cs ih =>
    simp only [splitColon] at h
    split at h
    · rename_i hc; simp at h hc; simp [h.1, h.2, hc]
    · rename_i hc
      simp only [Option.map_eq_some_iff, Prod.mk.injEq] at h
      obtain ⟨⟨b', a'⟩, h1, h2, h3⟩ := h
      simp only at h2 h3
      subst h3
      obtain ⟨e1, e2⟩ := ih h1
      rw [← h2]
      simp only [List.mem_cons, not_or]
      refine ⟨by rw [e1]; rfl, fun e => hc (by simp [← e]), e2⟩

theorem splitColon_none {s : Str} : splitColon s = none ↔ ':' ∉ s := by
  induction s with
  | nil => simp [splitColon]
  | cons c cs ih =>
    simp only [splitColon]
    split
    · rename_i hc; simp at hc; simp [hc]
    · rename_i hc; simp at hc; simp [ih]; intro _ h; exact hc h.symm

theorem splitPrefix_append (s : Str) : (splitPrefix s).1 ++ (splitPrefix s).2 = s := by
  simp [splitPrefix]

theorem strs_append (a b : List Node) : Node.strs (a ++ b) = Node.strs a ++ Node.strs b := by
  induction a with
  | nil => rfl
  | cons n ns ih => simp [Node.strs, ih]

theorem strs_optLit (lit : Str) :
    Node.strs (if lit.isEmpty then [] else [.lit lit]) = lit := by
  cases lit <;> simp [Node.strs, Node.str]

/-- One node of the main loop, lines 263-285: what `node` is computed from the macro text `m`. -/
def mkNode [Uni] (fuel : Nat) (c : Char) (m : Str) : Except Err Node :=
  if c == '(' then .ok (.shell (inner m))
  else if c == '[' then .ok (.expr (inner m))
  else if c == '{' then
    match splitColon (inner m) with
    | some (condition, body) =>
      if (splitPrefix condition).1.contains '?' then do
        let nodes ← parseF fuel 0 body 0
        .ok (.cond (splitPrefix condition).1 (splitPrefix condition).2 nodes)
      else .ok (.builtin condition body)
    | none => mkEncl (inner m)
  else .ok (mkSub m)

/-- the loop, unfolded once -/
theorem parseF_succ [Uni] (fuel start : Nat) (rest : Str) (offset : Nat) :
    parseF (fuel + 1) start rest offset =
    if rest.isEmpty then .ok []
    else match splitPct (rest.drop offset) with
      | none => .ok [.lit rest]
      | some (b, after) =>
        match after with
        | [] => .error .unterminatedMacro
        | c :: _ =>
          if c == '%' then parseF fuel start rest (start + (rest.take offset ++ b).length + 2)
          else
            match findMacroEnd after with
            | none => .error .unterminatedMacro
            | some (m, rest') => (do
              let node ← mkNode fuel c m
              let nodes ← parseF fuel (start + (rest.take offset ++ b).length + 1 + m.length) rest' 0
              .ok ((if (rest.take offset ++ b).isEmpty then [] else [.lit (rest.take offset ++ b)])
                ++ node :: nodes)) := by
  rfl

/-- Case analysis of one successful iteration. -/
theorem parseF_ok_cases [Uni] {fuel start : Nat} {rest : Str} {offset : Nat} {ns : List Node}
    (h : parseF (fuel + 1) start rest offset = .ok ns) :
    (rest = [] ∧ ns = []) ∨
    (rest ≠ [] ∧ '%' ∉ rest.drop offset ∧ ns = [.lit rest]) ∨
    (∃ b a, rest.drop offset = b ++ '%' :: '%' :: a ∧ '%' ∉ b ∧
      parseF fuel start rest (start + (rest.take offset ++ b).length + 2) = .ok ns) ∨
    (∃ b c a m rest' node ns', rest.drop offset = b ++ '%' :: c :: a ∧ '%' ∉ b ∧ c ≠ '%' ∧
      findMacroEnd (c :: a) = some (m, rest') ∧ mkNode fuel c m = .ok node ∧
      parseF fuel (start + (rest.take offset ++ b).length + 1 + m.length) rest' 0 = .ok ns' ∧
      ns = (if (rest.take offset ++ b).isEmpty then [] else [.lit (rest.take offset ++ b)])
                ++ node :: ns') := by
  rw [parseF_succ] at h
  split at h
  · rename_i he; simp at h he; left; simp [h, he]
  · rename_i he
    right
    split at h
    · rename_i hp
      left
      simp at h he
      exact ⟨he, splitPct_none.mp hp, h.symm⟩
    · rename_i b after hp
      right
      obtain ⟨e1, e2⟩ := splitPct_some hp
      split at h
      · simp at h
      · rename_i c a
        split at h
        · rename_i hc
          left
          simp at hc; subst hc
          exact ⟨b, a, e1, e2, h⟩
        · rename_i hc
          right
          simp at hc
          split at h
          · simp at h
          · rename_i m rest' hm
            cases hn : mkNode fuel c m with
            | error e => rw [hn] at h; simp [bind, Except.bind] at h
            | ok node =>
              rw [hn] at h
              cases hr : parseF fuel (start + (rest.take offset ++ b).length + 1 + m.length)
                  rest' 0 with
              | error e => rw [hr] at h; simp [bind, Except.bind] at h
              | ok ns' =>
                rw [hr] at h
                simp only [bind, Except.bind, Except.ok.injEq] at h
                exact ⟨b, c, a, m, rest', node, ns', e1, e2, hc, hm, hn, hr, h.symm⟩

/-- shape of the macro text for the three bracketed kinds -/
theorem findMacroEnd_bracket [Uni] {c d : Char} {a m r : Str} (hc : closing c = some d)
    (h : findMacroEnd (c :: a) = some (m, r)) :
    m = c :: (inner m ++ [d]) ∧ a = inner m ++ d :: r := by
  unfold findMacroEnd at h
  simp only [hc] at h
  rcases closing_spec hc with ⟨rfl, rfl⟩ | ⟨rfl, rfl⟩ | ⟨rfl, rfl⟩
  all_goals exact findMatching_inner (by decide) (by decide) h

/-- classification of the node built from the macro text -/
theorem mkNode_ok_cases [Uni] {fuel : Nat} {c : Char} {a m r : Str} {node : Node}
    (hm : findMacroEnd (c :: a) = some (m, r)) (h : mkNode fuel c m = .ok node) :
    (∃ b, m = '(' :: (b ++ [')']) ∧ node = .shell b) ∨
    (∃ b, m = '[' :: (b ++ [']']) ∧ node = .expr b) ∨
    (∃ p n b ns, m = '{' :: (p ++ n ++ ':' :: (b ++ ['}'])) ∧ p.all isQB = true ∧
        parseF fuel 0 b 0 = .ok ns ∧ node = .cond p n ns) ∨
    (∃ n b, m = '{' :: (n ++ ':' :: (b ++ ['}'])) ∧ node = .builtin n b) ∨
    (∃ p s n args, m = '{' :: (p ++ s ++ ['}']) ∧ p.all isQB = true ∧ ':' ∉ p ++ s ∧
        p = (p ++ s).takeWhile isQB ∧ s = (p ++ s).dropWhile isQB ∧
        words s = n :: args ∧ node = .encl p n args) ∨
    (∃ p n, m = p ++ n ∧ p.all isQB = true ∧ closing c = none ∧ node = .sub p n) := by
  unfold mkNode at h
  split at h
  · rename_i hc
    simp at hc; subst hc
    obtain ⟨e1, e2⟩ := findMacroEnd_bracket (d := ')') (by decide) hm
    left
    simp at h
    exact ⟨inner m, e1, h.symm⟩
  · rename_i hc1
    split at h
    · rename_i hc
      simp at hc; subst hc
      obtain ⟨e1, e2⟩ := findMacroEnd_bracket (d := ']') (by decide) hm
      right; left
      simp at h
      exact ⟨inner m, e1, h.symm⟩
    · rename_i hc2
      split at h
      · rename_i hc
        simp at hc; subst hc
        obtain ⟨e1, e2⟩ := findMacroEnd_bracket (d := '}') (by decide) hm
        split at h
        · rename_i condition body hs
          obtain ⟨e3, e4⟩ := splitColon_some hs
          split at h
          · right; right; left
            cases hp : parseF fuel 0 body 0 with
            | error e => rw [hp] at h; simp [bind, Except.bind] at h
            | ok ns =>
              rw [hp] at h
              simp [bind, Except.bind] at h
              refine ⟨(splitPrefix condition).1, (splitPrefix condition).2, body, ns, ?_,
                takeWhile_all _ _, hp, h.symm⟩
              rw [splitPrefix_append, e1, e3]; simp
          · right; right; right; left
            simp at h
            refine ⟨condition, body, ?_, h.symm⟩
            rw [e1, e3]; simp
        · rename_i hs
          right; right; right; right; left
          rw [splitColon_none] at hs
          unfold mkEncl at h
          split at h
          · simp at h
          · rename_i n args hw
            simp at h
            refine ⟨(splitPrefix (inner m)).1, (splitPrefix (inner m)).2, n, args, ?_,
              takeWhile_all _ _, ?_, ?_, ?_, hw, h.symm⟩
            · rw [splitPrefix_append]; exact e1
            · rw [splitPrefix_append]; exact hs
            · rw [splitPrefix_append]; rfl
            · rw [splitPrefix_append]; rfl
      · rename_i hc3
        right; right; right; right; right
        simp at h
        refine ⟨_, _, (splitPrefix_append m).symm, takeWhile_all _ _, ?_, h.symm⟩
        unfold closing
        rw [if_neg (by simpa using hc1), if_neg (by simpa using hc3), if_neg (by simpa using hc2)]

/-- `parse` is never out of fuel. -/
theorem parseF_fuel [Uni] (fuel : Nat) : ∀ (start : Nat) (rest : Str) (offset : Nat),
    rest.length + 1 ≤ fuel + offset → 1 ≤ fuel → parseF fuel start rest offset ≠ .error .outOfFuel := by
  induction fuel with
  | zero => intros; omega
  | succ fuel ih =>
    intro start rest offset hf _ h
    rw [parseF_succ] at h
    split at h
    · simp at h
    · split at h
      · simp at h
      · rename_i b after hp
        obtain ⟨e1, e2⟩ := splitPct_some hp
        have hlen : offset + b.length + 1 + after.length = rest.length := by
          have h1 := congrArg List.length e1
          simp at h1
          omega
        have htake : (rest.take offset ++ b).length = offset + b.length := by
          simp; omega
        split at h
        · simp at h
        · rename_i c a
          simp at hlen
          split at h
          · refine ih _ _ _ ?_ (by omega) h
            rw [htake]; omega
          · split at h
            · simp at h
            · rename_i m rest' hm
              have happ := findMacroEnd_append hm
              have hl2 := congrArg List.length happ
              simp at hl2
              cases hn : mkNode fuel c m with
              | error e =>
                rw [hn] at h
                simp [bind, Except.bind] at h
                subst h
                unfold mkNode at hn
                split at hn
                · simp at hn
                · split at hn
                  · simp at hn
                  · split at hn
                    · rename_i hc
                      simp at hc; subst hc
                      obtain ⟨e3, e4⟩ := findMacroEnd_bracket (d := '}') (by decide) hm
                      split at hn
                      · rename_i condition body hs
                        obtain ⟨e5, e6⟩ := splitColon_some hs
                        split at hn
                        · cases hb : parseF fuel 0 body 0 with
                          | error e =>
                            rw [hb] at hn
                            simp [bind, Except.bind] at hn
                            subst hn
                            refine ih _ _ _ ?_ (by omega) hb
                            have := congrArg List.length e5
                            have h7 := congrArg List.length e4
                            simp at this h7
                            omega
                          | ok ns => rw [hb] at hn; simp [bind, Except.bind] at hn
                        · simp at hn
                      · unfold mkEncl at hn; split at hn <;> simp at hn
                    · simp at hn
              | ok node =>
                rw [hn] at h
                cases hr : parseF fuel (start + (rest.take offset ++ b).length + 1 + m.length)
                    rest' 0 with
                | error e =>
                  rw [hr] at h
                  simp [bind, Except.bind] at h
                  subst h
                  exact ih _ _ _ (by omega) (by omega) hr
                | ok ns' => rw [hr] at h; simp [bind, Except.bind] at h

/-- How the remaining text decomposes in an iteration that builds a node. -/
theorem rest_decomp {rest b a m rest' : Str} {offset : Nat} {c : Char}
    (h1 : rest.drop offset = b ++ '%' :: c :: a) (h2 : c :: a = m ++ rest') :
    rest = (rest.take offset ++ b) ++ '%' :: (m ++ rest') := by
  conv => lhs; rw [← List.take_append_drop offset rest, h1, h2]
  simp

theorem encl_str (p n : Str) (args : List Str) :
    (Node.encl p n args).str = '%' :: '{' :: (p ++ joinC ' ' (n :: args) ++ ['}']) := by
  cases args with
  | nil => simp [Node.str]
  | cons x xs => rw [joinC_cons ' ' n (l := x :: xs) (by simp)]; simp [Node.str]

theorem parseF_noSpace [Uni] (fuel : Nat) : ∀ {start : Nat} {rest : Str} {offset : Nat}
    {ns : List Node}, parseF fuel start rest offset = .ok ns →
    noSpace (Node.strs ns) = noSpace rest := by
  induction fuel with
  | zero => intro _ _ _ _ h; simp [parseF] at h
  | succ fuel ih =>
    intro start rest offset ns h
    rcases parseF_ok_cases h with ⟨rfl, rfl⟩ | ⟨_, _, rfl⟩ | ⟨b, a, _, _, h⟩ |
      ⟨b, c, a, m, rest', node, ns', e1, e2, hc, hm, hn, hr, rfl⟩
    · rfl
    · simp [Node.strs, Node.str]
    · exact ih h
    · have hd := rest_decomp e1 (findMacroEnd_append hm)
      have h1 : noSpace node.str = noSpace ('%' :: m) := by
        rcases mkNode_ok_cases hm hn with ⟨b, rfl, rfl⟩ | ⟨b, rfl, rfl⟩ |
          ⟨p, n, b, ns'', rfl, _, hb, rfl⟩ | ⟨n, b, rfl, rfl⟩ |
          ⟨p, s, n, args, rfl, _, _, _, _, hw, rfl⟩ | ⟨p, n, rfl, _, _, rfl⟩
        · rfl
        · rfl
        · simp only [Node.str, noSpace_cons, noSpace_append, ih hb]
        · rfl
        · have hj := noSpace_joinC_words s
          rw [hw] at hj
          rw [encl_str]
          simp only [noSpace_cons, noSpace_append, hj]
        · rfl
      rw [strs_append, strs_optLit, Node.strs, noSpace_append, noSpace_append node.str, h1, ih hr]
      conv => rhs; rw [hd]
      simp only [noSpace_cons, noSpace_append]
      split <;> simp

/-- what `find_matching_parenthesis` has counted when it stops -/
theorem findMatching_counts {o c : Char} (ho : o ≠ '\\') (hc : c ≠ '\\') (hoc : o ≠ c) {l : Nat}
    {s m' r : Str} (hl : 1 ≤ l) (h : findMatching o c l s = some (m' ++ [c], r)) :
    (∀ p, p <+: m' → p.count c < l + p.count o) ∧ m'.count c + 1 = l + m'.count o := by
  induction s generalizing l m' r with
  | nil => simp [findMatching] at h
  | cons x xs ih =>
    have step : ∀ l', 1 ≤ l' →
        (findMatching o c l' xs).map (fun r => (x :: r.1, r.2)) = some (m' ++ [c], r) →
        ∃ m'', m' = x :: m'' ∧ (∀ p, p <+: m'' → p.count c < l' + p.count o) ∧
          m''.count c + 1 = l' + m''.count o := by
      intro l' hl' h
      simp only [Option.map_eq_some_iff, Prod.mk.injEq] at h
      obtain ⟨⟨m2, r2⟩, h1, h2, h3⟩ := h
      obtain ⟨m3, rfl⟩ := findMatching_last h1
      simp only at h2
      have : m' = x :: m3 := by
        have h2' : (x :: m3) ++ [c] = m' ++ [c] := h2
        exact (List.append_cancel_right h2').symm
      exact ⟨m3, this, ih hl' h1⟩
    have fin : ∀ {l'} {m'' : Str}, m' = x :: m'' →
        (∀ p, p <+: m'' → p.count c < l' + p.count o) → m''.count c + 1 = l' + m''.count o →
        (l' + (if x = c then 1 else 0) = l + (if x = o then 1 else 0)) →
        (∀ p, p <+: m' → p.count c < l + p.count o) ∧ m'.count c + 1 = l + m'.count o := by
      intro l' m'' e h1 h2 h3
      subst e
      constructor
      · intro p hp
        cases p with
        | nil => simp; omega
        | cons y ys =>
          rw [List.cons_prefix_cons] at hp
          obtain ⟨rfl, hp⟩ := hp
          have := h1 ys hp
          simp only [List.count_cons, beq_iff_eq]
          omega
      · simp only [List.count_cons, beq_iff_eq]
        omega
    simp only [findMatching] at h
    split at h
    · rename_i hx
      simp at hx; subst hx
      obtain ⟨m'', e, h1, h2⟩ := step _ hl h
      exact fin e h1 h2 (by simp [ho.symm, hc.symm])
    · split at h
      · rename_i hx
        simp at hx; subst hx
        split at h
        · rename_i hl'
          simp only [Option.some.injEq, Prod.mk.injEq] at h
          have : m' = [] := by
            have h2 : [] ++ [x] = m' ++ [x] := h.1
            exact (List.append_cancel_right h2).symm
          subst this
          have : l = 1 := by omega
          subst this
          constructor
          · intro p hp
            rw [List.prefix_nil] at hp; subst hp; simp
          · simp
        · rename_i hl'
          obtain ⟨m'', e, h1, h2⟩ := step _ (by omega) h
          exact fin e h1 h2 (by simp [hoc.symm]; omega)
      · rename_i hxc
        simp at hxc
        split at h
        · rename_i hx
          simp at hx; subst hx
          obtain ⟨m'', e, h1, h2⟩ := step _ (by omega) h
          exact fin e h1 h2 (by simp [hoc])
        · rename_i hx
          simp at hx
          obtain ⟨m'', e, h1, h2⟩ := step _ hl h
          exact fin e h1 h2 (by simp [hxc, hx])

/-- the body found between matching brackets is balanced -/
theorem findMatching_balanced {o c : Char} (ho : o ≠ '\\') (hc : c ≠ '\\') (hoc : o ≠ c)
    {xs b r : Str} (h : findMatching o c 0 (o :: xs) = some (o :: (b ++ [c]), r)) :
    Spec.Balanced o c b := by
  simp only [findMatching] at h
  rw [if_neg (by simpa using ho), if_neg (by simpa using hoc)] at h
  simp only [beq_self_eq_true, if_true, Option.map_eq_some_iff, Prod.mk.injEq,
    List.cons.injEq, true_and] at h
  obtain ⟨⟨m', r'⟩, h1, h2, h3⟩ := h
  simp only at h2 h3
  subst h2 h3
  obtain ⟨h4, h5⟩ := findMatching_counts ho hc hoc (by omega) h1
  refine ⟨fun p hp => ?_, by omega⟩
  have := h4 p hp
  omega

theorem singleSpaced_infix {v w : Str} (h : Spec.SingleSpacedRefs v) (hw : w <:+: v) :
    Spec.SingleSpacedRefs w := by
  obtain ⟨x, y, rfl⟩ := hw
  intro a b c e h1 h2
  exact h (x ++ a) b (c ++ y) (by rw [e]; simp) h1 h2

theorem parseF_exact [Uni] (fuel : Nat) : ∀ {start : Nat} {rest : Str} {offset : Nat}
    {ns : List Node}, Spec.SingleSpacedRefs rest → parseF fuel start rest offset = .ok ns →
    Node.strs ns = rest := by
  induction fuel with
  | zero => intro _ _ _ _ _ h; simp [parseF] at h
  | succ fuel ih =>
    intro start rest offset ns hs h
    rcases parseF_ok_cases h with ⟨rfl, rfl⟩ | ⟨_, _, rfl⟩ | ⟨b, a, _, _, h⟩ |
      ⟨b, c, a, m, rest', node, ns', e1, e2, hc, hm, hn, hr, rfl⟩
    · rfl
    · simp [Node.strs, Node.str]
    · exact ih hs h
    · have hd := rest_decomp e1 (findMacroEnd_append hm)
      have hs' : Spec.SingleSpacedRefs rest' :=
        singleSpaced_infix hs ⟨(rest.take offset ++ b) ++ '%' :: m, [], by
          conv => rhs; rw [hd]
          simp⟩
      have hsm : Spec.SingleSpacedRefs ('%' :: m) :=
        singleSpaced_infix hs ⟨(rest.take offset ++ b), rest', by
          conv => rhs; rw [hd]
          simp⟩
      have h1 : node.str = '%' :: m := by
        rcases mkNode_ok_cases hm hn with ⟨b, rfl, rfl⟩ | ⟨b, rfl, rfl⟩ |
          ⟨p, n, b, ns'', rfl, _, hb, rfl⟩ | ⟨n, b, rfl, rfl⟩ |
          ⟨p, s, n, args, rfl, _, hcol, hp, hps, hw, rfl⟩ | ⟨p, n, rfl, _, _, rfl⟩
        · rfl
        · rfl
        · have : Spec.SingleSpacedRefs b :=
            singleSpaced_infix hsm ⟨'%' :: '{' :: (p ++ n ++ [':']), ['}'], by simp⟩
          simp only [Node.str, ih this hb]
        · rfl
        · rw [encl_str]
          have hcc : c = '{' := by
            have := findMacroEnd_append hm
            simp at this; exact this.1
          subst hcc
          have hbal : Spec.Balanced '{' '}' (p ++ s) := by
            unfold findMacroEnd at hm
            exact findMatching_balanced (by decide) (by decide) (by decide) hm
          have ht := hsm [] (p ++ s) [] (by simp) hcol hbal
          have e : joinC ' ' (n :: args) = s := by
            rw [← hw]
            obtain ⟨t1, t2, t3, t4⟩ := ht
            have e5 : (p ++ s).dropWhile (fun c => c == '?' || c == '!') = s := hps.symm
            rw [e5] at t1 t2 t3 t4
            exact joinC_words_of_tidy t1 t2 t3 t4
          rw [e]
        · rfl
      rw [strs_append, strs_optLit, Node.strs, h1, ih hs' hr]
      conv => rhs; rw [hd]
      simp

end ValueParser
end Specfile
