import Verif.Proof.ValueParserInv
/-
C09, C46, C51, C53: values and macro references.
-/
namespace Specfile.Props
open Py Spec ValueParser

/-- An executable check that implies `SingleSpacedRefs`, used for concrete cases only. -/
def singleSpacedCheck (v : Str) : Bool :=
  (List.range (v.length + 1)).all fun i => (List.range (v.length + 1)).all fun j =>
    let b := (v.drop (i + 2)).take j
    !((v.drop i).take 2 == ['%', '{'] && (v.drop (i + 2 + j)).head? == some '}' && !b.contains ':')
    || (let r := b.dropWhile (fun c => c == '?' || c == '!')
        r.all (fun x => !isSpace x || x == ' ') &&
        (List.range r.length).all (fun k => !((r.drop k).take 2 == [' ', ' '])) &&
        r.head? != some ' ' && r.getLast? != some ' ')

theorem singleSpacedRefs_of_check {v : Str} (h : singleSpacedCheck v = true) :
    SingleSpacedRefs v := by
  intro a b c e hcol _
  unfold singleSpacedCheck at h
  rw [List.all_eq_true] at h
  have h1 := h a.length (by rw [e]; simp; omega)
  rw [List.all_eq_true] at h1
  have h2 := h1 b.length (by rw [e]; simp; omega)
  have d1 : v.drop (a.length + 2) = b ++ '}' :: c := by
    rw [e, ← List.drop_drop]; simp
  have d2 : (v.drop (a.length + 2)).take b.length = b := by rw [d1]; simp
  have d3 : v.drop (a.length + 2 + b.length) = '}' :: c := by
    rw [← List.drop_drop, d1]; simp
  have d4 : (v.drop a.length).take 2 = ['%', '{'] := by rw [e]; simp
  simp only [d2, d3, d4, List.head?_cons, beq_self_eq_true, Bool.true_and, Bool.not_not] at h2
  have hcol' : b.contains ':' = false := by simpa using hcol
  rw [hcol'] at h2
  simp only [Bool.false_or, Bool.and_eq_true, bne_iff_ne] at h2
  obtain ⟨⟨⟨t1, t2⟩, t3⟩, t4⟩ := h2
  refine ⟨?_, ?_, by simpa using t3, by simpa using t4⟩
  · intro x hx hs
    have := List.all_eq_true.mp t1 x hx
    simpa [hs] using this
  · rintro ⟨p, q, hpq⟩
    have := List.all_eq_true.mp t2 p.length (by rw [← hpq]; simp)
    rw [← hpq] at this
    simp at this

/-- C09: parsing a value always ends with nodes, with an unterminated-macro error, or with the
`ValueError` that an empty reference `%{}` provokes. (Every iteration advances; the fuel of the
model is never exhausted.) -/
theorem C09_parse_total [Uni] (v : Str) :
    (∃ ns, parse v = .ok ns) ∨ parse v = .error .unterminatedMacro ∨
      parse v = .error .valueError := by
  have key : ∀ fuel start rest offset e, parseF fuel start rest offset = .error e →
      e = .unterminatedMacro ∨ e = .valueError ∨ e = .outOfFuel := by
    intro fuel
    induction fuel with
    | zero => intro _ _ _ e h; simp [parseF] at h; simp [← h]
    | succ fuel ih =>
      intro start rest offset e h
      rw [parseF_succ] at h
      split at h
      · simp at h
      · split at h
        · simp at h
        · split at h
          · simp at h; simp [← h]
          · rename_i c cs _
            split at h
            · exact ih _ _ _ _ h
            · split at h
              · simp at h; simp [← h]
              · rename_i m rest' hm
                cases hn : mkNode fuel c m with
                | error e' =>
                  rw [hn] at h
                  simp [bind, Except.bind] at h
                  subst h
                  unfold mkNode at hn
                  split at hn
                  · simp at hn
                  · split at hn
                    · simp at hn
                    · split at hn
                      · split at hn
                        · split at hn
                          · rename_i body _ _
                            cases hb : parseF fuel 0 body 0 with
                            | error e'' =>
                              rw [hb] at hn
                              simp [bind, Except.bind] at hn
                              subst hn
                              exact ih _ _ _ _ hb
                            | ok ns => rw [hb] at hn; simp [bind, Except.bind] at hn
                          · simp at hn
                        · unfold mkEncl at hn
                          split at hn
                          · simp at hn; simp [← hn]
                          · simp at hn
                      · simp at hn
                | ok node =>
                  rw [hn] at h
                  simp only [bind, Except.bind] at h
                  split at h
                  · rename_i hr
                    simp at h; subst h
                    exact ih _ _ _ _ hr
                  · simp at h
  cases h : parse v with
  | ok ns => exact .inl ⟨ns, rfl⟩
  | error e =>
    right
    have hne : e ≠ .outOfFuel := by
      rintro rfl
      exact parseF_fuel (v.length + 1) 0 v 0 (by omega) (by omega) h
    rcases key _ _ _ _ _ h with rfl | rfl | rfl
    · exact .inl rfl
    · exact .inr rfl
    · exact absurd rfl hne

/-- C09: printing the parsed nodes gives the value back up to whitespace, for every value. -/
theorem C09_parse_print_mod_whitespace [Uni] {v : Str} {ns : List Node} (h : parse v = .ok ns) :
    (Node.strs ns).filter (fun c => !isSpace c) = v.filter (fun c => !isSpace c) :=
  parseF_noSpace _ h

/-- C09 (full claim: for every value that parses, printing the nodes gives the value back).
Missing: references `%{name  arg}` whose arguments are not separated by single spaces, see
`C09_parse_print_violation`. -/
theorem C09_parse_print_partial [Uni] {v : Str} {ns : List Node} (hv : SingleSpacedRefs v)
    (h : parse v = .ok ns) : Node.strs ns = v :=
  parseF_exact _ hv h

/-- The full claim fails: `%{a  b}` is printed with a single space. -/
theorem C09_parse_print_violation : ∃ (u : Uni) (v : Str) (ns : List Node),
    @parse u v = .ok ns ∧ Node.strs ns ≠ v :=
  ⟨asciiUni, s% "%{a  b}", [.encl [] (s% "a") [s% "b"]], rfl, by decide⟩

/-- C09, converse: nodes that are unambiguous when printed are recovered exactly by parsing. -/
theorem C09_print_parse [Uni] {ns : List Node} (h : GoodNodes ns) :
    parse (Node.strs ns) = .ok ns :=
  parseF_good _ 0 ns h (by simp)

section
attribute [local instance] asciiUni

-- a value with nested constructs meets the hypotheses of both directions
example : SingleSpacedRefs (s% "1.%{minor}%{?pre:.%(echo %{x y})}  z") :=
  singleSpacedRefs_of_check (by decide +kernel)
example : ∃ ns, parse (s% "1.%{minor}%{?pre:.%(echo %{x y})}  z") = .ok ns ∧ ns.length = 4 :=
  ⟨_, rfl, rfl⟩
theorem balanced_nil (o c : Char) : Balanced o c [] :=
  ⟨fun p hp => by rw [List.prefix_nil] at hp; simp [hp], rfl⟩
example : GoodNodes [.lit (s% "1."), .sub (s% "?") (s% "minor"), .lit (s% " "),
    .shell [], .encl [] (s% "x") [s% "y"]] := by
  simp only [GoodNodes, GoodNode, Follows]
  refine ⟨⟨by simp, by decide⟩, ⟨⟨by decide, ⟨[], s% "minor", [], rfl, by simp, by decide, by simp⟩⟩,
    ⟨⟨by simp, by decide⟩, ⟨balanced_nil _ _, ⟨⟨by decide, ?_, ?_, ?_⟩, trivial, trivial⟩, trivial⟩, ?_⟩,
    ?_⟩, ?_⟩
  · intro c hc; simp at hc; subst hc; decide
  · intro w hw; simp at hw
    rcases hw with rfl | rfl <;> exact ⟨by simp, by decide, by decide⟩
  · refine ⟨fun p hp => ?_, by decide⟩
    have h1 : p.count '}' = 0 := by
      rw [List.count_eq_zero]
      intro hm
      have := hp.subset hm
      revert this; decide
    omega
  · simp [Node.strs, Node.str]
  · refine ⟨?_, by simp⟩
    intro c hc
    simp [Node.strs, Node.str] at hc
    subst hc
    simp [Extends]; decide
  · simp [Node.strs, Node.str]
end

/-! ### C53: literals contain no macro reference -/

/-- no `%` is immediately followed by another `%` -/
def NoDoublePercent (v : Str) : Prop := ¬ ['%', '%'] <:+: v

theorem mem_flatten_append {a b : List Node} {n : Node} :
    n ∈ flatten (a ++ b) ↔ n ∈ flatten a ∨ n ∈ flatten b := by
  induction a with
  | nil => simp [flatten]
  | cons x xs ih => simp [flatten, ih, or_assoc]

/-- C53 (full claim: no literal node, at any depth, contains a macro reference, i.e. an unescaped
`%`). Missing: values with an escaped `%%`, see `C53_literal_violation`. -/
theorem C53_literals_have_no_macros_partial [Uni] {v : Str} {ns : List Node}
    (hv : NoDoublePercent v) (h : parse v = .ok ns) :
    ∀ w, .lit w ∈ flatten ns → '%' ∉ w := by
  have key : ∀ fuel start rest ns, NoDoublePercent rest → parseF fuel start rest 0 = .ok ns →
      ∀ w, .lit w ∈ flatten ns → '%' ∉ w := by
    intro fuel
    induction fuel with
    | zero => intro _ _ _ _ h; simp [parseF] at h
    | succ fuel ih =>
      intro start rest ns hv h w hw
      rcases parseF_ok_cases h with ⟨rfl, rfl⟩ | ⟨_, hp, rfl⟩ | ⟨b, a, e, _, _⟩ |
        ⟨b, c, a, m, rest', node, ns', e1, e2, hc, hm, hn, hr, rfl⟩
      · simp [flatten] at hw
      · simp [flatten, flattenNode] at hw; subst hw; simpa using hp
      · exfalso; apply hv
        exact ⟨b, a, by simp at e; simp [e]⟩
      · have hd := rest_decomp e1 (findMacroEnd_append hm)
        simp only [List.take_zero, List.nil_append] at hd hw
        have hv' : NoDoublePercent rest' := by
          rintro ⟨x, y, hxy⟩
          exact hv ⟨b ++ '%' :: m ++ x, y, by rw [hd, ← hxy]; simp⟩
        rw [mem_flatten_append, flatten, List.mem_append] at hw
        rcases hw with hw | hw | hw
        · cases b with
          | nil => simp [flatten] at hw
          | cons x xs => simp [flatten, flattenNode] at hw; rw [hw]; exact e2
        · rcases mkNode_ok_cases hm hn with ⟨_, _, rfl⟩ | ⟨_, _, rfl⟩ |
            ⟨p, n, b', ns'', rfl, _, hb, rfl⟩ | ⟨_, _, _, rfl⟩ |
            ⟨_, _, _, _, _, _, _, _, _, _, rfl⟩ | ⟨_, _, _, _, _, rfl⟩
          · simp [flattenNode] at hw
          · simp [flattenNode] at hw
          · rw [flattenNode] at hw
            refine ih _ _ _ ?_ hb w hw
            rintro ⟨x, y, hxy⟩
            exact hv ⟨b ++ '%' :: '{' :: (p ++ n ++ ':' :: x), y ++ '}' :: rest', by
              rw [hd, ← hxy]; simp⟩
          · simp [flattenNode] at hw
          · simp [flattenNode] at hw
          · simp [flattenNode] at hw
        · exact ih _ _ _ hv' hr w hw
  exact key _ _ _ _ hv h

/-- The full claim fails: after `%%` the parser resumes too far to the right (the offset is added
to the start twice), so `%c` in `%a%%%c` stays inside a literal. -/
theorem C53_literal_violation : ∃ (u : Uni) (ns : List Node),
    @parse u (s% "%a%%%c") = .ok ns ∧ .lit (s% "%%%c") ∈ ns :=
  ⟨asciiUni, [.sub [] (s% "a"), .lit (s% "%%%c")], rfl, by simp⟩

section
attribute [local instance] asciiUni
example : NoDoublePercent (s% "a%b %{?c:d}") ∧ ∃ ns, parse (s% "a%b %{?c:d}") = .ok ns ∧
    .lit (s% "d") ∈ flatten ns := by
  refine ⟨?_, _, rfl, by simp [flatten, flattenNode]⟩
  show ¬ _
  decide
end

end Specfile.Props
