import Verif.Spec.Collect
import Verif.Regex.First
import Verif.Regex.More
import Verif.Proof.Text
import Verif.Proof.MacroDefinitions4
import Verif.Proof.Changelog5
/-
Collecting the files to which a spec file refers: helper lemmas.
-/
namespace Specfile.SpecParser
open Py Regex Spec

/-! ### `%include` -/

theorem includeArg_some {l arg : Str} (h : IncludeLine l arg) (hl : '\n' ∉ l) : includeArg l = some arg := by
  obtain ⟨⟨a, b, e, ha, hb, hbs⟩, hs⟩ := h
  have harg : '\n' ∉ arg := fun hh => hl (by rw [e]; simp [hh])
  have key : rmatch includeRe l =
      some ⟨arg.reverse ++ (b.reverse ++ ((s% "%include").reverse ++ (a.reverse ++ []))), [], [(1, arg)]⟩ := by
    unfold rmatch includeRe
    rw [run_bos_cat]
    refine head_rep_cat (w := a) (r' := s% "%include" ++ (b ++ arg)) e (by simpa using ha) (by simp) ?_ ?_
    · intro c hc
      have : c = '%' := by simpa using hc.symm
      subst this; decide
    · rw [run_lit_cat _ _ _ (b ++ arg) rfl]
      refine head_rep_cat (w := b) (r' := arg) rfl (by simpa using hbs) ?_ hs ?_
      · cases b with
        | nil => exact absurd rfl hb
        | cons c b => simp
      · refine head_grp_greedy (w := arg) (r' := []) (by simp) ?_ (by simp) (by simp [NoMore]) rfl
        rw [List.all_eq_true]
        intro c hc
        simp only [dot, bne_iff_ne, ne_eq]
        rintro rfl
        exact harg hc
  unfold includeArg
  rw [key]
  rfl

theorem includeArg_line {l arg : Str} (hl : '\n' ∉ l) : includeArg l = some arg ↔ IncludeLine l arg := by
  refine ⟨fun h => ?_, fun h => includeArg_some h hl⟩
  unfold includeArg at h
  cases hm : rmatch includeRe l with
  | none => rw [hm] at h; cases h
  | some t =>
    have h2 := mem_of_rmatch hm
    simp only [includeRe, mem_cat, mem_bos, star, plus, mem_rep', mem_lit, mem_grp_rep, mem_eos] at h2
    obtain ⟨_, ⟨rfl, -⟩, _, ⟨a, r1, e1, ha, -, rfl⟩, _, ⟨r2, e2, rfl⟩, _, ⟨b, r3, e3, hb, hbn, rfl⟩, _,
      ⟨w, r4, e4, hw, -, rfl⟩, rfl, he⟩ := h2
    simp only [init] at e1 e2 e3 e4 he
    -- all space after `%include` is taken
    subst e4 e3 e2
    have hb0 : b ≠ [] := by rintro rfl; simp at hbn
    have hr4 : r4 = [] := by
      rcases he with he | he
      · exact he
      · exfalso; apply hl; rw [e1, he]; simp
    subst hr4
    rw [List.append_nil] at e1
    have hx : IncludeLine l (w.dropWhile isSpace) := by
      refine ⟨⟨a, b ++ w.takeWhile isSpace, ?_, by simpa using ha, by simp [hb0], ?_⟩, ?_⟩
      · rw [e1, List.append_assoc b, List.takeWhile_append_dropWhile]
      · intro c hc
        rcases List.mem_append.mp hc with hc | hc
        · exact List.all_eq_true.mp hb c hc
        · have := List.all_takeWhile (p := isSpace) (l := w)
          exact List.all_eq_true.mp this c hc
      · intro c hc
        have := List.head?_dropWhile_not isSpace w
        rw [Option.mem_def] at hc
        rw [hc] at this
        simpa using this
    have := includeArg_some hx hl
    unfold includeArg at this
    rw [hm] at this h
    rw [this] at h
    cases h
    exact hx

theorem includes_step (y l : Str) (ls : List Str) : includes (some y) (l :: ls) =
    if endsWith l ['\\'] then includes (some (y.dropLast ++ l)) ls
    else (includes none ls).map ((y.dropLast ++ l) :: ·) := by
  rw [includes]

theorem includes_some {y : Str} : ∀ {ls args : List Str}, includes (some y) ls = .ok args ↔
    ∃ l ls' text after rest, ls = l :: ls' ∧ Unfolded l ls' text after ∧ includes none after = .ok rest ∧
      args = (y.dropLast ++ text) :: rest := by
  intro ls
  induction ls generalizing y with
  | nil => intro args; simp [includes]
  | cons l ls ih =>
    intro args
    rw [includes_step]
    by_cases hl : endsWith l ['\\'] = true
    · rw [if_pos hl, ih]
      simp only [endsWith, List.isSuffixOf_iff_suffix] at hl
      obtain ⟨z, rfl⟩ := hl
      have e : (y.dropLast ++ (z ++ ['\\'])).dropLast = y.dropLast ++ z := by
        rw [← List.append_assoc, List.dropLast_concat]
      rw [e]
      constructor
      · rintro ⟨l, ls', text, after, rest, rfl, h1, h2, rfl⟩
        exact ⟨_, _, z ++ text, after, rest, rfl, .more h1, h2, by simp⟩
      · rintro ⟨l, ls', text, after, rest, h0, h1, h2, rfl⟩
        cases h0
        generalize hx : z ++ ['\\'] = x at h1
        cases h1 with
        | last h => exact absurd ⟨z, hx⟩ h
        | more h =>
          have := List.append_inj_left' hx rfl
          subst this
          exact ⟨_, _, _, after, rest, rfl, h, h2, by simp⟩
    · rw [if_neg hl]
      simp only [endsWith, List.isSuffixOf_iff_suffix] at hl
      constructor
      · intro h
        cases h2 : includes none ls with
        | error e => rw [h2] at h; cases h
        | ok rest =>
          rw [h2] at h
          simp only [Except.map, Except.ok.injEq] at h
          exact ⟨l, ls, l, ls, rest, rfl, .last hl, h2, h.symm⟩
      · rintro ⟨l', ls', text, after, rest, h0, h1, h2, rfl⟩
        cases h0
        cases h1 with
        | last h => rw [h2]; rfl
        | more h => exact absurd ⟨_, rfl⟩ hl

theorem unfolded_length {x text : Str} {ls after : List Str} (h : Unfolded x ls text after) : after.length ≤ ls.length := by
  induction h with
  | last _ => exact Nat.le_refl _
  | more _ ih => simp only [List.length_cons]; omega

theorem unfolded_suffix {x text : Str} {ls after : List Str} (h : Unfolded x ls text after) : after <:+ ls := by
  induction h with
  | last _ => exact List.suffix_refl _
  | more _ ih => exact ih.trans (List.suffix_cons _ _)

theorem includeLine_unique {l a b : Str} (h : IncludeLine l a) (h' : IncludeLine l b) (hl : '\n' ∉ l) : a = b := by
  have := includeArg_some h hl
  rw [includeArg_some h' hl] at this
  cases this; rfl

theorem includeLine_end {l arg : Str} (h : IncludeLine l arg) : ['\\'] <:+ l ↔ ['\\'] <:+ arg := by
  obtain ⟨⟨a, b, rfl, -, hb, hbs⟩, -⟩ := h
  rcases List.eq_nil_or_concat arg with rfl | ⟨x, c, rfl⟩
  · rcases List.eq_nil_or_concat b with rfl | ⟨y, d, rfl⟩
    · exact absurd rfl hb
    · constructor
      · rintro ⟨z, hz⟩
        have hd := hbs d (by simp)
        have : z ++ ['\\'] = (a ++ (s% "%include" ++ y)) ++ [d] := by rw [hz]; simp
        have := List.append_inj_right' this rfl
        simp only [List.cons.injEq, and_true] at this
        subst this
        exact absurd hd (by decide)
      · intro h; simp at h
  · constructor
    · rintro ⟨z, hz⟩
      have : z ++ ['\\'] = (a ++ (s% "%include" ++ (b ++ x))) ++ [c] := by rw [hz]; simp
      have := List.append_inj_right' this rfl
      simp only [List.cons.injEq, and_true] at this
      subst this
      exact ⟨x, by simp⟩
    · intro h
      exact h.trans ⟨a ++ (s% "%include" ++ b), by simp⟩

theorem includes_iff : ∀ (n : Nat) {ls : List Str}, ls.length ≤ n → (∀ l ∈ ls, '\n' ∉ l) → ∀ {args},
    includes none ls = .ok args ↔ Includes ls args := by
  intro n
  induction n with
  | zero =>
    intro ls hn hl args
    have : ls = [] := by cases ls <;> simp_all
    subst this
    simp only [includes, Option.isSome_none, Bool.false_eq_true, if_false, Except.ok.injEq]
    exact ⟨by rintro rfl; exact .nil, by intro h; cases h; rfl⟩
  | succ n ih =>
    intro ls hn hl args
    cases ls with
    | nil =>
      simp only [includes, Option.isSome_none, Bool.false_eq_true, if_false, Except.ok.injEq]
      exact ⟨by rintro rfl; exact .nil, by intro h; cases h; rfl⟩
    | cons l ls =>
      have hl0 := hl l (.head _)
      have hl1 : ∀ l ∈ ls, '\n' ∉ l := fun x hx => hl x (.tail _ hx)
      have hn' : ls.length ≤ n := by simpa using hn
      unfold includes
      simp only
      cases ha : includeArg l with
      | none =>
        simp only
        have hno : ∀ arg, ¬ IncludeLine l arg := by
          intro arg h
          rw [includeArg_some h hl0] at ha; cases ha
        rw [ih hn' hl1]
        constructor
        · exact .other hno
        · intro h
          cases h with
          | other _ h => exact h
          | directive h _ _ => exact absurd h (hno _)
      | some arg =>
        simp only
        have hi := (includeArg_line hl0).mp ha
        by_cases he : endsWith l ['\\'] = true
        · rw [if_pos he, includes_some]
          simp only [endsWith, List.isSuffixOf_iff_suffix] at he
          obtain ⟨z, rfl⟩ := (includeLine_end hi).mp he
          rw [List.dropLast_concat]
          constructor
          · rintro ⟨l2, ls2, text, after, rest, rfl, h1, h2, rfl⟩
            have hs := unfolded_suffix h1
            have hlen := unfolded_length h1
            simp only [List.length_cons] at hn'
            exact .directive hi (.more h1) ((ih (by omega) (fun x hx => hl1 x (.tail _ (hs.subset hx)))).mp h2)
          · intro h
            cases h with
            | other h _ => exact absurd hi (h _)
            | @directive _ x arg' _ after rest h0 h1 h2 =>
              have := includeLine_unique hi h0 hl0
              subst this
              generalize hx : z ++ ['\\'] = x at h1
              cases h1 with
              | last h => exact absurd ⟨z, hx⟩ h
              | @more z' l2 text ls2 _ h =>
                have := List.append_inj_left' hx rfl
                subst this
                have hs := unfolded_suffix h
                have hlen := unfolded_length h
                simp only [List.length_cons] at hn'
                exact ⟨_, _, _, after, rest, rfl, h, (ih (by omega) (fun x hx => hl1 x (.tail _ (hs.subset hx)))).mpr h2, rfl⟩
        · rw [if_neg he]
          simp only [endsWith, List.isSuffixOf_iff_suffix] at he
          have he' : ¬ ['\\'] <:+ arg := fun h => he ((includeLine_end hi).mpr h)
          constructor
          · intro h
            cases h2 : includes none ls with
            | error e => rw [h2] at h; cases h
            | ok rest =>
              rw [h2] at h
              simp only [Except.map, Except.ok.injEq] at h
              subst h
              exact .directive hi (.last he') ((ih hn' hl1).mp h2)
          · intro h
            cases h with
            | other h _ => exact absurd hi (h _)
            | directive h0 h1 h2 =>
              have := includeLine_unique hi h0 hl0
              subst this
              cases h1 with
              | last h => rw [(ih hn' hl1).mpr h2]; rfl
              | more h => exact absurd ⟨_, rfl⟩ he'

/-! ### sources -/

theorem addSources_mem {E : Env} {inp : Inputs} {T : Macros.Table} : ∀ {xs found out : List Str},
    addSources E inp T found xs = .ok out → ∀ n, n ∈ out ↔ n ∈ found ∨ ∃ x ∈ xs, LocatedAt E inp T x n := by
  intro xs
  induction xs with
  | nil => intro found out h n; simp [addSources] at h; subst h; simp
  | cons x xs ih =>
    intro found out h n
    unfold addSources at h
    split at h
    · cases h
    · rename_i found' hx
      rw [ih h n]
      unfold addSource at hx
      split at hx
      · cases hx
      · rename_i s hs
        split at hx
        · cases hx
        · rename_i hin
          cases hx
          simp only [List.mem_append, List.mem_cons, exists_eq_or_imp]
          have : LocatedAt E inp T x n ↔ n = E.pathName s := by
            constructor
            · rintro ⟨p, h1, h2, h3⟩; rw [hs] at h1; cases h1; exact h3.symm
            · rintro rfl; exact ⟨s, hs, hin, rfl⟩
          rw [this, or_assoc]; simp
        · rename_i hin
          cases hx
          simp only [List.mem_cons, exists_eq_or_imp]
          have : ¬ LocatedAt E inp T x n := by
            rintro ⟨p, h1, h2, h3⟩; rw [hs] at h1; cases h1; rw [hin] at h2; cases h2
          simp [this]

mutual
theorem flattenNode_mem (m n : Node) : n ∈ ValueParser.flattenNode m ↔ Nested n [m] := by
  cases m with
  | cond p x b =>
    simp only [ValueParser.flattenNode]
    rw [flatten_mem b n]
    constructor
    · intro h; exact .inside (.head _) h
    · intro h
      cases h with
      | here h1 h2 => simp at h1; exact absurd h1 (h2 _ _ _)
      | inside h1 h2 => simp at h1; obtain ⟨-, -, rfl⟩ := h1; exact h2
  | lit s => exact plain_mem (fun _ _ _ h => by cases h) (by unfold ValueParser.flattenNode; rfl)
  | shell s => exact plain_mem (fun _ _ _ h => by cases h) (by unfold ValueParser.flattenNode; rfl)
  | expr s => exact plain_mem (fun _ _ _ h => by cases h) (by unfold ValueParser.flattenNode; rfl)
  | sub p s => exact plain_mem (fun _ _ _ h => by cases h) (by unfold ValueParser.flattenNode; rfl)
  | encl p s a => exact plain_mem (fun _ _ _ h => by cases h) (by unfold ValueParser.flattenNode; rfl)
  | builtin p s => exact plain_mem (fun _ _ _ h => by cases h) (by unfold ValueParser.flattenNode; rfl)
theorem flatten_mem (ns : List Node) (n : Node) : n ∈ ValueParser.flatten ns ↔ Nested n ns := by
  cases ns with
  | nil =>
    simp only [ValueParser.flatten, List.not_mem_nil, false_iff]
    intro h
    cases h with
    | here h _ => cases h
    | inside h _ => cases h
  | cons m ns =>
    simp only [ValueParser.flatten, List.mem_append]
    rw [flattenNode_mem m n, flatten_mem ns n]
    constructor
    · rintro (h | h)
      · cases h with
        | here h1 h2 => simp at h1; exact .here (by simp [h1]) h2
        | inside h1 h2 => exact .inside (by rw [List.mem_singleton] at h1; rw [h1]; exact .head _) h2
      · cases h with
        | here h1 h2 => exact .here (.tail _ h1) h2
        | inside h1 h2 => exact .inside (.tail _ h1) h2
    · intro h
      cases h with
      | here h1 h2 =>
        rcases List.mem_cons.mp h1 with h1 | h1
        · exact .inl (.here (by simp [h1]) h2)
        · exact .inr (.here h1 h2)
      | inside h1 h2 =>
        rcases List.mem_cons.mp h1 with h1 | h1
        · exact .inl (.inside (List.mem_singleton.mpr h1) h2)
        · exact .inr (.inside h1 h2)
theorem plain_mem {m n : Node} (h : ∀ p x b, m ≠ .cond p x b) (hm : ValueParser.flattenNode m = [m]) :
    n ∈ ValueParser.flattenNode m ↔ Nested n [m] := by
  rw [hm, List.mem_singleton]
  constructor
  · rintro rfl; exact .here (.head _) h
  · intro hn
    cases hn with
    | here h1 _ => simpa using h1
    | inside h1 _ => simp at h1; exact absurd h1.symm (h _ _ _)
end

/-! ### references to sources -/

theorem brace_not_decimal [Uni] : Uni.isDecimal '}' = false := by
  rw [Uni.decimal_ascii _ (by decide)]; decide

theorem sourceRef_mem [Uni] {pre rest : Str} {t : St Nat} (h : t ∈ run sourceRefRe ⟨pre, rest, []⟩) :
    ∃ r, rest = r ++ t.rest ∧ SourceReference r := by
  unfold sourceRefRe at h
  rw [mem_cat] at h
  obtain ⟨u, hu, h⟩ := h
  rw [mem_ch] at hu
  obtain ⟨cs, e, rfl⟩ := hu
  simp only at e
  subst e
  rw [mem_alt] at h
  have qb : ∀ {q : Str}, q.all ValueParser.isQB = true → ∀ c ∈ q, c = '?' ∨ c = '!' := by
    intro q hq c hc
    simpa [ValueParser.isQB] using List.all_eq_true.mp hq c hc
  rcases h with h | h
  · rw [mem_cat] at h
    obtain ⟨u, hu, h⟩ := h
    rw [mem_opt] at hu
    rcases hu with hu | rfl
    · rw [mem_grp] at hu
      obtain ⟨v, w, hv, e, rfl⟩ := hu
      rw [mem_ch] at hv
      obtain ⟨r1, e1, rfl⟩ := hv
      simp only at e1 e
      subst e1
      simp only [mem_cat, star, plus, mem_rep', mem_lit] at h
      obtain ⟨_, ⟨q, r2, e2, hq, -, rfl⟩, _, ⟨r3, e3, rfl⟩, _, ⟨d, r4, e4, hd, hdn, rfl⟩, h⟩ := h
      simp only [run, get_cons, Option.isSome_some, if_true] at h
      rw [mem_ch] at h
      obtain ⟨r5, e5, rfl⟩ := h
      simp only at e2 e3 e4 e5
      subst e5 e4 e3 e2
      refine ⟨_, ?_, .braced (q := q) (d := d) (qb hq) (by rintro rfl; simp at hdn) (by simpa using hd)⟩
      simp
    · simp only [mem_cat, star, plus, mem_rep', mem_lit] at h
      obtain ⟨_, ⟨q, r2, e2, hq, -, rfl⟩, _, ⟨r3, e3, rfl⟩, _, ⟨d, r4, e4, hd, hdn, rfl⟩, h⟩ := h
      simp only [run, get_nil, Option.isSome_none, Bool.false_eq_true, if_false, List.mem_singleton] at h
      subst h
      simp only at e2 e3 e4
      subst e4 e3 e2
      refine ⟨_, ?_, .bare (q := q) (d := d) (qb hq) (by rintro rfl; simp at hdn) (by simpa using hd)⟩
      simp
  · simp only [mem_cat, plus, mem_rep', mem_lit, mem_ch] at h
    obtain ⟨_, ⟨r3, e3, rfl⟩, _, ⟨d, r4, e4, hd, hdn, rfl⟩, r5, e5, rfl⟩ := h
    simp only at e3 e4 e5
    subst e5 e4 e3
    refine ⟨_, ?_, .short (d := d) (by rintro rfl; simp at hdn) (by simpa using hd)⟩
    simp

/-- nothing that continues the number follows the reference -/
def Complete [Uni] (r b : Str) : Prop :=
  ∀ c d, r.getLast? = some d → Uni.isDecimal d = true → b.head? = some c → Uni.isDecimal c = false

theorem run_alt (a b : Re Nat) (s : St Nat) : run (a ∣∣ b) s = run a s ++ run b s := rfl

theorem sourceRef_head [Uni] {pre r b : Str} (h : SourceReference r) (hc : Complete r b) :
    ∃ t, (run sourceRefRe ⟨pre, r ++ b, []⟩).head? = some t ∧ t.rest = b := by
  have qb : ∀ {q : Str}, (∀ c ∈ q, c = '?' ∨ c = '!') → q.all ValueParser.isQB = true := by
    intro q hq
    rw [List.all_eq_true]
    intro c hc
    simpa [ValueParser.isQB] using hq c hc
  have nS : ∀ x : Str, NoMore ValueParser.isQB (s% "SOURCE" ++ x) := by
    intro x c hc
    have : c = 'S' := by simpa using hc.symm
    subst this; decide
  unfold sourceRefRe
  cases h with
  | @bare q d hq hd hdd =>
    have hq' := qb hq
    refine ⟨⟨d.reverse ++ ((s% "SOURCE").reverse ++ (q.reverse ++ '%' :: pre)), b, []⟩, ?_, rfl⟩
    · rw [run_ch_cat '%' _ _ (q ++ (s% "SOURCE" ++ (d ++ b))) (by simp)]
      rw [run_alt]
      apply head_append_left
      rw [run_opt_cat]
      have hno : run (Re.grp 1 (ch '{') ⬝ (star ValueParser.isQB ⬝ lit (s% "SOURCE") ⬝ plus Uni.isDecimal ⬝
          .ifgrp 1 (ch '}') .eps)) (⟨'%' :: pre, q ++ (s% "SOURCE" ++ (d ++ b)), []⟩ : St Nat) = [] := by
        rw [run_eq_nil_iff]
        intro t ht
        rw [mem_cat] at ht
        obtain ⟨u, hu, -⟩ := ht
        rw [mem_grp] at hu
        obtain ⟨v, w, hv, -, -⟩ := hu
        rw [mem_ch] at hv
        obtain ⟨cs, e, -⟩ := hv
        cases q with
        | nil => simp at e
        | cons c q =>
          simp only [List.cons_append, List.cons.injEq] at e
          rcases hq c (.head _) with h | h <;> rw [h] at e <;> exact absurd e.1 (by decide)
      rw [hno, List.nil_append]
      refine head_rep_cat (w := q) rfl hq' (by simp) (nS _) ?_
      rw [run_lit_cat _ _ _ (d ++ b) rfl]
      refine head_rep_cat (w := d) rfl (by simpa using hdd) ?_ ?_ ?_
      · cases d with
        | nil => exact absurd rfl hd
        | cons c d => simp
      · intro c hc'
        rcases List.eq_nil_or_concat d with rfl | ⟨d', x, rfl⟩
        · exact absurd rfl hd
        · exact hc c x (by simp [List.getLast?_cons, List.getLast?_append]) (hdd x (by simp)) hc'
      · simp only [run, get_nil, Option.isSome_none, Bool.false_eq_true, if_false, List.head?_cons]
  | @braced q d hq hd hdd =>
    have hq' := qb hq
    refine ⟨⟨'}' :: (d.reverse ++ ((s% "SOURCE").reverse ++ (q.reverse ++ (['{'].reverse ++ '%' :: pre)))), b, [(1, ['{'])]⟩, ?_, rfl⟩
    · rw [run_ch_cat '%' _ _ ('{' :: (q ++ (s% "SOURCE" ++ (d ++ '}' :: b)))) (by simp)]
      rw [run_alt]
      apply head_append_left
      rw [run_opt_cat]
      apply head_append_left
      have : (ch '{' : Re Nat) = lit ['{'] := rfl
      rw [this, run]
      rw [run_grp_lit (a := ['{']) (r := q ++ (s% "SOURCE" ++ (d ++ '}' :: b))) rfl]
      rw [List.flatMap_singleton]
      refine head_rep_cat (w := q) rfl hq' (by simp) (nS _) ?_
      rw [run_lit_cat _ _ _ (d ++ '}' :: b) rfl]
      refine head_rep_cat (w := d) (r' := '}' :: b) rfl (by simpa using hdd) ?_ ?_ ?_
      · cases d with
        | nil => exact absurd rfl hd
        | cons c d => simp
      · intro c hc'
        simp only [List.head?_cons, Option.mem_def, Option.some.injEq] at hc'
        rw [← hc', brace_not_decimal]
      · simp only [run, get_cons, Option.isSome_some, if_true, ch, beq_self_eq_true, List.head?_cons]
  | @short d hd hdd =>
    refine ⟨⟨'}' :: (d.reverse ++ ((s% "{S:").reverse ++ '%' :: pre)), b, []⟩, ?_, rfl⟩
    · rw [run_ch_cat '%' _ _ (s% "{S:" ++ (d ++ '}' :: b)) (by simp)]
      rw [run_alt]
      have hno : (run (opt (Re.grp 1 (ch '{')) ⬝ (star ValueParser.isQB ⬝ lit (s% "SOURCE") ⬝ plus Uni.isDecimal ⬝
          .ifgrp 1 (ch '}') .eps)) (⟨'%' :: pre, s% "{S:" ++ (d ++ '}' :: b), []⟩ : St Nat)) = [] := by
        rw [run_eq_nil_iff]
        intro t ht
        rw [mem_cat] at ht
        obtain ⟨u, hu, ht⟩ := ht
        rw [mem_opt] at hu
        have key : ∀ v : St Nat, (v.rest = s% "S:" ++ (d ++ '}' :: b) ∨ v.rest = s% "{S:" ++ (d ++ '}' :: b)) →
            t ∉ run (star ValueParser.isQB ⬝ lit (s% "SOURCE") ⬝ plus Uni.isDecimal ⬝ .ifgrp 1 (ch '}') .eps) v := by
          intro v hv hm
          simp only [mem_cat, star, mem_rep', mem_lit] at hm
          obtain ⟨_, ⟨q, r2, e2, hq, -, rfl⟩, _, ⟨r3, e3, rfl⟩, _⟩ := hm
          simp only at e3
          subst e3
          cases q with
          | nil => rcases hv with hv | hv <;> rw [hv] at e2 <;> simp at e2
          | cons c q =>
            rcases hv with hv | hv <;> rw [hv] at e2 <;> simp only [List.cons_append, List.cons.injEq] at e2 <;>
              rw [← e2.1] at hq <;> simp [ValueParser.isQB] at hq
        rcases hu with hu | rfl
        · rw [mem_grp] at hu
          obtain ⟨v, w, hv, -, rfl⟩ := hu
          rw [mem_ch] at hv
          obtain ⟨cs, e, rfl⟩ := hv
          simp only [List.cons_append, List.cons.injEq, true_and] at e
          exact key _ (.inl e.symm) ht
        · exact key _ (.inr rfl) ht
      rw [hno, List.nil_append]
      rw [run_lit_cat _ _ _ (d ++ '}' :: b) rfl]
      refine head_rep_cat (w := d) (r' := '}' :: b) rfl (by simpa using hdd) ?_ ?_ ?_
      · cases d with
        | nil => exact absurd rfl hd
        | cons c d => simp
      · intro c hc'
        simp only [List.head?_cons, Option.mem_def, Option.some.injEq] at hc'
        rw [← hc', brace_not_decimal]
      · simp only [run, ch, beq_self_eq_true, if_true, List.head?_cons]

/-- a reference can be completed to one with all digits -/
theorem sourceRef_complete [Uni] {r b : Str} (h : SourceReference r) :
    ∃ x b', b = x ++ b' ∧ SourceReference (r ++ x) ∧ Complete (r ++ x) b' := by
  have fin : ∀ y : Str, Complete (y ++ ['}']) b := by
    intro y c d h1 h2
    rw [List.getLast?_append] at h1
    simp at h1
    subst h1
    rw [brace_not_decimal] at h2; cases h2
  cases h with
  | @bare q d hq hd hdd =>
    refine ⟨b.takeWhile Uni.isDecimal, b.dropWhile Uni.isDecimal, by simp, ?_, ?_⟩
    · have : '%' :: (q ++ (s% "SOURCE" ++ d)) ++ b.takeWhile Uni.isDecimal =
        '%' :: (q ++ (s% "SOURCE" ++ (d ++ b.takeWhile Uni.isDecimal))) := by simp
      rw [this]
      refine .bare hq (by simp [hd]) ?_
      intro c hc
      rcases List.mem_append.mp hc with hc | hc
      · exact hdd c hc
      · exact List.all_eq_true.mp List.all_takeWhile c hc
    · intro c d' _ _ hc
      have := List.head?_dropWhile_not Uni.isDecimal b
      rw [hc] at this
      simpa using this
  | @braced q d hq hd hdd =>
    refine ⟨[], b, rfl, by rw [List.append_nil]; exact .braced hq hd hdd, ?_⟩
    have := fin ('%' :: '{' :: (q ++ (s% "SOURCE" ++ d)))
    simpa using this
  | @short d hd hdd =>
    refine ⟨[], b, rfl, by rw [List.append_nil]; exact .short hd hdd, ?_⟩
    have := fin (s% "%{S:" ++ d)
    simpa using this

theorem sourceRef_ne_nil [Uni] {r : Str} (h : SourceReference r) : r ≠ [] := by
  cases h <;> simp

theorem search_leftmost {κ : Type} [DecidableEq κ] {r : Re κ} : ∀ {rest pre : Str} {f : Found κ},
    searchFrom r pre rest = some f → ∃ w, rest = w ++ (f.text ++ f.st.rest) ∧
      (run r ⟨w.reverse ++ pre, f.text ++ f.st.rest, []⟩).head? = some f.st ∧
      ∀ a b, w = a ++ b → b ≠ [] → run r ⟨a.reverse ++ pre, b ++ (f.text ++ f.st.rest), []⟩ = [] := by
  intro rest
  induction rest with
  | nil =>
    intro pre f h
    unfold searchFrom at h
    cases hr : (run r ⟨pre, [], []⟩).head? with
    | none => rw [hr] at h; cases h
    | some t =>
      rw [hr] at h
      simp only [Option.some.injEq] at h
      subst h
      obtain ⟨x, ex, -⟩ := run_consumes (List.mem_of_mem_head? hr)
      simp only at ex
      have et := List.append_eq_nil_iff.mp ex.symm
      refine ⟨[], by simp [et.2], by simp [et.2, hr], ?_⟩
      intro a b hab hb
      exact absurd (List.append_eq_nil_iff.mp hab.symm).2 hb
  | cons c rest ih =>
    intro pre f h
    unfold searchFrom at h
    cases hr : (run r ⟨pre, c :: rest, []⟩).head? with
    | none =>
      rw [hr] at h
      obtain ⟨w, e, h1, h2⟩ := ih h
      refine ⟨c :: w, by rw [List.cons_append, ← e], by simpa using h1, ?_⟩
      intro a b hab hb
      cases a with
      | nil =>
        rw [List.nil_append] at hab
        subst hab
        rw [List.cons_append, ← e]
        exact List.head?_eq_none_iff.mp hr
      | cons a0 a =>
        simp only [List.cons_append, List.cons.injEq] at hab
        obtain ⟨rfl, hab⟩ := hab
        have := h2 a b hab hb
        simpa using this
    | some t =>
      rw [hr] at h
      simp only [Option.some.injEq] at h
      subst h
      obtain ⟨x, ex, -⟩ := run_consumes (List.mem_of_mem_head? hr)
      simp only at ex
      have ex' : (c :: rest).take ((c :: rest).length - t.rest.length) ++ t.rest = c :: rest := by
        rw [ex, take_left_length]
      refine ⟨[], by rw [List.nil_append]; exact ex'.symm, ?_, ?_⟩
      · simp only
        rw [ex']
        simpa using hr
      · intro a b hab hb
        exact absurd (List.append_eq_nil_iff.mp hab.symm).2 hb

theorem findAll_references [Uni] : ∀ (n : Nat) {s : Str}, s.length ≤ n → ReferencesIn s (findAll n s) := by
  intro n
  induction n with
  | zero =>
    intro s hs
    have : s = [] := by cases s <;> simp_all
    subst this
    refine .none ?_
    intro a r b e h
    have := List.append_eq_nil_iff.mp (List.append_eq_nil_iff.mp e.symm).2
    exact sourceRef_ne_nil h this.1
  | succ n ih =>
    intro s hs
    unfold findAll
    have some_of : ∀ {pre r b : Str}, SourceReference r → run sourceRefRe ⟨pre, r ++ b, []⟩ ≠ [] := by
      intro pre r b hr hn
      obtain ⟨x, b', rfl, h1, h2⟩ := sourceRef_complete (b := b) hr
      obtain ⟨t, ht, -⟩ := sourceRef_head (pre := pre) h1 h2
      rw [List.append_assoc, hn] at ht
      cases ht
    cases h : search sourceRefRe s with
    | none =>
      simp only
      refine .none ?_
      intro a r b e hr
      have : (search sourceRefRe s).isSome = true := by
        rw [Regex.search_isSome]
        refine ⟨a, r ++ b, e, ?_⟩
        cases hx : run sourceRefRe ⟨a.reverse, r ++ b, []⟩ with
        | nil => exact absurd hx (some_of hr)
        | cons t ts => exact ⟨t, .head _⟩
      rw [h] at this; cases this
    | some f =>
      simp only
      obtain ⟨w, e, h1, h2⟩ := search_leftmost h
      obtain ⟨r, er, hr⟩ := sourceRef_mem (List.mem_of_mem_head? h1)
      have : f.text = r := List.append_cancel_right er
      subst this
      rw [e]
      refine .next hr ?_ ?_ (ih ?_)
      · -- the number is complete
        obtain ⟨x, b', eb, h3, h4⟩ := sourceRef_complete (b := f.st.rest) hr
        obtain ⟨t, ht, htr⟩ := sourceRef_head (pre := w.reverse ++ []) h3 h4
        rw [List.append_assoc, ← eb, h1] at ht
        cases ht
        rw [htr] at eb
        have : x = [] := by
          have := congrArg List.length eb
          simp at this
          exact this
        subst this
        rw [List.append_nil] at h4
        rw [htr]
        exact h4
      · intro a' r' b' e' hr'
        refine Classical.byContradiction fun hlt => ?_
        have hlt : a'.length < w.length := by omega
        have hp : a' <+: w := by
          refine List.prefix_of_prefix_length_le (l₃ := w ++ (f.text ++ f.st.rest)) ?_ ⟨_, rfl⟩ (by omega)
          exact ⟨r' ++ b', e'.symm⟩
        obtain ⟨z, rfl⟩ := hp
        have hz : z ≠ [] := by rintro rfl; simp at hlt
        have := h2 a' z rfl hz
        rw [List.append_assoc] at e'
        rw [List.append_cancel_left e'] at this
        exact some_of hr' this
      · have hl := congrArg List.length e
        have hne := sourceRef_ne_nil hr
        have : 0 < f.text.length := List.length_pos_iff.mpr hne
        simp only [List.length_append] at hl
        omega


theorem references_unique [Uni] {s : Str} {rs rs' : List Str} (h : ReferencesIn s rs) (h' : ReferencesIn s rs') : rs = rs' := by
  induction h generalizing rs' with
  | none hn =>
    cases h' with
    | none _ => rfl
    | next hr _ _ _ => exact absurd hr (hn _ _ _ rfl)
  | @next a r b rs hr hc hl _ ih =>
    generalize hs : a ++ (r ++ b) = s at h'
    cases h' with
    | none hn => exact absurd hr (hn _ _ _ hs.symm)
    | @next a' r' b' rs' hr' hc' hl' hrs' =>
      have h1 := hl _ _ _ hs hr'
      have h2 := hl' _ _ _ hs.symm hr
      obtain ⟨rfl, e⟩ := List.append_inj hs (by omega)
      obtain ⟨t, ht, et⟩ := sourceRef_head (pre := []) hr hc
      obtain ⟨t', ht', et'⟩ := sourceRef_head (pre := []) hr' hc'
      rw [e, ht'] at ht
      cases ht
      rw [et'] at et
      subst et
      have := List.append_cancel_right e
      subst this
      rw [ih hrs']

theorem shellRefs_mem [Uni] {ns : List Node} {r : Str} :
    r ∈ (ValueParser.flatten ns).flatMap shellRefs ↔ ∃ body rs, Nested (.shell body) ns ∧ ReferencesIn body rs ∧ r ∈ rs := by
  rw [List.mem_flatMap]
  constructor
  · rintro ⟨n, hn, hr⟩
    rw [flatten_mem] at hn
    cases n with
    | shell body => exact ⟨body, _, hn, findAll_references _ (Nat.le_refl _), hr⟩
    | _ => cases hr
  · rintro ⟨body, rs, hn, hrs, hr⟩
    refine ⟨.shell body, (flatten_mem _ _).mpr hn, ?_⟩
    rw [references_unique hrs (findAll_references body.length (Nat.le_refl _))] at hr
    exact hr

theorem loadArg_mem {ns : List Node} {r : Str} :
    r ∈ (ValueParser.flatten ns).filterMap loadArg ↔ Nested (.builtin (s% "load") r) ns := by
  rw [List.mem_filterMap]
  constructor
  · rintro ⟨n, hn, hr⟩
    rw [flatten_mem] at hn
    cases n with
    | builtin name body =>
      simp only [loadArg] at hr
      split at hr
      · cases hr; subst name; exact hn
      · cases hr
    | _ => cases hr
  · intro h
    exact ⟨_, (flatten_mem _ _).mpr h, rfl⟩

theorem tagSources_mem [Uni] {E : Env} {inp : Inputs} {T : Macros.Table} : ∀ {ts : List Tag} {found out : List Str},
    tagSources E inp T found ts = .ok out → ∀ n, n ∈ out ↔ n ∈ found ∨
      ∃ t ∈ ts, E.rpm.expand T t.value = .ok [] ∧ ∃ r, ShellRefers t.value r ∧ LocatedAt E inp T r n := by
  intro ts
  induction ts with
  | nil => intro found out h n; simp [tagSources] at h; subst h; simp
  | cons t ts ih =>
    intro found out h n
    unfold tagSources at h
    split at h
    · cases h
    · rename_i s hs
      simp only [List.mem_cons, exists_eq_or_imp]
      split at h
      · rename_i hse
        have hse : s = [] := by simpa using hse
        subst hse
        split at h
        · cases h
        · rename_i nodes hn
          split at h
          · cases h
          · rename_i found' hf
            rw [ih h n, addSources_mem hf n, or_assoc]
            have : (∃ x ∈ (ValueParser.flatten nodes).flatMap shellRefs, LocatedAt E inp T x n) ↔
                (E.rpm.expand T t.value = .ok [] ∧ ∃ r, ShellRefers t.value r ∧ LocatedAt E inp T r n) := by
              constructor
              · rintro ⟨x, hx, hl⟩
                obtain ⟨body, rs, h1, h2, h3⟩ := shellRefs_mem.mp hx
                exact ⟨hs, x, ⟨nodes, body, rs, hn, h1, h2, h3⟩, hl⟩
              · rintro ⟨-, x, ⟨nodes', body, rs, hn', h1, h2, h3⟩, hl⟩
                rw [hn] at hn'
                cases hn'
                exact ⟨x, shellRefs_mem.mpr ⟨body, rs, h1, h2, h3⟩, hl⟩
            rw [this]
      · rename_i hse
        rw [ih h n]
        have : ¬ (E.rpm.expand T t.value = .ok [] ∧ ∃ r, ShellRefers t.value r ∧ LocatedAt E inp T r n) := by
          rintro ⟨h1, -⟩
          rw [hs] at h1
          cases h1
          exact hse rfl
        simp [this]

/-! ### no other exceptions -/

theorem addSources_ok {E : Env} {inp : Inputs} {T : Macros.Table} : ∀ {xs found : List Str},
    (∀ x ∈ xs, ∃ p b, E.rpm.expand T x = .ok p ∧ E.inSourcedir inp.sourcedir p = .ok b) →
    ∃ out, addSources E inp T found xs = .ok out := by
  intro xs
  induction xs with
  | nil => intro found _; exact ⟨found, rfl⟩
  | cons x xs ih =>
    intro found h
    obtain ⟨p, b, h1, h2⟩ := h x (.head _)
    have h3 := fun y hy => h y (.tail _ hy)
    unfold addSources addSource
    rw [h1]
    simp only [h2]
    cases b
    · exact ih h3
    · exact ih h3

theorem tagSources_ok [Uni] {E : Env} {inp : Inputs} {T : Macros.Table} : ∀ {ts : List Tag} {found : List Str},
    (∀ t ∈ ts, (∃ v, E.rpm.expand T t.value = .ok v) ∧ ∃ nodes, ValueParser.parse t.value = .ok nodes) →
    (∀ t ∈ ts, ∀ r, ShellRefers t.value r → ∃ p b, E.rpm.expand T r = .ok p ∧ E.inSourcedir inp.sourcedir p = .ok b) →
    ∃ out, tagSources E inp T found ts = .ok out := by
  intro ts
  induction ts with
  | nil => intro found _ _; exact ⟨found, rfl⟩
  | cons t ts ih =>
    intro found h h'
    obtain ⟨⟨v, h1⟩, nodes, h2⟩ := h t (.head _)
    have h3 := fun found' => ih (found := found') (fun y hy => h y (.tail _ hy)) (fun y hy => h' y (.tail _ hy))
    unfold tagSources
    rw [h1]
    simp only
    split
    · simp only [h2]
      obtain ⟨f, hf⟩ := addSources_ok (E := E) (inp := inp) (T := T) (found := found)
        (xs := (ValueParser.flatten nodes).flatMap shellRefs) (by
          intro x hx
          obtain ⟨body, rs, k1, k2, k3⟩ := shellRefs_mem.mp hx
          exact h' t (.head _) x ⟨nodes, body, rs, h2, k1, k2, k3⟩)
      rw [hf]
      exact h3 f
    · exact h3 found

end Specfile.SpecParser
