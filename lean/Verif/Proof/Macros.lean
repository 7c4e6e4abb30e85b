import Verif.Spec.Macros
import Verif.Regex.More
import Verif.Proof.Prep3
/-
Lemmas about the macro context and the listing of macros.
-/
namespace Specfile.Macros
open Py Regex Spec Prep

/-! ### removal -/

theorem unescaped_iff (n u : Str) : Unescaped n u ↔ unescape n = u := by
  constructor
  · intro h
    induction h with
    | nil => rfl
    | pair _ ih => rw [unescape, ih]
    | @single s t h _ ih =>
      rw [unescape, ih]
      intro s' _ e
      rw [e] at h; exact h rfl
    | other h _ ih =>
      rw [unescape, ih]
      intro s' e
      exact absurd e h
  · rintro rfl
    fun_induction unescape n with
    | case1 s ih => exact .pair ih
    | case2 c s h ih =>
      by_cases hc : c = '%'
      · subst hc
        refine .single ?_ ih
        cases s with
        | nil => simp
        | cons d s => simp only [List.head?_cons, ne_eq, Option.some.injEq]; rintro rfl; exact h s rfl rfl
      · exact .other hc ih
    | case3 => exact .nil

theorem unescape_id {n : Str} (h : '%' ∉ n) : unescape n = n := by
  fun_induction unescape n with
  | case1 s => simp at h
  | case2 c s _ ih => simp only [List.mem_cons, not_or] at h; rw [ih h.2]
  | case3 => rfl

theorem assign_assign (T : Table) (n : Str) (a b : List Macro) : assign (assign T n a) n b = assign T n b := by
  funext k; simp only [assign]; split <;> rfl

theorem assign_same (T : Table) (n : Str) (a : List Macro) : assign T n a n = a := by simp [assign]

theorem assign_ne (T : Table) {n k : Str} (a : List Macro) (h : k ≠ n) : assign T n a k = T k := by simp [assign, h]

theorem assign_self (T : Table) (n : Str) : assign T n (T n) = T := by
  funext k; simp only [assign]; split
  · next h => rw [h]
  · rfl

theorem withStack_eq (T : Table) (n : Str) (a : List Macro) : withStack T n a = assign T n a := rfl

theorem del_assign (T : Table) (n : Str) (l : List Macro) : del (assign T n l) n = assign T n l.tail := by
  simp only [del, assign_same, assign_assign]

theorem del_eq (T : Table) (n : Str) : del T n = assign T n (T n).tail := rfl

theorem below_assign {T : Table} {n : Str} {l : List Macro} (h : l <:+ T n) : Below (assign T n l) T := by
  intro k
  by_cases hk : k = n
  · subst hk; rw [assign_same]; exact h
  · rw [assign_ne _ _ hk]; exact List.suffix_refl _

theorem below_trans {A B C : Table} (h : Below A B) (h' : Below B C) : Below A C :=
  fun n => (h n).trans (h' n)

/-- whatever happens, only definitions of `name` are removed -/
theorem removeLoop_below (R : Rpm) (name : Str) : ∀ fuel retry (T : Table) (l : List Macro), l <:+ T name →
    ∃ k, (removeLoop R name fuel retry (assign T name l)).1 = assign T name k ∧ k <:+ T name := by
  intro fuel
  induction fuel with
  | zero => intro retry T l hl; exact ⟨l, rfl, hl⟩
  | succ fuel ih =>
    intro retry T l hl
    have hd : l.tail <:+ T name := (List.tail_suffix l).trans hl
    rw [removeLoop, del_assign]
    split
    · split
      · split
        · exact ⟨l.tail, rfl, hd⟩
        · exact ih _ _ _ hd
      · exact ih _ _ _ hd
      · exact ⟨l.tail, rfl, hd⟩
    · exact ⟨l, rfl, hl⟩

/-- success means that the last expansion left the reference alone -/
theorem removeLoop_success (R : Rpm) (name : Str) : ∀ fuel retry (T T' : Table) (l : List Macro),
    removeLoop R name fuel retry (assign T name l) = (T', none) →
    R.expand T' (reference name) = .ok (reference (unescape name)) := by
  intro fuel
  induction fuel with
  | zero => intro retry T T' l h; simp [removeLoop] at h
  | succ fuel ih =>
    intro retry T T' l h
    rw [removeLoop, del_assign] at h
    split at h
    · split at h
      · split at h
        · next s hs e => cases h; rw [hs, e]
        · exact ih _ _ _ _ h
      · exact ih _ _ _ _ h
      · cases h
    · cases h

/-- failures among the stacks below `l` -/
def fails (R : Rpm) (name : Str) (T : Table) : List Macro → Nat
  | [] => 0
  | _ :: l => (if l = [] then 0 else
      if R.expand (assign T name l) (reference name) = .error .rpmException then 1 else 0) + fails R name T l

theorem removeLoop_exact (R : Rpm) (name : Str) (T : Table) (hk : KeptWhenUndefined R name)
    (hn : NotDisguised R T name) (hr : RaisesRpm R) : ∀ (l : List Macro) fuel retry, l <:+ T name →
    l.length ≤ fuel → 0 < fuel → retry < maxRetries →
    (retry + fails R name T l < maxRetries →
      removeLoop R name fuel retry (assign T name l) = (assign T name [], none)) ∧
    (maxRetries ≤ retry + fails R name T l → l.length < fuel →
      (removeLoop R name fuel retry (assign T name l)).2 = some .macroRemoval) := by
  intro l
  induction l with
  | nil =>
    intro fuel retry hl _ hf hlt
    obtain ⟨fuel, rfl⟩ : ∃ f, fuel = f + 1 := ⟨fuel - 1, by omega⟩
    obtain ⟨u, hu, hx⟩ := hk (assign T name []) (assign_same _ _ _)
    rw [unescaped_iff] at hu
    refine ⟨fun _ => ?_, fun h => ?_⟩
    · rw [removeLoop, del_assign, if_pos hlt]
      simp only [List.tail_nil, reference, hx, hu, if_pos]
    · simp only [fails] at h; omega
  | cons m l ih =>
    intro fuel retry hl hfl _ hlt
    obtain ⟨fuel, rfl⟩ : ∃ f, fuel = f + 1 := ⟨fuel - 1, by simp at hfl; omega⟩
    simp only [List.length_cons, Nat.add_le_add_iff_right] at hfl
    have hl' : l <:+ T name := (List.suffix_cons m l).trans hl
    rw [removeLoop, del_assign, if_pos hlt]
    simp only [List.tail_cons]
    by_cases e : l = []
    · subst e
      obtain ⟨u, hu, hx⟩ := hk (assign T name []) (assign_same _ _ _)
      rw [unescaped_iff] at hu
      simp only [fails, if_true, reference, hx, hu]
      refine ⟨fun _ => trivial, fun h => ?_⟩
      omega
    · have hne := hn (assign T name l) (below_assign hl') (by rw [assign_same]; exact e) _ ((unescaped_iff _ _).2 rfl)
      have hpos : 0 < l.length := List.length_pos_iff.2 e
      simp only [fails, if_neg e]
      cases hx : R.expand (assign T name l) (reference name) with
      | ok s =>
        have : s ≠ reference (unescape name) := by
          intro h; subst h; exact hne hx
        simp only [if_neg this]
        obtain ⟨h1, h2⟩ := ih fuel retry hl' hfl (by omega) hlt
        refine ⟨fun h => h1 (by simpa using h), fun h h' => h2 (by simpa using h) (by simp at h'; omega)⟩
      | error err =>
        have := hr _ _ _ hx
        subst this
        simp only [if_true]
        by_cases hlt' : retry + 1 < maxRetries
        · obtain ⟨h1, h2⟩ := ih fuel (retry + 1) hl' hfl (by omega) hlt'
          refine ⟨fun h => h1 (by omega), fun h h' => h2 (by omega) (by simp at h'; omega)⟩
        · refine ⟨fun h => by omega, fun h h' => ?_⟩
          obtain ⟨fuel, rfl⟩ : ∃ f, fuel = f + 1 := ⟨fuel - 1, by omega⟩
          rw [removeLoop, if_neg hlt']

theorem range_filter_shift (p : Nat → Bool) (n : Nat) :
    ((List.range (n + 1)).filter p).length =
      (if p 0 then 1 else 0) + ((List.range n).filter (fun k => p (k + 1))).length := by
  rw [List.range_succ_eq_map, List.filter_cons]
  rw [List.filter_map, ]
  split
  · simp [Function.comp_def, Nat.add_comm]
  · simp [Function.comp_def]

theorem fails_eq (R : Rpm) (name : Str) (T : Table) (l : List Macro) :
    ((List.range (l.length - 1)).filter (fun k =>
      R.expand (withStack T name (l.drop (k + 1))) ('%' :: '{' :: (name ++ ['}'])) == .error .rpmException)).length =
    fails R name T l := by
  induction l with
  | nil => rfl
  | cons m l ih =>
    cases l with
    | nil => rfl
    | cons m' l =>
      rw [show (m :: m' :: l).length - 1 = l.length + 1 from rfl, range_filter_shift, fails, ← ih]
      simp only [List.drop_succ_cons, List.drop_zero, reduceCtorEq, if_false, withStack_eq, reference,
        List.length_cons, Nat.add_sub_cancel, beq_iff_eq]
      congr

theorem failures_eq (R : Rpm) (name : Str) (T : Table) : failures R T name = fails R name T (T name) :=
  fails_eq R name T (T name)

/-! ### the listing -/

theorem parseInt_intStr' [Uni] (n : Int) : parseInt (intStr n) = some n := by
  cases n with
  | ofNat n => exact parseInt_intStr (Int.natCast_nonneg n)
  | negSucc n =>
    have hd := natStr_dec (n + 1)
    have h0 := natStr_ne_nil (n + 1)
    have hs : strip ('-' :: natStr (n + 1)) = '-' :: natStr (n + 1) := by
      apply strip_of_noSpace
      intro c hc
      rcases List.mem_cons.1 hc with e | h
      · subst e; decide
      · exact decimal_not_space (hd c h)
    have hp : parseNat (natStr (n + 1)) = some (n + 1) := by
      cases e : natStr (n + 1) with
      | nil => exact absurd e h0
      | cons c cs =>
        have h1 := digitsVal_decimal (acc := 0) hd
        have h2 := decVal_natStr (n + 1)
        simp only [decVal] at h2
        rw [h2, e] at h1
        simp only [parseNat, hd c (by rw [e]; simp), if_true]
        exact h1
    simp only [parseInt, intStr, hs, beq_self_eq_true, if_true, hp]
    simp [Int.negSucc_eq]

theorem head_level [Uni] {n : Int} {k : Nat} {X : Re Nat} {s t : St Nat} {r' : Str}
    (hr : s.rest = intStr n ++ r') (hm : NoMore Uni.isDecimal r')
    (h : (run X ⟨(intStr n).reverse ++ s.pre, r', (k, intStr n) :: s.caps⟩).head? = some t) :
    (run (.grp k (opt (ch '-') ⬝ plus Uni.isDecimal) ⬝ X) s).head? = some t := by
  rw [run_grp_cat, run_opt_cat]
  cases n with
  | ofNat n =>
    have h0 : run (ch '-' ⬝ plus Uni.isDecimal) s = [] := by
      apply run_ch_cat_nil
      rw [hr]
      intro e
      cases e' : natStr n with
      | nil => exact natStr_ne_nil n e'
      | cons c cs =>
        simp only [intStr, e', List.cons_append, List.head?_cons, Option.some.injEq] at e
        have := natStr_digits n c (by rw [e']; simp)
        rw [e] at this
        revert this; decide
    rw [h0, List.nil_append]
    apply head_greedy hr
    · exact List.all_eq_true.2 (natStr_dec n)
    · exact List.length_pos_iff.2 (natStr_ne_nil n)
    · exact hm
    · simp only [hr, take_left_length]; exact h
  | negSucc n =>
    have hr1 : s.rest = '-' :: (natStr (n + 1) ++ r') := hr
    have h0 : run (plus Uni.isDecimal) s = [] := by
      rw [run_eq_nil_iff]
      intro t ht
      obtain ⟨w, r, e, hw, hn, -⟩ := mem_rep.1 ht
      rw [hr1] at e
      cases w with
      | nil => simp at hn
      | cons c w =>
        simp only [List.cons_append, List.cons.injEq] at e
        rw [← e.1] at hw
        simp only [List.all_cons, Bool.and_eq_true] at hw
        rw [Uni.decimal_ascii _ (by decide)] at hw
        exact absurd hw.1 (by decide)
    rw [h0, List.append_nil, run_ch_cat _ _ _ _ hr1]
    refine head_greedy (w := natStr (n + 1)) (r' := r') rfl ?_ ?_ hm ?_
    · exact List.all_eq_true.2 (natStr_dec _)
    · exact List.length_pos_iff.2 (natStr_ne_nil _)
    · have e : (s.rest.take (s.rest.length - r'.length)) = intStr (.negSucc n) := by
        rw [hr, take_left_length]
      simp only [e]
      simpa [intStr] using h

theorem head_options {k : Nat} {X : Re Nat} {s t : St Nat} {w r' : Str}
    (hr : s.rest = '(' :: (w ++ ')' :: '\t' :: r')) (hw0 : w ≠ []) (ht : '\t' ∉ w) (hn : '\n' ∉ w)
    (h : (run (ch '\t' ⬝ X) ⟨('(' :: (w ++ [')'])).reverse ++ s.pre, '\t' :: r', (k, '(' :: (w ++ [')'])) :: s.caps⟩).head? = some t) :
    (run (opt (.grp k (ch '(' ⬝ plusL dot ⬝ ch ')')) ⬝ ch '\t' ⬝ X) s).head? = some t := by
  rw [run_opt_cat]
  apply head_append_left
  rw [run_grp_cat, run_ch_cat _ _ _ _ hr]
  rw [show run (plusL dot ⬝ ch ')') (⟨'(' :: s.pre, w ++ ')' :: '\t' :: r', s.caps⟩ : St Nat) =
    (run (plusL dot) ⟨'(' :: s.pre, w ++ ')' :: '\t' :: r', s.caps⟩).flatMap (run (ch ')')) from rfl, List.flatMap_assoc]
  refine head_rep_lazy (w := w) (r' := ')' :: '\t' :: r') rfl ?_ ?_ ?_ ?_
  · rw [List.all_eq_true]; intro c hc; simp only [dot, bne_iff_ne]; intro e; subst e; exact hn hc
  · exact List.length_pos_iff.2 hw0
  · simp only [St.adv, run, ch, beq_self_eq_true, if_true, List.flatMap_cons, List.flatMap_nil, List.append_nil]
    have e : s.rest.take (s.rest.length - ('\t' :: r').length) = '(' :: (w ++ [')']) := by
      rw [hr, show '(' :: (w ++ ')' :: '\t' :: r') = ('(' :: (w ++ [')'])) ++ ('\t' :: r') by simp, take_left_length]
    simp only [e]
    simpa [run, ch] using h
  · intro w' w'' e hne _
    rw [List.flatMap_eq_nil_iff]
    intro u hu
    obtain ⟨cs, e1, rfl⟩ := mem_ch.1 hu
    apply run_ch_cat_nil
    simp only [St.adv] at e1 ⊢
    cases w'' with
    | nil => exact absurd rfl hne
    | cons c w3 =>
      simp only [List.cons_append, List.cons.injEq] at e1
      rw [← e1.2]
      cases w3 with
      | nil => simp
      | cons d w4 =>
        simp only [List.cons_append, List.head?_cons]
        intro h
        cases h
        exact ht (by rw [e]; simp)

theorem head_noOptions {k : Nat} {X : Re Nat} {s t : St Nat} {r' : Str} (hr : s.rest = '\t' :: r')
    (h : (run (ch '\t' ⬝ X) s).head? = some t) :
    (run (opt (.grp k (ch '(' ⬝ plusL dot ⬝ ch ')')) ⬝ ch '\t' ⬝ X) s).head? = some t := by
  rw [run_opt_cat]
  have : run (.grp k (ch '(' ⬝ plusL dot ⬝ ch ')') ⬝ ch '\t' ⬝ X) s = [] := by
    rw [run_grp_cat, run_ch_cat_nil _ _ _ (by rw [hr]; simp)]; rfl
  rw [this, List.nil_append]; exact h

theorem word_not [Uni] {c : Char} (ha : isAscii c = true) (h : isAsciiAlnum c = false) (h' : c ≠ '_') :
    isWord c = false := by
  simp [isWord, Uni.alnum_ascii c ha, h, h']

theorem header_match [Uni] {m : Macro} (hm : Listable m) {pad first : Str} (hp : ∀ c ∈ pad, isSpace c = true)
    (hf : '\n' ∉ first) :
    ∃ t, rmatch dumpRe (pad ++ (intStr m.level ++ ((if m.used then '=' else ':') :: ' ' ::
        (m.name ++ (m.options.getD [] ++ '\t' :: first))))) = some t ∧
      t.get 1 = some (intStr m.level) ∧ t.get 2 = some [if m.used then '=' else ':'] ∧
      t.get 3 = some m.name ∧ t.get 4 = m.options ∧ t.get 5 = some first := by
  have hsep : ∀ c ∈ [('=' : Char), ':'], Uni.isDecimal c = false := by
    intro c hc
    simp at hc
    rcases hc with rfl | rfl <;> (rw [Uni.decimal_ascii _ (by decide)]; decide)
  have hnd : Uni.isDecimal (if m.used then '=' else ':') = false := hsep _ (by split <;> simp)
  have hend : ∀ (pre : Str) (caps : List (Nat × Str)), (run (.grp 5 (star dot) ⬝ .eos) ⟨pre, first, caps⟩).head? =
      some ⟨first.reverse ++ pre, [], (5, first) :: caps⟩ := by
    intro pre caps
    refine head_grp_greedy (w := first) (r' := []) (by simp) ?_ (Nat.zero_le _) (by intro c hc; simp at hc) ?_
    · rw [List.all_eq_true]; intro c hc; simp only [dot, bne_iff_ne]; intro e; subst e; exact hf hc
    · simp [run]
  have hpar : isWord '(' = false := word_not (by decide) (by decide) (by decide)
  have htab : isWord '\t' = false := word_not (by decide) (by decide) (by decide)
  obtain ⟨hn0, hn⟩ := hm.name
  have hopts : ∃ caps', (∀ pre caps, (run (opt (.grp 4 (ch '(' ⬝ plusL dot ⬝ ch ')')) ⬝ ch '\t' ⬝ .grp 5 (star dot) ⬝ .eos)
      ⟨pre, m.options.getD [] ++ '\t' :: first, caps⟩).head? =
        some ⟨first.reverse ++ '\t' :: ((m.options.getD []).reverse ++ pre), [], (5, first) :: (caps' ++ caps)⟩) ∧
      ((m.options = none ∧ caps' = []) ∨ ∃ o, m.options = some o ∧ caps' = [(4, o)]) := by
    cases ho : m.options with
    | none =>
      refine ⟨[], fun pre caps => ?_, .inl ⟨rfl, rfl⟩⟩
      apply head_noOptions (r' := first) rfl
      rw [run_ch_cat _ _ _ first rfl, hend]
      rfl
    | some o =>
      obtain ⟨w, rfl, hw0, hwt, hwn⟩ := hm.options o (by rw [ho]; rfl)
      refine ⟨[(4, '(' :: (w ++ [')']))], fun pre caps => ?_, .inr ⟨_, rfl, rfl⟩⟩
      refine head_options (w := w) (r' := first) (by simp) hw0 hwt hwn ?_
      rw [run_ch_cat _ _ _ first rfl, hend]
      rfl
  obtain ⟨caps', hopts, hcaps⟩ := hopts
  refine ⟨⟨first.reverse ++ '\t' :: ((m.options.getD []).reverse ++ (m.name.reverse ++ ' ' ::
      (if m.used then '=' else ':') :: ((intStr m.level).reverse ++ pad.reverse))), [], (5, first) :: (caps' ++ [(3, m.name), (2, [if m.used then '=' else ':']), (1, intStr m.level)])⟩, ?_, ?_⟩
  · rw [rmatch, dumpRe, run_bos_cat]
    refine head_rep_cat (w := pad) rfl (List.all_eq_true.2 hp) (Nat.zero_le _) ?_ ?_
    · intro c hc
      cases hl : m.level with
      | ofNat n =>
        rw [hl] at hc
        simp only [intStr] at hc
        cases e : natStr n with
        | nil => exact absurd e (natStr_ne_nil n)
        | cons d ds =>
          rw [e] at hc
          simp at hc
          subst hc
          exact decimal_not_space (natStr_dec n _ (by rw [e]; simp))
      | negSucc n =>
        rw [hl] at hc
        simp [intStr] at hc
        subst hc; decide
    · refine head_level (n := m.level) rfl ?_ ?_
      · intro c hc; simp at hc; subst hc; exact hnd
      · have hmark : ∀ (pre rest : Str) (caps : List (Nat × Str)) (X : Re Nat),
            run (.grp 2 (ch '=' ∣∣ ch ':') ⬝ X) ⟨pre, (if m.used then '=' else ':') :: rest, caps⟩ =
              run X ⟨(if m.used then '=' else ':') :: pre, rest, (2, [if m.used then '=' else ':']) :: caps⟩ := by
          intro pre rest caps X
          rw [run_grp_cat]
          cases m.used <;> simp [run, ch]
        simp only [hmark]
        rw [run_ch_cat _ _ _ _ rfl]
        refine head_grp_greedy (w := m.name) rfl (List.all_eq_true.2 hn) (List.length_pos_iff.2 hn0) ?_ ?_
        · intro c hc
          cases ho : m.options with
          | none => rw [ho] at hc; simp at hc; subst hc; exact htab
          | some o =>
            obtain ⟨w, rfl, -⟩ := hm.options o (by rw [ho]; rfl)
            rw [ho] at hc; simp at hc; subst hc; exact hpar
        · rw [hopts]
          simp [init]
  · rcases hcaps with ⟨e, rfl⟩ | ⟨o, e, rfl⟩ <;> rw [e] <;> refine ⟨rfl, rfl, rfl, rfl, rfl⟩

theorem header_of_match [Uni] {l : Str} {t : St Nat} (h : rmatch dumpRe l = some t) : LooksLikeHeader l := by
  have h := mem_of_rmatch h
  rw [dumpRe, run_bos_cat] at h
  obtain ⟨s1, h1, h⟩ := mem_cat.1 h
  obtain ⟨pad, r1, e1, hp, -, rfl⟩ := mem_rep'.1 h1
  obtain ⟨s2, h2, h⟩ := mem_cat.1 h
  obtain ⟨u, w, hu, -, rfl⟩ := mem_grp.1 h2
  obtain ⟨s3, h3, h3'⟩ := mem_cat.1 hu
  obtain ⟨ds, r3, e3, hd, hd0, rfl⟩ := mem_rep'.1 h3'
  obtain ⟨s4, h4, h⟩ := mem_cat.1 h
  obtain ⟨u4, w4, hu4, -, rfl⟩ := mem_grp.1 h4
  obtain ⟨s5, h5, h⟩ := mem_cat.1 h
  obtain ⟨r5, e5, rfl⟩ := mem_ch.1 h5
  obtain ⟨s6, h6, h⟩ := mem_cat.1 h
  obtain ⟨name, r6, e6, hn, hn0, rfl⟩ := mem_grp_rep.1 h6
  obtain ⟨s7, h7, h⟩ := mem_cat.1 h
  obtain ⟨opts, e7, -⟩ := run_consumes h7
  obtain ⟨s8, h8, h⟩ := mem_cat.1 h
  obtain ⟨r8, e8, rfl⟩ := mem_ch.1 h8
  have hmark : ∃ c, (c = '=' ∨ c = ':') ∧ r3 = c :: u4.rest := by
    rcases mem_alt.1 hu4 with h | h
    · obtain ⟨cs, e, rfl⟩ := mem_ch.1 h; exact ⟨_, .inl rfl, e⟩
    · obtain ⟨cs, e, rfl⟩ := mem_ch.1 h; exact ⟨_, .inr rfl, e⟩
  obtain ⟨c, hc, e4⟩ := hmark
  have hsign : ∃ sign, (sign = [] ∨ sign = ['-']) ∧ r1 = sign ++ s3.rest := by
    rcases mem_opt.1 h3 with h | rfl
    · obtain ⟨cs, e, rfl⟩ := mem_ch.1 h; exact ⟨_, .inr rfl, e⟩
    · exact ⟨[], .inl rfl, rfl⟩
  obtain ⟨sign, hs, e2⟩ := hsign
  simp only at e3 e5 e6 e7 e8
  refine ⟨pad, sign, ds, c, name, opts, r8, ?_, List.all_eq_true.1 hp, hs, List.length_pos_iff.1 hd0,
    List.all_eq_true.1 hd, hc, List.length_pos_iff.1 hn0, List.all_eq_true.1 hn⟩
  rw [← e8, ← e7, ← e6, ← e5, ← e4, ← e3, ← e2]
  exact e1

theorem endsWith_join {l : Str} (h : l.getLast? ≠ some '\\') : endsWith (l ++ ['\n']) (s% "\\\n") = false := by
  rw [Bool.eq_false_iff]
  intro he
  obtain ⟨a, e⟩ := List.isSuffixOf_iff_suffix.1 he
  have : a ++ ['\\'] = l := by
    have e' : (a ++ ['\\']) ++ ['\n'] = l ++ ['\n'] := by rw [← e]; simp
    exact List.append_cancel_right e'
  apply h
  rw [← this]; simp

theorem parseLoop_line [Uni] {l : Str} (h : l.getLast? ≠ some '\\') (res res' : List Macro) (xs : List Str)
    (h' : addLine res l = .ok res') : parseLoop none res ((l ++ ['\n']) :: xs) = parseLoop none res' xs := by
  rw [parseLoop]
  simp only [Option.getD_none, List.nil_append, endsWith_join h, Bool.false_eq_true, if_false, List.dropLast_concat, h']

theorem addLine_more [Uni] {l : Str} (hl : ¬ LooksLikeHeader l) (m : Macro) (ms : List Macro) (hb : m.body ≠ []) :
    addLine (m :: ms) l = .ok ({ m with body := m.body ++ '\n' :: l } :: ms) := by
  have hn : rmatch dumpRe l = none := by
    cases e : rmatch dumpRe l with
    | none => rfl
    | some t => exact absurd (header_of_match e) hl
  have : m.body.isEmpty = false := by cases h : m.body with | nil => exact absurd h hb | cons => rfl
  simp [addLine, hn, this]

theorem parseLoop_more [Uni] (ms : List Macro) (rest : List Str) : ∀ (more : List Str) (m : Macro), m.body ≠ [] →
    (∀ l ∈ more, ¬ LooksLikeHeader l) → (∀ l ∈ more, l.getLast? ≠ some '\\') →
    parseLoop none (m :: ms) (more.map (· ++ ['\n']) ++ rest) =
      parseLoop none ({ m with body := joinC '\n' (m.body :: more) } :: ms) rest := by
  intro more
  induction more with
  | nil => intro m _ _ _; rfl
  | cons l more ih =>
    intro m hb hh hs
    rw [List.map_cons, List.cons_append,
      parseLoop_line (hs l (by simp)) _ _ _ (addLine_more (hh l (by simp)) m ms hb),
      ih _ (by simp) (fun x hx => hh x (by simp [hx])) (fun x hx => hs x (by simp [hx]))]
    congr 3
    cases more <;> simp [joinC]

theorem dropWhile_body {first : Str} (hf : '\n' ∉ first) (hne : first ≠ []) (rest : Str) :
    (first ++ rest).dropWhile (· == '\n') = first ++ rest := by
  cases first with
  | nil => exact absurd rfl hne
  | cons c cs =>
    have : c ≠ '\n' := fun h => hf (by simp [h])
    simp [this]

/-- the lines after a header; while the body is empty no newline is added -/
theorem parseLoop_lines [Uni] (ms : List Macro) (rest : List Str) : ∀ (more : List Str) (m : Macro),
    (∀ l ∈ more, ¬ LooksLikeHeader l) → (∀ l ∈ more, l.getLast? ≠ some '\\') → '\n' ∉ m.body →
    (∀ l ∈ more, '\n' ∉ l) →
    parseLoop none (m :: ms) (more.map (· ++ ['\n']) ++ rest) =
      parseLoop none ({ m with body := (joinC '\n' (m.body :: more)).dropWhile (· == '\n') } :: ms) rest := by
  intro more
  induction more with
  | nil =>
    intro m _ _ hn _
    have : (joinC '\n' [m.body]).dropWhile (· == '\n') = m.body := by
      by_cases hb : m.body = []
      · rw [hb]; rfl
      · have := dropWhile_body hn hb []
        simpa [joinC] using this
    rw [this]; rfl
  | cons l more ih =>
    intro m hh hs hn hm
    by_cases hb : m.body = []
    · have hnm : rmatch dumpRe l = none := by
        cases e : rmatch dumpRe l with
        | none => rfl
        | some t => exact absurd (header_of_match e) (hh l (by simp))
      rw [List.map_cons, List.cons_append,
        parseLoop_line (hs l (by simp)) _ ({ m with body := l } :: ms) _ (by simp [addLine, hnm, hb]),
        ih _ (fun x hx => hh x (by simp [hx])) (fun x hx => hs x (by simp [hx])) (hm l (by simp))
          (fun x hx => hm x (by simp [hx]))]
      congr 3
      rw [hb]
      cases more <;> simp [joinC]
    · rw [parseLoop_more ms rest (l :: more) m hb hh hs]
      congr 3
      rw [show joinC '\n' (m.body :: l :: more) = m.body ++ ('\n' :: joinC '\n' (l :: more)) from rfl,
        dropWhile_body hn hb]

theorem parseLoop_macro [Uni] {m : Macro} (hm : Listable m) {lines : List Str} (hl : Lists m lines)
    (ms : List Macro) (rest : List Str) : parseLoop none ms (lines ++ rest) = parseLoop none (withoutLeadingNewlines m :: ms) rest := by
  obtain ⟨pad, first, more, hp, hb, hnl, rfl⟩ := hl
  have hsp : splitC '\n' m.body = first :: more := by rw [hb, splitC_joinC (by simp) hnl]
  have hbs := hm.backslash; rw [hsp] at hbs
  have hmo := hm.more; rw [hsp] at hmo
  obtain ⟨t, ht, g1, g2, g3, g4, g5⟩ := header_match hm hp (hnl first (by simp))
  have hlv : levels.contains m.level = true := List.contains_iff_mem.2 hm.level
  have hused : (some [if m.used then '=' else ':'] == some ['=']) = m.used := by cases m.used <;> rfl
  rw [List.cons_append, parseLoop_line (res' := ⟨m.name, m.options, first, m.level, m.used⟩ :: ms)]
  · rw [parseLoop_lines ms rest more ⟨m.name, m.options, first, m.level, m.used⟩ hmo
      (fun x hx => hbs x (List.mem_cons_of_mem _ hx)) (hnl first (by simp))
      (fun x hx => hnl x (List.mem_cons_of_mem _ hx))]
    simp only [withoutLeadingNewlines, ← hb]
  · intro h
    have e : ∀ x : Char, pad ++ (intStr m.level ++ (x :: ' ' :: (m.name ++ (m.options.getD [] ++ '\t' :: first)))) =
        (pad ++ (intStr m.level ++ (x :: ' ' :: (m.name ++ m.options.getD [])))) ++ '\t' :: first := by intro x; simp
    rw [e, List.getLast?_append] at h
    cases hf : first.getLast? with
    | none => simp [List.getLast?_cons, hf] at h
    | some c =>
      simp [List.getLast?_cons, hf] at h
      exact hbs first (by simp) (by rw [hf, h])
  · simp only [addLine, ht, g1, g2, g3, g4, g5, Option.getD_some, parseInt_intStr', hlv, if_true, hused]

theorem parseLoop_macros [Uni] (rest : List Str) : ∀ (ms : List Macro) (blocks : List (List Str)) (res : List Macro),
    ms.length = blocks.length → (∀ x ∈ ms.zip blocks, Lists x.1 x.2) → (∀ m ∈ ms, Listable m) →
    parseLoop none res (blocks.flatten ++ rest) =
      parseLoop none ((ms.map withoutLeadingNewlines).reverse ++ res) rest := by
  intro ms
  induction ms with
  | nil =>
    intro blocks res hl _ _
    cases blocks with
    | nil => rfl
    | cons => simp at hl
  | cons m ms ih =>
    intro blocks res hl hz hr
    cases blocks with
    | nil => simp at hl
    | cons b bs =>
      rw [List.flatten_cons, List.append_assoc, parseLoop_macro (hr m (by simp)) (hz (m, b) (by simp)),
        ih bs _ (by simpa using hl) (fun x hx => hz x (by simp [hx])) (fun x hx => hr x (by simp [hx]))]
      simp

theorem parseLoop_junk [Uni] (rest : List Str) : ∀ (junk : List Str),
    (∀ l ∈ junk, ¬ LooksLikeHeader l) → (∀ l ∈ junk, l.getLast? ≠ some '\\') →
    parseLoop none [] (junk.map (· ++ ['\n']) ++ rest) = parseLoop none [] rest := by
  intro junk
  induction junk with
  | nil => intro _ _; rfl
  | cons l junk ih =>
    intro hh hs
    have hn : rmatch dumpRe l = none := by
      cases e : rmatch dumpRe l with
      | none => rfl
      | some t => exact absurd (header_of_match e) (hh l (by simp))
    rw [List.map_cons, List.cons_append, parseLoop_line (res' := []) (hs l (by simp)),
      ih (fun x hx => hh x (by simp [hx])) (fun x hx => hs x (by simp [hx]))]
    simp [addLine, hn]

theorem parseLoop_joined [Uni] (a b : Str) (post : List Str) : ∀ (pre : List Str) (p : Option Str) (res : List Macro),
    parseLoop p res (pre ++ (a ++ ['\\', '\n']) :: b :: post) = parseLoop p res (pre ++ (a ++ b) :: post) := by
  intro pre
  induction pre with
  | nil =>
    intro p res
    have h : endsWith (p.getD [] ++ (a ++ ['\\', '\n'])) (s% "\\\n") = true := by
      apply List.isSuffixOf_iff_suffix.2
      exact ⟨p.getD [] ++ a, by simp⟩
    have e : (p.getD [] ++ (a ++ ['\\', '\n'])).dropLast.dropLast = p.getD [] ++ a := by
      rw [show p.getD [] ++ (a ++ ['\\', '\n']) = (p.getD [] ++ a ++ ['\\']) ++ ['\n'] by simp]
      simp
    rw [List.nil_append, List.nil_append]
    rw [parseLoop]
    simp only [h, if_true, e]
    rw [parseLoop, parseLoop]
    simp only [Option.getD_some, List.append_assoc]
  | cons x pre ih =>
    intro p res
    rw [List.cons_append, List.cons_append, parseLoop, parseLoop]
    simp only [ih]

end Specfile.Macros
