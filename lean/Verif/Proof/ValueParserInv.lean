import Verif.Proof.ValueParser
import Verif.Spec.ValueGrammar
/-
Parsing the printed form of unambiguous nodes.
-/
namespace Specfile
open Py Spec
namespace ValueParser

theorem isWord_ascii [Uni] {c : Char} (h : isAscii c = true) :
    isWord c = (isAsciiAlnum c || c == '_') := by
  simp [isWord, Uni.alnum_ascii c h]

theorem splitPct_append {b a : Str} (h : '%' ∉ b) : splitPct (b ++ '%' :: a) = some (b, a) := by
  induction b with
  | nil => simp [splitPct]
  | cons c cs ih =>
    simp only [List.mem_cons, not_or] at h
    simp only [List.cons_append, splitPct]
    rw [if_neg (by simpa using fun e => h.1 e.symm), ih h.2]; rfl

theorem splitColon_append {b a : Str} (h : ':' ∉ b) : splitColon (b ++ ':' :: a) = some (b, a) := by
  induction b with
  | nil => simp [splitColon]
  | cons c cs ih =>
    simp only [List.mem_cons, not_or] at h
    simp only [List.cons_append, splitColon]
    rw [if_neg (by simpa using fun e => h.1 e.symm), ih h.2]; rfl

theorem findMatching_of_counts {o c : Char} (ho : o ≠ '\\') (hc : c ≠ '\\') (hoc : o ≠ c) {l : Nat}
    {b r : Str} (h1 : ∀ p, p <+: b → p.count c < l + p.count o)
    (h2 : b.count c + 1 = l + b.count o) :
    findMatching o c l (b ++ c :: r) = some (b ++ [c], r) := by
  induction b generalizing l with
  | nil =>
    simp at h2
    subst h2
    simp only [List.nil_append, findMatching]
    rw [if_neg (by simpa using hc)]
    simp
  | cons x xs ih =>
    have hx := h1 [x] ⟨xs, rfl⟩
    have h1' : ∀ p, p <+: xs → (x :: p).count c < l + (x :: p).count o :=
      fun p hp => h1 (x :: p) (by rw [List.cons_prefix_cons]; exact ⟨rfl, hp⟩)
    simp only [List.count_cons, List.count_nil, beq_iff_eq] at hx h1' h2
    simp only [List.cons_append, findMatching]
    by_cases e1 : x = '\\'
    · subst e1
      rw [if_pos (by simp), ih (l := l)]
      · rfl
      · intro p hp; have := h1' p hp; simpa [ho.symm, hc.symm] using this
      · simpa [ho.symm, hc.symm] using h2
    · rw [if_neg (by simpa using e1)]
      by_cases e2 : x = c
      · subst e2
        rw [if_pos (by simp)]
        simp only [if_true, hoc.symm, if_false] at hx h1' h2
        rw [if_neg (by omega), ih (l := l - 1)]
        · rfl
        · intro p hp; have := h1' p hp; omega
        · omega
      · rw [if_neg (by simpa using e2)]
        by_cases e3 : x = o
        · subst e3
          rw [if_pos (by simp), ih (l := l + 1)]
          · rfl
          · intro p hp; have := h1' p hp; simp [hoc] at this; omega
          · simp [hoc] at h2; omega
        · rw [if_neg (by simpa using e3), ih (l := l)]
          · rfl
          · intro p hp; have := h1' p hp; simpa [e2, e3] using this
          · simpa [e2, e3] using h2

theorem findMatching_of_balanced {o c : Char} (ho : o ≠ '\\') (hc : c ≠ '\\') (hoc : o ≠ c)
    {b r : Str} (h : Balanced o c b) :
    findMatching o c 0 (o :: (b ++ c :: r)) = some (o :: (b ++ [c]), r) := by
  simp only [findMatching]
  rw [if_neg (by simpa using ho), if_neg (by simpa using hoc), if_pos (by simp),
    findMatching_of_counts ho hc hoc (l := 1)]
  · rfl
  · intro p hp; have := h.1 p hp; omega
  · have := h.2; omega

theorem findMacroEnd_of_balanced [Uni] {o c : Char} (hcl : closing o = some c)
    {b r : Str} (h : Balanced o c b) :
    findMacroEnd (o :: (b ++ c :: r)) = some (o :: (b ++ [c]), r) := by
  unfold findMacroEnd
  simp only [hcl]
  rcases closing_spec hcl with ⟨rfl, rfl⟩ | ⟨rfl, rfl⟩ | ⟨rfl, rfl⟩
  all_goals exact findMatching_of_balanced (by decide) (by decide) (by decide) h

theorem takeOne_pos {p : Char → Bool} {c : Char} (h : p c = true) (s : Str) :
    takeOne p (c :: s) = ([c], s) := by simp [takeOne, h]

theorem takeOne_neg {p : Char → Bool} {s : Str} (h : ∀ c ∈ s.head?, p c = false) :
    takeOne p s = ([], s) := by
  cases s with
  | nil => rfl
  | cons c cs => simp [takeOne, h c (by simp)]

/-- a plain reference that is not continued is recognised exactly -/
theorem findMacroEnd_plain [Uni] {p n t : Str} (hp : p.all isFlag = true) (hn : PlainName n)
    (ht : ∀ c ∈ t.head?, ¬ Extends p n c) (hne : p ++ n ++ t ≠ []) :
    findMacroEnd (p ++ n ++ t) = some (p ++ n, t) := by
  obtain ⟨d, w, e, rfl, hd, hw, he⟩ := hn
  have hdash : isWord '-' = false := by rw [isWord_ascii (by decide)]; decide
  have hstar : isWord '*' = false := by rw [isWord_ascii (by decide)]; decide
  have hhash : isWord '#' = false := by rw [isWord_ascii (by decide)]; decide
  have hq : isWord '?' = false := by rw [isWord_ascii (by decide)]; decide
  have hb : isWord '!' = false := by rw [isWord_ascii (by decide)]; decide
  have wflag : ∀ c, isWord c = true → isQB c = false := by
    intro c hc
    simp only [isQB, Bool.or_eq_false_iff, beq_eq_false_iff_ne]
    constructor <;> (rintro rfl; simp_all)
  have wdash : ∀ c, isWord c = true → (c == '-') = false := by
    intro c hc; rw [beq_eq_false_iff_ne]; rintro rfl; simp_all
  have wse : ∀ c, isWord c = true → (c == '*' || c == '#') = false := by
    intro c hc; simp only [Bool.or_eq_false_iff, beq_eq_false_iff_ne]
    constructor <;> (rintro rfl; simp_all)
  have wbr : ∀ c, isWord c = true → closing c = none := by
    intro c hc
    unfold closing
    have h1 : c ≠ '(' := by rintro rfl; rw [isWord_ascii (by decide)] at hc; revert hc; decide
    have h2 : c ≠ '{' := by rintro rfl; rw [isWord_ascii (by decide)] at hc; revert hc; decide
    have h3 : c ≠ '[' := by rintro rfl; rw [isWord_ascii (by decide)] at hc; revert hc; decide
    simp [h1, h2, h3]
  -- what follows the name if the name does not end in `*` or `#`
  have ht' : e = [] → ∀ c ∈ t.head?, (c == '*' || c == '#') = false ∧ isWord c = false := by
    intro h0 c hc
    have := ht c hc
    subst h0
    have hl : ¬ ((d ++ w ++ []).getLast? = some '*' ∨ (d ++ w ++ []).getLast? = some '#') := by
      simp only [List.append_nil]
      intro hl
      by_cases hw0 : w = []
      · subst hw0; rcases hd with rfl | rfl <;> simp at hl
      · have hg : (d ++ w).getLast? = w.getLast? := by
          rw [List.getLast?_append]; cases hh : w.getLast? with
          | none => simp at hh; exact absurd hh hw0
          | some x => rfl
        rw [hg] at hl
        rcases hl with hl | hl
        · have := hw _ (List.mem_of_getLast? hl); simp_all
        · have := hw _ (List.mem_of_getLast? hl); simp_all
    unfold Extends at this
    rw [if_neg hl] at this
    simp only [not_or] at this
    obtain ⟨h1, h2, h3, _⟩ := this
    refine ⟨by simp [h1, h2], by simpa using h3⟩
  -- stage 1: flags
  have s1 : ∀ c ∈ (d ++ w ++ e ++ t).head?, isQB c = false := by
    intro c hc
    rcases hd with rfl | rfl
    · cases w with
      | nil =>
        rcases he with rfl | rfl | rfl
        · simp at hc
          have := ht c (by simpa using hc)
          unfold Extends at this
          simp only [List.append_nil, List.getLast?_nil, reduceCtorEq, or_self, if_false, not_or,
            true_and, not_and] at this
          simpa [isFlag, isQB] using this.2.2.2.1.2
        · simp at hc; subst hc; decide
        · simp at hc; subst hc; decide
      | cons x xs => simp at hc; subst hc; exact wflag _ (hw _ (by simp))
    · simp at hc; subst hc; decide
  -- stage 2: dash
  have s2 : takeOne (· == '-') (d ++ w ++ e ++ t) = (d, w ++ e ++ t) := by
    rcases hd with rfl | rfl
    · apply takeOne_neg
      intro c hc
      cases w with
      | nil =>
        rcases he with rfl | rfl | rfl
        · simp at hc
          have := ht c (by simpa using hc)
          unfold Extends at this
          simp only [List.append_nil, List.getLast?_nil, reduceCtorEq, or_self, if_false, not_or,
            true_and, not_and] at this
          simpa using this.2.2.2.1.1
        · simp at hc; subst hc; decide
        · simp at hc; subst hc; decide
      | cons x xs => simp at hc; subst hc; exact wdash _ (hw _ (by simp))
    · simp [takeOne]
  -- stage 3: word characters
  have s3 : ∀ c ∈ (e ++ t).head?, isWord c = false := by
    intro c hc
    rcases he with rfl | rfl | rfl
    · exact (ht' rfl c (by simpa using hc)).2
    · simp at hc; subst hc; exact hstar
    · simp at hc; subst hc; exact hhash
  -- stage 4: final `*` or `#`
  have s4 : takeOne (fun c => c == '*' || c == '#') (e ++ t) = (e, t) := by
    rcases he with rfl | rfl | rfl
    · exact takeOne_neg (fun c hc => (ht' rfl c (by simpa using hc)).1)
    · simp [takeOne]
    · simp [takeOne]
  have t1 := takeWhile_append_of_all (p := isQB) (a := p) (b := d ++ w ++ e ++ t)
    (by simpa [isFlag, isQB] using hp) s1
  have t3 := takeWhile_append_of_all (p := isWord) (a := w) (b := e ++ t)
    (by simpa using hw) s3
  -- the first character is not an opening bracket
  have hbr : ∀ c ∈ (p ++ (d ++ w ++ e) ++ t).head?, closing c = none := by
    intro c hc
    cases p with
    | cons x xs =>
      simp at hc; subst hc
      simp only [List.all_cons, Bool.and_eq_true] at hp
      have := hp.1
      simp only [isFlag, Bool.or_eq_true, beq_iff_eq] at this
      rcases this with rfl | rfl <;> decide
    | nil =>
      rcases hd with rfl | rfl
      · cases w with
        | nil =>
          rcases he with rfl | rfl | rfl
          · simp at hc
            have := ht c (by simpa using hc)
            unfold Extends at this
            simp only [List.append_nil, List.getLast?_nil, reduceCtorEq, or_self, if_false, not_or,
              true_and] at this
            unfold closing
            simp [this.2.2.2.2.1, this.2.2.2.2.2.1, this.2.2.2.2.2.2.1]
          · simp at hc; subst hc; decide
          · simp at hc; subst hc; decide
        | cons x xs => simp at hc; subst hc; exact wbr _ (hw _ (by simp))
      · simp at hc; subst hc; decide
  have e0 : p ++ (d ++ w ++ e) ++ t = p ++ (d ++ w ++ e ++ t) := by simp
  unfold findMacroEnd
  cases hs : p ++ (d ++ w ++ e) ++ t with
  | nil => exact absurd hs hne
  | cons c cs =>
    have hcl := hbr c (by rw [hs]; simp)
    simp only [hcl]
    rw [← hs, e0, t1.1, t1.2, s2]
    simp only [List.append_assoc]
    rw [t3.1, t3.2, s4]

theorem strs_head [Uni] {ns : List Node} (h : GoodNodes ns) (hne : ns ≠ []) : Node.strs ns ≠ [] := by
  cases ns with
  | nil => exact absurd rfl hne
  | cons n ns =>
    rw [GoodNodes] at h
    intro e
    rw [Node.strs, List.append_eq_nil_iff] at e
    have := h.1
    cases n with
    | lit v => rw [GoodNode] at this; exact this.1 e.1
    | _ => simp [Node.str] at e

/-- a node other than a literal, followed by text that does not extend it -/
theorem node_step [Uni] {fuel : Nat} {n : Node} {ns : List Node} (hg : GoodNodes (n :: ns))
    (hlit : ∀ v, n ≠ .lit v)
    (hrec : ∀ p m body, n = .cond p m body → parseF fuel 0 (Node.strs body) 0 = .ok body) :
    ∃ c a m, n.str = '%' :: m ∧ m ++ Node.strs ns = c :: a ∧ c ≠ '%' ∧
      findMacroEnd (c :: a) = some (m, Node.strs ns) ∧ mkNode fuel c m = .ok n := by
  rw [GoodNodes] at hg
  obtain ⟨hn, hns, hfol⟩ := hg
  have inner_br : ∀ (o c : Char) (b : Str), inner (o :: (b ++ [c])) = b := by
    intro o c b; simp [inner]
  cases n with
  | lit v => exact absurd rfl (hlit v)
  | shell b =>
    rw [GoodNode] at hn
    refine ⟨'(', b ++ ')' :: Node.strs ns, '(' :: (b ++ [')']), rfl, by simp, by decide,
      findMacroEnd_of_balanced (by decide) hn, ?_⟩
    simp [mkNode, inner_br]
  | expr b =>
    rw [GoodNode] at hn
    refine ⟨'[', b ++ ']' :: Node.strs ns, '[' :: (b ++ [']']), rfl, by simp, by decide,
      findMacroEnd_of_balanced (by decide) hn, ?_⟩
    simp [mkNode, inner_br]
  | builtin m b =>
    rw [GoodNode] at hn
    obtain ⟨h1, h2, h3⟩ := hn
    refine ⟨'{', (m ++ ':' :: b) ++ '}' :: Node.strs ns, '{' :: ((m ++ ':' :: b) ++ ['}']),
      by simp [Node.str], by simp, by decide,
      findMacroEnd_of_balanced (by decide) h3, ?_⟩
    simp only [mkNode, inner_br]
    rw [splitColon_append h1]
    have : (splitPrefix m).1.contains '?' = false := by
      have h2' : '?' ∉ (splitPrefix m).1 := h2
      simpa using h2'
    simp only [this]; simp
  | encl p m args =>
    rw [GoodNode] at hn
    obtain ⟨h1, h2, h3, h4⟩ := hn
    have hm := h3 m (by simp)
    have hflagstart : ∀ c ∈ (joinC ' ' (m :: args)).head?, isQB c = false := by
      intro c hc
      cases m with
      | nil => exact absurd rfl hm.1
      | cons x xs =>
        have : c = x := by
          cases args with
          | nil => simpa [eq_comm] using hc
          | cons _ _ => simpa [joinC, eq_comm] using hc
        subst this
        exact h2 c (by simp)
    have hsp := takeWhile_append_of_all (p := isQB) (a := p) (b := joinC ' ' (m :: args)) h1 hflagstart
    have hcol : ':' ∉ p ++ joinC ' ' (m :: args) := by
      rw [List.mem_append, not_or]
      constructor
      · intro hc
        have := List.all_eq_true.mp h1 _ hc
        revert this; decide
      · have : ∀ l : List Str, (∀ w ∈ l, ':' ∉ w) → ':' ∉ joinC ' ' l := by
          intro l hl
          induction l with
          | nil => simp
          | cons a l ih =>
            by_cases hl0 : l = []
            · subst hl0; simpa using hl a (by simp)
            · rw [joinC_cons _ _ hl0]
              simp only [List.mem_append, List.mem_cons, not_or]
              exact ⟨hl a (by simp), by decide, ih (fun w hw => hl w (by simp [hw]))⟩
        exact this _ (fun w hw => (h3 w hw).2.2)
    have hwords : words (joinC ' ' (m :: args)) = m :: args := by
      have hspace : isSpace ' ' = true := by decide
      have : ∀ l : List Str, l ≠ [] → (∀ w ∈ l, ∀ c ∈ w, isSpace c = false) →
          splitP isSpace (joinC ' ' l) = l := by
        intro l hl0 hl
        induction l with
        | nil => exact absurd rfl hl0
        | cons a l ih =>
          by_cases hl1 : l = []
          · subst hl1; simpa using splitP_of_all_neg (hl a (by simp))
          · rw [joinC_cons _ _ hl1, splitP_append_sep _ (hl a (by simp)) hspace,
              ih hl1 (fun w hw => hl w (by simp [hw]))]
      unfold words
      rw [this _ (by simp) (fun w hw => (h3 w hw).2.1), List.filter_eq_self]
      intro w hw
      have := (h3 w hw).1
      simpa using this
    refine ⟨'{', (p ++ joinC ' ' (m :: args)) ++ '}' :: Node.strs ns,
      '{' :: ((p ++ joinC ' ' (m :: args)) ++ ['}']), encl_str _ _ _, by simp, by decide,
      findMacroEnd_of_balanced (by decide) h4, ?_⟩
    simp only [mkNode, inner_br]
    rw [splitColon_none.mpr hcol]
    simp only [mkEncl, splitPrefix, hsp.1, hsp.2, hwords]
    simp
  | cond p m body =>
    rw [GoodNode] at hn
    obtain ⟨h1, h2, h3, h4, h5, h6⟩ := hn
    have hcol : ':' ∉ p ++ m := by
      rw [List.mem_append, not_or]
      refine ⟨?_, h4⟩
      intro hc
      have := List.all_eq_true.mp h1 _ hc
      revert this; decide
    have hsp := takeWhile_append_of_all (p := isQB) (a := p) (b := m) h1 h3
    refine ⟨'{', (p ++ m ++ ':' :: Node.strs body) ++ '}' :: Node.strs ns,
      '{' :: ((p ++ m ++ ':' :: Node.strs body) ++ ['}']), by simp [Node.str], by simp, by decide,
      findMacroEnd_of_balanced (by decide) h6, ?_⟩
    simp only [mkNode, inner_br]
    rw [splitColon_append hcol]
    simp only [splitPrefix, hsp.1, hsp.2]
    have : p.contains '?' = true := by simpa using h2
    rw [this]; simp [hrec p m body rfl, bind, Except.bind]
  | sub p m =>
    rw [GoodNode] at hn
    obtain ⟨h1, h2⟩ := hn
    simp only [Follows] at hfol
    have hne : p ++ m ++ Node.strs ns ≠ [] := by
      intro e
      simp only [List.append_eq_nil_iff] at e
      exact hfol.2 e.1.1 e.1.2 e.2
    have hpl := findMacroEnd_plain h1 h2 hfol.1 hne
    cases hs : p ++ m ++ Node.strs ns with
    | nil => exact absurd hs hne
    | cons c a =>
      rw [hs] at hpl
      -- the first character
      have hflagsub : ∀ x, isFlag x = true → x ≠ '%' ∧ x ≠ '(' ∧ x ≠ '[' ∧ x ≠ '{' := by
        intro x hx
        simp only [isFlag, Bool.or_eq_true, beq_iff_eq] at hx
        rcases hx with rfl | rfl <;> decide
      have hword : ∀ x, isWord x = true → x ≠ '%' ∧ x ≠ '(' ∧ x ≠ '[' ∧ x ≠ '{' := by
        intro x hx
        refine ⟨?_, ?_, ?_, ?_⟩ <;>
          (rintro rfl; rw [isWord_ascii (by decide)] at hx; revert hx; decide)
      have hc : c ≠ '%' ∧ c ≠ '(' ∧ c ≠ '[' ∧ c ≠ '{' := by
        cases p with
        | cons x xs =>
          simp at hs; rw [← hs.1]
          simp only [List.all_cons, Bool.and_eq_true] at h1
          exact hflagsub x h1.1
        | nil =>
          obtain ⟨d, w, e, rfl, hd, hw, he⟩ := h2
          rcases hd with rfl | rfl
          · cases w with
            | cons x xs => simp at hs; rw [← hs.1]; exact hword x (hw x (by simp))
            | nil =>
              rcases he with rfl | rfl | rfl
              · have := hfol.1 c (by simp at hs; simp [hs])
                unfold Extends at this
                simp only [List.append_nil, List.getLast?_nil, reduceCtorEq, or_self, if_false,
                  not_or, true_and] at this
                have h := this.2.2.2.2
                exact ⟨h.2.2.2, h.1, h.2.2.1, h.2.1⟩
              · simp at hs; rw [← hs.1]; decide
              · simp at hs; rw [← hs.1]; decide
          · simp at hs; rw [← hs.1]; decide
      refine ⟨c, a, p ++ m, rfl, hs, hc.1, hpl, ?_⟩
      -- the prefix is split off correctly
      have hstart : ∀ x ∈ m.head?, isQB x = false := by
        intro x hx
        obtain ⟨d, w, e, rfl, hd, hw, he⟩ := h2
        rcases hd with rfl | rfl
        · cases w with
          | cons y ys =>
            simp at hx; subst hx
            have hy := hw y (by simp)
            simp only [isQB, Bool.or_eq_false_iff, beq_eq_false_iff_ne]
            constructor <;>
              (rintro rfl; rw [isWord_ascii (by decide)] at hy; revert hy; decide)
          | nil =>
            rcases he with rfl | rfl | rfl
            · simp at hx
            · simp at hx; subst hx; decide
            · simp at hx; subst hx; decide
        · simp at hx; subst hx; decide
      have hsp := takeWhile_append_of_all (p := isQB) (a := p) (b := m) h1 hstart
      simp only [mkNode]
      rw [if_neg (by simpa using hc.2.1), if_neg (by simpa using hc.2.2.1),
        if_neg (by simpa using hc.2.2.2)]
      simp only [mkSub, splitPrefix, hsp.1, hsp.2]

theorem parseF_good [Uni] (fuel : Nat) : ∀ (start : Nat) (ns : List Node), GoodNodes ns →
    (Node.strs ns).length + 1 ≤ fuel → parseF fuel start (Node.strs ns) 0 = .ok ns := by
  induction fuel with
  | zero => intro _ _ _ h; omega
  | succ fuel ih =>
    intro start ns hg hf
    -- one non-literal node after the literal text `v`
    have main : ∀ (v : Str) (n : Node) (ns' : List Node), '%' ∉ v → GoodNodes (n :: ns') →
        (∀ w, n ≠ .lit w) → (v ++ Node.strs (n :: ns')).length + 1 ≤ fuel + 1 →
        parseF (fuel + 1) start (v ++ Node.strs (n :: ns')) 0 =
          .ok ((if v.isEmpty then [] else [.lit v]) ++ n :: ns') := by
      intro v n ns' hv hg' hlit hlen
      have hlen' := hlen
      rw [Node.strs] at hlen'
      obtain ⟨c, a, m, h1, h2, h3, h4, h5⟩ := node_step (fuel := fuel) hg' hlit (by
        intro p k body e
        subst e
        rw [GoodNodes, GoodNode] at hg'
        refine ih 0 body hg'.1.2.2.2.2.1 ?_
        simp [Node.str] at hlen'
        omega)
      have e : v ++ Node.strs (n :: ns') = v ++ '%' :: (c :: a) := by
        rw [Node.strs, h1, ← h2]; simp
      rw [parseF_succ, e]
      rw [if_neg (by simp)]
      simp only [List.drop_zero, splitPct_append hv, List.take_zero, List.nil_append]
      rw [if_neg (by simpa using h3)]
      simp only [h4]
      rw [h5, ih _ ns' (by rw [GoodNodes] at hg'; exact hg'.2.1) (by simp [h1] at hlen'; omega)]
      rfl
    cases ns with
    | nil => rw [parseF_succ]; rfl
    | cons n ns =>
      by_cases hl : ∃ v, n = .lit v
      · obtain ⟨v, rfl⟩ := hl
        have hg0 := hg
        rw [GoodNodes, GoodNode] at hg0
        obtain ⟨⟨hv0, hv⟩, hns, hfol⟩ := hg0
        simp only [Follows] at hfol
        cases ns with
        | nil =>
          rw [parseF_succ]
          have : ¬ ('%' ∈ v) := hv
          simp [Node.strs, Node.str, hv0, splitPct_none.mpr hv]
        | cons n' ns' =>
          have hlit : ∀ w, n' ≠ .lit w := by
            rintro w rfl
            rw [GoodNodes, GoodNode] at hns
            cases w with
            | nil => exact hns.1.1 rfl
            | cons x xs =>
              have := hfol x (by simp [Node.strs, Node.str])
              subst this
              exact hns.1.2 (by simp)
          have := main v n' ns' hv hns hlit (by simpa [Node.strs, Node.str] using hf)
          rw [Node.strs, Node.str, this]
          simp [hv0]
      · have := main [] n ns (by simp) hg (fun w e => hl ⟨w, e⟩) (by simpa using hf)
        simpa using this

end ValueParser
end Specfile
