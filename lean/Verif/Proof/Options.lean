import Verif.Proof.Tokenize
import Verif.Py.Num
/-
Lemmas about options as a mapping and about positional arguments.
-/
namespace Specfile
open Py Spec
namespace Options

def dash (t : Token) : Bool := startsWith t.value ['-']
def ws (t : Token) : Bool := t.type == .whitespace

theorem isOpt_dash {c : Char} {t : Token} (h : isOpt c t = true) : dash t = true := by
  unfold isOpt dash startsWith at *
  cases hv : t.value with
  | nil => rw [hv] at h; simp at h
  | cons d v => rw [hv] at h; simp [List.isPrefixOf] at *; exact h.1

theorem isOpt_iff {c : Char} {t : Token} : isOpt c t = true ↔ ∃ v, t.value = '-' :: c :: v := by
  unfold isOpt startsWith
  rw [List.isPrefixOf_iff_prefix]
  constructor
  · rintro ⟨v, h⟩; exact ⟨v, h.symm⟩
  · rintro ⟨v, h⟩; exact ⟨v, h.symm⟩

theorem isOpt_unique {c d : Char} {t : Token} (h : isOpt c t = true) (hd : isOpt d t = true) : c = d := by
  obtain ⟨v, h⟩ := isOpt_iff.1 h
  obtain ⟨w, hd⟩ := isOpt_iff.1 hd
  rw [h] at hd
  simp at hd
  exact hd.1

/-! ### the last occurrence of an option -/

theorem lastIdx_none {α : Type} {p : α → Bool} {l : List α} : lastIdx p l = none ↔ ∀ x ∈ l, p x = false := by
  induction l with
  | nil => simp [lastIdx]
  | cons x l ih =>
    simp only [lastIdx]
    cases h : lastIdx p l with
    | some k =>
      have : ¬ ∀ x ∈ l, p x = false := by rw [← ih, h]; simp
      simp at this ⊢
      intro _
      exact this
    | none =>
      have := ih.1 h
      cases hp : p x <;> simp [hp]
      exact this

theorem lastIdx_append {α : Type} {p : α → Bool} (a : List α) {t : α} {b : List α} (ht : p t = true)
    (hb : ∀ x ∈ b, p x = false) : lastIdx p (a ++ t :: b) = some a.length := by
  induction a with
  | nil =>
    simp [lastIdx, lastIdx_none.2 hb, ht]
  | cons x a ih => simp [lastIdx, ih]

theorem lastIdx_some {α : Type} {p : α → Bool} {l : List α} {i : Nat} (h : lastIdx p l = some i) :
    ∃ a t b, l = a ++ t :: b ∧ a.length = i ∧ p t = true ∧ ∀ x ∈ b, p x = false := by
  induction l generalizing i with
  | nil => simp [lastIdx] at h
  | cons x l ih =>
    simp only [lastIdx] at h
    cases hl : lastIdx p l with
    | some k =>
      rw [hl] at h
      simp at h
      obtain ⟨a, t, b, rfl, h2, h3, h4⟩ := ih hl
      exact ⟨x :: a, t, b, rfl, by simp [h2, h], h3, h4⟩
    | none =>
      rw [hl] at h
      cases hp : p x <;> simp [hp] at h
      exact ⟨[], x, l, rfl, by simp [h], hp, lastIdx_none.1 hl⟩

/-- the argument found in the tokens that follow an option -/
def argOf (b : List Token) : Option Str :=
  match b with
  | [] => none
  | w :: b =>
    if ws w then
      match b with
      | [] => none
      | v :: _ => if dash v then none else some v.value
    else if dash w then none else some w.value

/-- text of the value of an option, given its last token and what follows -/
def textOf (optstring : Str) (c : Char) (t : Token) (b : List Token) : Str :=
  if t.value ≠ ['-', c] then t.value.drop 2
  else if !requiresArg optstring c then []
  else (argOf b).getD []

/-- `none`: the option is absent -/
def optText (o : Opts) (c : Char) : Option Str :=
  match lastIdx (isOpt c) o.tokens with
  | none => none
  | some i => some (textOf o.optstring c (o.tokens[i]?.getD ⟨.default, []⟩) (o.tokens.drop (i + 1)))

theorem optText_none {o : Opts} {c : Char} : optText o c = none ↔ ∀ t ∈ o.tokens, isOpt c t = false := by
  unfold optText
  rw [← lastIdx_none]
  cases lastIdx (isOpt c) o.tokens <;> simp

theorem optText_some {o : Opts} {c : Char} {a b : List Token} {t : Token} (h : o.tokens = a ++ t :: b)
    (ht : isOpt c t = true) (hb : ∀ x ∈ b, isOpt c x = false) :
    optText o c = some (textOf o.optstring c t b) := by
  unfold optText
  rw [h, lastIdx_append a ht hb]
  simp

theorem find_none {o : Opts} {c : Char} (h : ∀ t ∈ o.tokens, isOpt c t = false) : find o c = (none, none) := by
  unfold find
  rw [lastIdx_none.2 h]

/-- where the argument of a bare option is -/
def argPos (b : List Token) : Option Nat :=
  match b with
  | [] => none
  | w :: b =>
    if ws w then
      match b with
      | [] => none
      | v :: _ => if dash v then none else some 1
    else if dash w then none else some 0

theorem argIndex_eq (a b : List Token) (t : Token) :
    argIndex (a ++ t :: b) a.length = (argPos b).map (· + (a.length + 1)) := by
  unfold argIndex
  have e : ∀ k, (a ++ t :: b)[a.length + 1 + k]? = b[k]? := by
    intro k
    rw [List.getElem?_append_right (by omega)]
    rw [show a.length + 1 + k - a.length = k + 1 by omega]; simp
  have e0 := e 0
  have e1 := e 1
  simp only [Nat.add_zero] at e0
  simp only [e0]
  cases b with
  | nil => simp [argPos]
  | cons w b =>
    simp only [List.getElem?_cons_zero]
    by_cases hw : w.type = .whitespace
    · simp only [hw, if_true, e1, argPos, ws, beq_self_eq_true]
      cases b with
      | nil => simp
      | cons v b =>
        have hd : dash v = startsWith v.value ['-'] := rfl
        simp only [List.getElem?_cons_succ, List.getElem?_cons_zero, ← hd]
        cases dash v <;> simp; omega
    · simp only [hw, if_false, e0, argPos, ws, beq_iff_eq]
      have hd : dash w = startsWith w.value ['-'] := rfl
      simp only [List.getElem?_cons_zero, ← hd]
      cases dash w <;> simp

theorem find_some {o : Opts} {c : Char} {a b : List Token} {t : Token} (h : o.tokens = a ++ t :: b)
    (ht : isOpt c t = true) (hb : ∀ x ∈ b, isOpt c x = false) :
    find o c = (some a.length,
      if t.value ≠ ['-', c] then some a.length
      else if !requiresArg o.optstring c then none
      else (argPos b).map (· + (a.length + 1))) := by
  unfold find
  rw [h, lastIdx_append a ht hb]
  simp only [List.getElem?_append_right (Nat.le_refl _), Nat.sub_self, List.getElem?_cons_zero,
    Option.map_some, ne_eq, Option.some.injEq, argIndex_eq]
  split
  · rfl
  · split <;> rfl

theorem argOf_eq (b : List Token) : argOf b = (argPos b).map (fun k => valueAt b k) := by
  unfold argOf argPos
  cases b with
  | nil => rfl
  | cons w b =>
    cases b with
    | nil =>
      simp only []
      split
      · rfl
      · split <;> simp [valueAt]
    | cons v b =>
      simp only []
      split
      · split <;> simp [valueAt]
      · split <;> simp [valueAt]

theorem valueAt_after (a b : List Token) (t : Token) (k : Nat) :
    valueAt (a ++ t :: b) (k + (a.length + 1)) = valueAt b k := by
  unfold valueAt
  rw [List.getElem?_append_right (by omega), show k + (a.length + 1) - a.length = k + 1 by omega]
  simp

theorem get_eq [Uni] (o : Opts) (c : Char) : get o c =
    match optText o c with
    | none => if requiresArg o.optstring c then .ok ((o.defaults.find? (·.1 == c)).map (·.2))
        else .ok (some (.bool false))
    | some v => if v.isEmpty then .ok (some (.bool true)) else (readValue v).map some := by
  cases h : lastIdx (isOpt c) o.tokens with
  | none =>
    have h' := lastIdx_none.1 h
    unfold get
    rw [find_none h', optText_none.2 h']
  | some i =>
    obtain ⟨a, t, b, h1, h2, h3, h4⟩ := lastIdx_some h
    unfold get
    rw [find_some h1 h3 h4, optText_some h1 h3 h4]
    have hv : valueAt o.tokens a.length = t.value := by
      rw [h1]; unfold valueAt; rw [List.getElem?_append_right (by omega)]; simp
    simp only [textOf]
    by_cases hval : t.value ≠ ['-', c]
    · simp only [if_pos hval, Nat.lt_irrefl, if_false, hv, gt_iff_lt]
    · simp only [if_neg hval]
      have hval : t.value = ['-', c] := by simpa using hval
      by_cases hr : requiresArg o.optstring c = true
      · simp only [hr, Bool.not_true, Bool.false_eq_true, if_false]
        rw [argOf_eq]
        cases hp : argPos b with
        | none => simp [hv, hval]
        | some k =>
          simp only [Option.map_some, Option.getD_some]
          rw [if_pos (show k + (a.length + 1) > a.length by omega), h1, valueAt_after]
      · simp only [Bool.not_eq_true] at hr
        simp [hr, hv, hval]

/-! ### frame lemmas -/

/-- whitespace tokens do not look like options (true of everything `tokenize` returns) -/
def Sane (ts : List Token) : Prop := ∀ t ∈ ts, t.type = .whitespace → dash t = false

theorem argOf_frame (x : List Token) {t t' : Token} (y y' : List Token) (h1 : dash t = true)
    (h2 : ws t = false) (h1' : dash t' = true) (h2' : ws t' = false) :
    argOf (x ++ t :: y) = argOf (x ++ t' :: y') := by
  rcases x with _ | ⟨w, _ | ⟨v, x⟩⟩
  · simp [argOf, h1, h2, h1', h2']
  · simp [argOf, h1, h1']
  · simp [argOf]

theorem optText_frame {o o' : Opts} {c : Char} {a m m' b : List Token} {t t' : Token}
    (h : o.tokens = a ++ t :: (m ++ b)) (h' : o'.tokens = a ++ t' :: (m' ++ b))
    (ho : o'.optstring = o.optstring)
    (h1 : dash t = true) (h2 : ws t = false) (h1' : dash t' = true) (h2' : ws t' = false)
    (hc : isOpt c t = false) (hc' : isOpt c t' = false) (hm : ∀ x ∈ m, isOpt c x = false)
    (hm' : ∀ x ∈ m', isOpt c x = false) : optText o' c = optText o c := by
  cases hb : lastIdx (isOpt c) b with
  | some k =>
    obtain ⟨x, u, y, rfl, e2, e3, e4⟩ := lastIdx_some hb
    rw [optText_some (o := o) (a := a ++ t :: (m ++ x)) (t := u) (b := y) (by simp [h]) e3 e4,
      optText_some (o := o') (a := a ++ t' :: (m' ++ x)) (t := u) (b := y) (by simp [h']) e3 e4, ho]
  | none =>
    have hb := lastIdx_none.1 hb
    have hr : ∀ x ∈ t :: (m ++ b), isOpt c x = false := by
      intro x hx; simp at hx; rcases hx with rfl | hx | hx
      · exact hc
      · exact hm x hx
      · exact hb x hx
    have hr' : ∀ x ∈ t' :: (m' ++ b), isOpt c x = false := by
      intro x hx; simp at hx; rcases hx with rfl | hx | hx
      · exact hc'
      · exact hm' x hx
      · exact hb x hx
    cases ha : lastIdx (isOpt c) a with
    | none =>
      have ha := lastIdx_none.1 ha
      rw [optText_none.2, optText_none.2]
      · rw [h]; intro x hx; rcases List.mem_append.1 hx with hx | hx
        · exact ha x hx
        · exact hr x hx
      · rw [h']; intro x hx; rcases List.mem_append.1 hx with hx | hx
        · exact ha x hx
        · exact hr' x hx
    | some k =>
      obtain ⟨x, u, y, rfl, e2, e3, e4⟩ := lastIdx_some ha
      rw [optText_some (o := o) (a := x) (t := u) (b := y ++ t :: (m ++ b)) (by simp [h]) e3,
        optText_some (o := o') (a := x) (t := u) (b := y ++ t' :: (m' ++ b)) (by simp [h']) e3, ho]
      · simp only [textOf]
        rw [argOf_frame y (m' ++ b) (m ++ b) h1' h2' h1 h2]
      · intro z hz; rcases List.mem_append.1 hz with hz | hz
        · exact e4 z hz
        · exact hr' z hz
      · intro z hz; rcases List.mem_append.1 hz with hz | hz
        · exact e4 z hz
        · exact hr z hz

theorem optText_append {o o' : Opts} {c : Char} {m : List Token} {t : Token} {w : Str}
    (h' : o'.tokens = o.tokens ++ (if o.tokens.isEmpty then [] else [⟨.whitespace, w⟩]) ++ t :: m)
    (ho : o'.optstring = o.optstring) (hw : startsWith w ['-'] = false)
    (h1 : dash t = true) (h2 : ws t = false)
    (hc : isOpt c t = false) (hm : ∀ x ∈ m, isOpt c x = false)
    (hl : ∀ t, o.tokens.getLast? = some t → ws t = false) : optText o' c = optText o c := by
  have hsp : ∀ z ∈ (if o.tokens.isEmpty then [] else [(⟨.whitespace, w⟩ : Token)]) ++ t :: m,
      isOpt c z = false := by
    intro z hz
    rcases List.mem_append.1 hz with hz | hz
    · split at hz
      · simp at hz
      · simp at hz; subst hz
        cases hi : isOpt c ⟨.whitespace, w⟩ with
        | false => rfl
        | true => have := isOpt_dash hi; simp [dash, hw] at this
    · rcases List.mem_cons.1 hz with rfl | hz
      · exact hc
      · exact hm z hz
  cases ha : lastIdx (isOpt c) o.tokens with
  | none =>
    have ha := lastIdx_none.1 ha
    rw [optText_none.2 ha, optText_none.2]
    rw [h', List.append_assoc]
    intro z hz; rcases List.mem_append.1 hz with hz | hz
    · exact ha z hz
    · exact hsp z hz
  | some k =>
    obtain ⟨x, u, y, e1, e2, e3, e4⟩ := lastIdx_some ha
    have hne : o.tokens.isEmpty = false := by rw [e1]; simp
    rw [hne] at h' hsp
    simp only [Bool.false_eq_true, if_false] at h' hsp
    rw [optText_some e1 e3 e4,
      optText_some (a := x) (t := u) (b := y ++ ([⟨.whitespace, w⟩] ++ t :: m)) (by rw [h', e1]; simp) e3,
      ho]
    · simp only [textOf]
      have : argOf (y ++ ([⟨.whitespace, w⟩] ++ t :: m)) = argOf y := by
        rcases y with _ | ⟨v, _ | ⟨v', y⟩⟩
        · simp [argOf, ws, h1]
        · have : ws v = false := hl v (by rw [e1]; simp)
          simp [argOf, this]
        · simp [argOf]
      rw [this]
    · intro z hz; rcases List.mem_append.1 hz with hz | hz
      · exact e4 z hz
      · exact hsp z hz

theorem get_congr [Uni] {o o' : Opts} {c : Char} (h : optText o' c = optText o c)
    (ho : o'.optstring = o.optstring) (hd : o'.defaults = o.defaults) : get o' c = get o c := by
  rw [get_eq, get_eq, h, ho, hd]

/-! ### values -/

theorem readValue_int [Uni] {n : Int} (h : 0 ≤ n) : readValue (intStr n) = .ok (.int n) := by
  obtain ⟨k, rfl⟩ := Int.eq_ofNat_of_zero_le h
  have e : intStr (k : Int) = natStr k := by simp [intStr]
  rw [e]
  unfold readValue
  have hd : ∀ c ∈ natStr k, Uni.isDecimal c = true :=
    fun c hc => isDecimal_of_asciiDigit (natStr_digits k c hc)
  rw [if_pos, if_pos]
  · rw [decVal_natStr]
  · simpa using hd
  · simp only [Bool.and_eq_true, Bool.not_eq_true', List.isEmpty_eq_false_iff, List.all_eq_true]
    exact ⟨natStr_ne_nil k, fun c hc => Uni.decimal_numeric c (hd c hc)⟩

theorem modify_here {α : Type} (a : List α) (t : α) (b : List α) (f : α → α) :
    (a ++ t :: b).modify a.length f = a ++ f t :: b := by
  induction a with
  | nil => rfl
  | cons x a ih => simp [ih]

theorem modify_after {α : Type} (a : List α) (t : α) (b : List α) (f : α → α) (k : Nat) :
    (a ++ t :: b).modify (k + (a.length + 1)) f = a ++ t :: b.modify k f := by
  induction a with
  | nil => simp
  | cons x a ih =>
    rw [List.length_cons, ← Nat.add_assoc, List.cons_append, List.modify_succ_cons, ih]
    rfl

theorem argPos_some {b : List Token} {k : Nat} (h : argPos b = some k) :
    (∃ v r, b = v :: r ∧ k = 0 ∧ ws v = false ∧ dash v = false) ∨
    (∃ w v r, b = w :: v :: r ∧ k = 1 ∧ ws w = true ∧ dash v = false) := by
  unfold argPos at h
  cases b with
  | nil => simp at h
  | cons w b =>
    simp only at h
    cases hw : ws w with
    | true =>
      rw [hw] at h
      cases b with
      | nil => simp at h
      | cons v r =>
        cases hv : dash v <;> simp [hv] at h
        exact Or.inr ⟨w, v, r, rfl, h.symm, hw, hv⟩
    | false =>
      rw [hw] at h
      cases hv : dash w <;> simp [hv] at h
      exact Or.inl ⟨w, b, rfl, h.symm, hw, hv⟩

/-- values whose text can stand as an argument -/
def ArgText (s : Str) : Prop := s ≠ [] ∧ startsWith s ['-'] = false

theorem dash_mk (ty : TokenType) (s : Str) : dash ⟨ty, s⟩ = startsWith s ['-'] := rfl

theorem not_isOpt_of_dash {c : Char} {t : Token} (h : dash t = false) : isOpt c t = false := by
  cases hi : isOpt c t with
  | false => rfl
  | true => rw [isOpt_dash hi] at h; simp at h

/-- What setting a present argument-taking option does to the tokens. -/
structure Replaced (o o' : Opts) (c : Char) (v : Str) where
  a : List Token
  t : Token
  t' : Token
  m : List Token
  m' : List Token
  b : List Token
  before : o.tokens = a ++ t :: (m ++ b)
  after : o'.tokens = a ++ t' :: (m' ++ b)
  opt : isOpt c t = true
  opt' : isOpt c t' = true
  type : t'.type = t.type
  last : ∀ x ∈ m ++ b, isOpt c x = false
  arg : m = [] ∨ (∃ x, m = [x] ∧ dash x = false ∧ ws x = false) ∨
    (∃ w x, m = [w, x] ∧ dash x = false ∧ ws w = true)
  arg' : m' = [] ∨ (∃ x, m' = [x] ∧ dash x = false ∧ ws x = false) ∨
    (∃ w x, m' = [w, x] ∧ dash x = false ∧ ws w = true ∧ (w ∈ m ∨ w.value = [' ']))
  text : textOf o.optstring c t' (m' ++ b) = v

theorem set_replaced {o o' : Opts} {c : Char} {v : Val} (hreq : requiresArg o.optstring c = true)
    (hb : ∀ x, v ≠ .bool x) (hv : ArgText v.text) (hin : optText o c ≠ none)
    (h : write o c (some v) = o') :
    Nonempty (Replaced o o' c v.text) ∧ o'.optstring = o.optstring ∧ o'.defaults = o.defaults := by
  cases hl : lastIdx (isOpt c) o.tokens with
  | none => exact absurd (optText_none.2 (lastIdx_none.1 hl)) hin
  | some i =>
    obtain ⟨a, t, b, h1, h2, h3, h4⟩ := lastIdx_some hl
    have hv2 : ∃ r, t.value = '-' :: c :: r := isOpt_iff.1 h3
    obtain ⟨r, hr⟩ := hv2
    have hset : write o c (some v) =
      match (if t.value ≠ ['-', c] then some a.length
        else (argPos b).map (· + (a.length + 1)) : Option Nat) with
      | some j => if j > a.length then
            { o with tokens := o.tokens.modify j (fun t => ⟨if needsQuoting v then
                if t.type = .quoted ∨ t.type = .doubleQuoted then t.type else .doubleQuoted
                else .default, v.text⟩) }
          else if needsQuoting v then
            { o with tokens :=
              (o.tokens.modify a.length (fun t => { t with value := t.value.take 2 })).take (a.length + 1) ++
              [⟨.whitespace, [' ']⟩, ⟨.doubleQuoted, v.text⟩] ++
              (o.tokens.modify a.length (fun t => { t with value := t.value.take 2 })).drop (a.length + 1) }
          else { o with tokens :=
              o.tokens.modify a.length (fun t => { t with value := t.value.take 2 ++ v.text }) }
      | none => if needsQuoting v then
            { o with tokens :=
              (o.tokens.modify a.length (fun t => { t with value := t.value.take 2 })).take (a.length + 1) ++
              [⟨.whitespace, [' ']⟩, ⟨.doubleQuoted, v.text⟩] ++
              (o.tokens.modify a.length (fun t => { t with value := t.value.take 2 })).drop (a.length + 1) }
          else { o with tokens :=
              o.tokens.modify a.length (fun t => { t with value := t.value.take 2 ++ v.text }) } := by
      unfold write
      rw [find_some h1 h3 h4]
      cases v with
      | bool x => exact absurd rfl (hb x)
      | int n =>
        simp only [hreq, Bool.false_eq_true, if_false, Bool.not_true]
        generalize (if t.value ≠ ['-', c] then some a.length else _ : Option Nat) = j
        cases j with
        | none => rfl
        | some j => by_cases hj : j > a.length <;> simp [hj]
      | str n =>
        simp only [hreq, Bool.false_eq_true, if_false, Bool.not_true]
        generalize (if t.value ≠ ['-', c] then some a.length else _ : Option Nat) = j
        cases j with
        | none => rfl
        | some j => by_cases hj : j > a.length <;> simp [hj]
    rw [hset] at h
    clear hset
    -- the two ways to write the value next to the option
    have inline : ∀ o', (if needsQuoting v then
            { o with tokens :=
              (o.tokens.modify a.length (fun t => { t with value := t.value.take 2 })).take (a.length + 1) ++
              [⟨.whitespace, [' ']⟩, ⟨.doubleQuoted, v.text⟩] ++
              (o.tokens.modify a.length (fun t => { t with value := t.value.take 2 })).drop (a.length + 1) }
          else { o with tokens :=
              o.tokens.modify a.length (fun t => { t with value := t.value.take 2 ++ v.text }) } :
            Opts) = o' →
        Nonempty (Replaced o o' c v.text) ∧ o'.optstring = o.optstring ∧ o'.defaults = o.defaults := by
      intro o' h
      split at h
      · subst h
        refine ⟨⟨a, t, { t with value := t.value.take 2 }, [],
          [⟨.whitespace, [' ']⟩, ⟨.doubleQuoted, v.text⟩], b, by simp [h1], ?_, h3, ?_, rfl, by simpa using h4,
          Or.inl rfl, Or.inr (Or.inr ⟨_, _, rfl, hv.2, rfl, Or.inr rfl⟩), ?_⟩, rfl, rfl⟩
        · simp only [h1, modify_here]
          rw [List.take_append, List.drop_append]
          simp [List.take_of_length_le, List.drop_eq_nil_of_le]
        · exact isOpt_iff.2 ⟨[], by simp [hr]⟩
        · have : dash ⟨.doubleQuoted, v.text⟩ = false := hv.2
          simp [textOf, hr, hreq, argOf, ws, this]
      · subst h
        refine ⟨⟨a, t, { t with value := t.value.take 2 ++ v.text }, [], [], b, by simp [h1], ?_, h3, ?_,
          rfl, by simpa using h4, Or.inl rfl, Or.inl rfl, ?_⟩, rfl, rfl⟩
        · simp only [h1, modify_here]; rfl
        · exact isOpt_iff.2 ⟨v.text, by simp [hr]⟩
        · simp [textOf, hr, hv.1]
    split at h
    · next j hj =>
      split at h
      · next hgt =>
        by_cases hval : t.value ≠ ['-', c]
        · rw [if_pos hval] at hj
          simp at hj; omega
        · rw [if_neg hval] at hj
          have hval : t.value = ['-', c] := by simpa using hval
          cases hp : argPos b with
          | none => rw [hp] at hj; simp at hj
          | some k =>
            rw [hp] at hj
            simp at hj
            subst hj
            subst h
            generalize hf : (fun t : Token => (⟨if needsQuoting v then
                if t.type = .quoted ∨ t.type = .doubleQuoted then t.type else .doubleQuoted
                else .default, v.text⟩ : Token)) = f
            have hfv : ∀ x, (f x).value = v.text := by intro x; rw [← hf]
            have hfd : ∀ x, dash (f x) = false := by
              intro x; unfold dash; rw [hfv]; exact hv.2
            have hfw : ∀ x, ws (f x) = false := by
              intro x; rw [← hf]; unfold ws; simp only
              split
              · split
                · next hq => rcases hq with hq | hq <;> rw [hq] <;> rfl
                · rfl
              · rfl
            rcases argPos_some hp with ⟨x, r', e1, e2, e3, e4⟩ | ⟨w, x, r', e1, e2, e3, e4⟩
            · subst e1 e2
              refine ⟨⟨a, t, t, [x], [f x], r', by simp [h1], ?_, h3, h3, rfl, by simpa using h4,
                Or.inr (Or.inl ⟨x, rfl, e4, e3⟩), Or.inr (Or.inl ⟨_, rfl, hfd x, hfw x⟩), ?_⟩, rfl, rfl⟩
              · simp only [h1, modify_after]; rfl
              · simp [textOf, hval, hreq, argOf, hfw, hfd, hfv]
            · subst e1 e2
              refine ⟨⟨a, t, t, [w, x], [w, f x], r', by simp [h1], ?_, h3, h3, rfl, by simpa using h4,
                Or.inr (Or.inr ⟨w, x, rfl, e4, e3⟩),
                Or.inr (Or.inr ⟨w, _, rfl, hfd x, e3, Or.inl (by simp)⟩), ?_⟩, rfl, rfl⟩
              · simp only [h1, modify_after]; rfl
              · simp [textOf, hval, hreq, argOf, e3, hfd, hfv]
      · exact inline _ h
    · exact inline _ h

/-- What setting an absent argument-taking option does to the tokens. -/
theorem set_appended {o o' : Opts} {c : Char} {v : Val} (hreq : requiresArg o.optstring c = true)
    (hb : ∀ x, v ≠ .bool x) (hv : ArgText v.text) (hin : optText o c = none)
    (h : write o c (some v) = o') :
    (∃ t m, o'.tokens = o.tokens ++ (if o.tokens.isEmpty then [] else [⟨.whitespace, [' ']⟩]) ++ t :: m ∧
      isOpt c t = true ∧ ws t = false ∧ (∀ x ∈ m, dash x = false) ∧
      textOf o.optstring c t m = v.text) ∧ o'.optstring = o.optstring ∧ o'.defaults = o.defaults := by
  have hn := optText_none.1 hin
  unfold write at h
  rw [find_none hn] at h
  cases v with
  | bool x => exact absurd rfl (hb x)
  | int n =>
    subst h
    refine ⟨⟨_, [], rfl, ?_, rfl, by simp, ?_⟩, rfl, rfl⟩
    · exact isOpt_iff.2 ⟨intStr n, rfl⟩
    · have : intStr n ≠ [] := hv.1
      simp [textOf, this, Val.text]
  | str s =>
    subst h
    have hd : ∀ ty, dash ⟨ty, s⟩ = false := fun ty => hv.2
    refine ⟨⟨⟨.default, ['-', c]⟩, [⟨.whitespace, [' ']⟩, ⟨valueType (.str s), s⟩], rfl, ?_, rfl, ?_, ?_⟩,
      rfl, rfl⟩
    · exact isOpt_iff.2 ⟨[], rfl⟩
    · intro x hx
      simp at hx
      rcases hx with rfl | rfl
      · rfl
      · exact hv.2
    · simp [textOf, hreq, argOf, ws, hd, Val.text]

theorem set_ok {o o' : Opts} {c : Char} {v : Option Val} (h : set o c v = .ok o') :
    write o c v = o' := by
  unfold set at h
  have key : ∀ (x y : Bool), (if x then Except.error Err.optionsException
      else if y then Except.error Err.optionsException else Except.ok (write o c v) : Except Err Opts) =
      .ok o' → write o c v = o' := by
    intro x y h
    cases x <;> cases y <;> simp at h
    exact h
  exact key _ _ h

theorem tok_sane {quote : Option Char} {token : Str} {l : List Item} {ts : List Token}
    (h : tok quote token l = .ok ts) : ∀ t ∈ ts, t.type = .whitespace → t.value ≠ [] ∧ ∀ c ∈ t.value, isSpace c = true := by
  have hemit : ∀ ty token r, ty ≠ TokenType.whitespace →
      (∀ t ∈ r, t.type = .whitespace → t.value ≠ [] ∧ ∀ c ∈ t.value, isSpace c = true) →
      ∀ t ∈ emit ty token r, t.type = .whitespace → t.value ≠ [] ∧ ∀ c ∈ t.value, isSpace c = true := by
    intro ty token r hty hr t ht
    unfold emit at ht
    split at ht
    · exact hr t ht
    · rcases List.mem_cons.1 ht with rfl | ht
      · intro h; exact absurd h hty
      · exact hr t ht
  have hqt : ∀ q, quoteType q ≠ .whitespace := by
    intro q; unfold quoteType; split <;> simp
  fun_induction tok quote token l generalizing ts with
  | case1 token => simp at h; subst h; exact hemit _ _ _ (by simp) (by simp)
  | case2 => simp at h
  | case3 token q s inp ih => exact ih h
  | case4 token q c inp hc ih =>
    cases hr : tok none [] inp with
    | error e => rw [hr] at h; simp [bind, Except.bind] at h
    | ok r =>
      rw [hr] at h
      simp only [bind, Except.bind, Except.ok.injEq] at h
      subst h
      exact hemit _ _ _ (hqt _) (ih hr)
  | case5 => simp at h
  | case6 token q c hcq hcb d inp ih => exact ih h
  | case7 token q c inp hcq hcb ih => exact ih h
  | case8 token s inp ih => exact ih h
  | case9 token c inp hc ih =>
    cases hr : tok none [] inp with
    | error e => rw [hr] at h; simp [bind, Except.bind] at h
    | ok r =>
      rw [hr] at h
      simp only [bind, Except.bind, Except.ok.injEq] at h
      subst h
      refine hemit _ _ _ (by simp) ?_
      have ih := ih hr
      intro t ht
      unfold consWs at ht
      split at ht
      · rcases List.mem_cons.1 ht with rfl | ht
        · intro _
          refine ⟨by simp, ?_⟩
          intro d hd
          rcases List.mem_cons.1 hd with rfl | hd
          · exact hc
          · exact (ih _ (List.mem_cons_self ..) rfl).2 d hd
        · exact ih t (by simp [ht])
      · rcases List.mem_cons.1 ht with rfl | ht
        · intro _; simp [hc]
        · exact ih t ht
  | case10 token c inp hs hc ih =>
    cases hr : tok (some c) [] inp with
    | error e => rw [hr] at h; simp [bind, Except.bind] at h
    | ok r =>
      rw [hr] at h
      simp only [bind, Except.bind, Except.ok.injEq] at h
      subst h
      exact hemit _ _ _ (by simp) (ih hr)
  | case11 => simp at h
  | case12 token c hs hc hb d inp ih => exact ih h
  | case13 token c inp hs hc hb ih => exact ih h

end Options
end Specfile
