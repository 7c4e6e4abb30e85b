import Verif.Spec.Format
/-
The formatter preserves tokens up to trailing commas, and these do not matter to the parser.
-/
namespace Specfile.Formatter
open Py Spec

theorem tokens_append (a b : List Piece) : tokens (a ++ b) = tokens a ++ tokens b := by
  induction a with
  | nil => rfl
  | cons p a ih => cases p <;> simp [tokens, ih]

mutual
/-- the tokens are a way to write the expression -/
inductive Shows : Expr → List Tok → Prop where
  | const (r) : Shows (.const r) [.const r]
  | tuple {items ts} (c : Bool) (h : ShowsItems items ts) (hc : items.single = true → c = true) (hn : items.isNil = true → c = false) :
    Shows (.tuple items) (.op '(' :: ts ++ (if c then [.op ','] else []) ++ [.op ')'])
  | list {items ts} (c : Bool) (h : ShowsItems items ts) (hn : items.isNil = true → c = false) :
    Shows (.list items) (.op '[' :: ts ++ (if c then [.op ','] else []) ++ [.op ']'])
  | dict {items ts} (c : Bool) (h : ShowsItems items ts) (hn : items.isNil = true → c = false) :
    Shows (.dict items) (.op '{' :: ts ++ (if c then [.op ','] else []) ++ [.op '}'])
  | call {f items ts} (c : Bool) (h : ShowsItems items ts) (hn : items.isNil = true → c = false) :
    Shows (.call f items) (.name f :: .op '(' :: ts ++ (if c then [.op ','] else []) ++ [.op ')'])
/-- elements separated by commas -/
inductive ShowsItems : Items → List Tok → Prop where
  | nil : ShowsItems .nil []
  | one {k v kt vt} (hk : ShowsKey k kt) (hv : Shows v vt) : ShowsItems (.cons k v .nil) (kt ++ vt)
  | cons {k v rest kt vt ts} (hk : ShowsKey k kt) (hv : Shows v vt) (hr : rest.isNil = false) (h : ShowsItems rest ts) :
    ShowsItems (.cons k v rest) (kt ++ vt ++ .op ',' :: ts)
inductive ShowsKey : Key → List Tok → Prop where
  | pos : ShowsKey .pos []
  | kw (n) : ShowsKey (.kw n) [.name n, .op '=']
  | key {e ts} (h : Shows e ts) : ShowsKey (.key e) (ts ++ [.op ':'])
end

mutual
def size : Expr → Nat
  | .const _ => 1
  | .tuple items => 1 + sizeItems items
  | .list items => 1 + sizeItems items
  | .dict items => 1 + sizeItems items
  | .call _ items => 1 + sizeItems items
  | .other => 1
def sizeItems : Items → Nat
  | .nil => 1
  | .cons k v rest => 1 + sizeKey k + size v + sizeItems rest
def sizeKey : Key → Nat
  | .pos => 1
  | .kw _ => 1
  | .unpack => 1
  | .key e => 1 + size e
end

mutual
theorem size_le {e : Expr} {ts : List Tok} (h : Shows e ts) : size e + 1 ≤ 3 * ts.length := by
  cases h with
  | const r => simp [size]
  | tuple c h hc hn => have := sizeItems_le h; simp [size]; omega
  | list c h hn => have := sizeItems_le h; simp [size]; omega
  | dict c h hn => have := sizeItems_le h; simp [size]; omega
  | call c h hn => have := sizeItems_le h; simp [size]; omega
theorem sizeItems_le {items : Items} {ts : List Tok} (h : ShowsItems items ts) : sizeItems items ≤ 3 * ts.length + 2 := by
  cases h with
  | nil => simp [sizeItems]
  | one hk hv => have := sizeKey_le hk; have := size_le hv; simp [sizeItems]; omega
  | cons hk hv hr h => have := sizeKey_le hk; have := size_le hv; have := sizeItems_le h; simp [sizeItems]; omega
theorem sizeKey_le {k : Key} {ts : List Tok} (h : ShowsKey k ts) : sizeKey k ≤ 3 * ts.length + 1 := by
  cases h with
  | pos => simp [sizeKey]
  | kw n => simp [sizeKey]
  | key h => have := size_le h; simp [sizeKey]; omega
end

/-- a value starts with none of these tokens -/
theorem shows_head {e : Expr} {ts : List Tok} (h : Shows e ts) :
    ∃ t r, ts = t :: r ∧ (∀ c ∈ [')', ']', '}', ',', '*'], t ≠ .op c) ∧
      (∀ n, t = .name n → ∃ r', r = .op '(' :: r') := by
  cases h with
  | const r => exact ⟨_, _, rfl, by simp, by simp⟩
  | tuple c h hc hn => exact ⟨_, _, by simp; exact ⟨rfl, rfl⟩, by simp, by simp⟩
  | list c h hn => exact ⟨_, _, by simp; exact ⟨rfl, rfl⟩, by simp, by simp⟩
  | dict c h hn => exact ⟨_, _, by simp; exact ⟨rfl, rfl⟩, by simp, by simp⟩
  | call c h hn => exact ⟨_, _, by simp; exact ⟨rfl, rfl⟩, by simp, by simp⟩

/-- the elements are of the kind -/
def Fits : Elements → Items → Prop
  | .seq, items => GoodSeq items
  | .pairs, items => GoodPairs items
  | .args, items => GoodArgs items

def KeyFits : Elements → Key → Prop
  | .seq, .pos => True
  | .pairs, .key e => GoodExpr e
  | .args, .pos => True
  | .args, .kw _ => True
  | _, _ => False

theorem fits_cons {kind : Elements} {k : Key} {v : Expr} {rest : Items} (h : Fits kind (.cons k v rest)) :
    KeyFits kind k ∧ GoodExpr v ∧ Fits kind rest := by
  cases kind <;> cases k <;> simp_all [Fits, KeyFits, GoodSeq, GoodPairs, GoodArgs]

theorem goodSeq_single {items : Items} (h : GoodSeq items) (hs : items.single = false ∨ c = true) :
    parenthesized items c = .tuple items := by
  unfold parenthesized
  split
  · simp [Items.single] at hs
  · rfl

mutual
theorem parse_shows {e : Expr} {ts : List Tok} (h : Shows e ts) (hg : GoodExpr e) (fuel : Nat) (hf : size e ≤ fuel)
    (r : List Tok) : parseExpr fuel (ts ++ r) = some (e, r) := by
  cases fuel with
  | zero => cases h <;> simp [size] at hf
  | succ fuel =>
    cases h with
    | const x => simp [parseExpr]
    | @tuple items ts c h hc hn =>
      simp only [size] at hf
      have := parse_items (kind := .seq) (close := ')') h hg (by simp) c hn fuel (by omega) r
      simp only [List.append_assoc, List.cons_append, List.nil_append] at this ⊢
      simp only [parseExpr]
      rw [this]
      simp only [Option.some.injEq, Prod.mk.injEq, and_true]
      apply goodSeq_single hg
      cases hs : items.single with
      | false => exact Or.inl rfl
      | true => exact Or.inr (hc hs)
    | @list items ts c h hn =>
      simp only [size] at hf
      have := parse_items (kind := .seq) (close := ']') h hg (by simp) c hn fuel (by omega) r
      simp only [List.append_assoc, List.cons_append, List.nil_append] at this ⊢
      simp only [parseExpr]
      rw [this]
    | @dict items ts c h hn =>
      simp only [size] at hf
      have := parse_items (kind := .pairs) (close := '}') h hg (by simp) c hn fuel (by omega) r
      simp only [List.append_assoc, List.cons_append, List.nil_append] at this ⊢
      simp only [parseExpr]
      rw [this]
    | @call f items ts c h hn =>
      simp only [size] at hf
      have := parse_items (kind := .args) (close := ')') h hg.1 (by simp) c hn fuel (by omega) r
      simp only [List.append_assoc, List.cons_append, List.nil_append] at this ⊢
      simp only [parseExpr]
      rw [this]
      simp [hg.2]
theorem parse_items {items : Items} {ts : List Tok} {kind : Elements} {close : Char} (h : ShowsItems items ts)
    (hg : Fits kind items) (hcl : close ∈ [')', ']', '}']) (c : Bool) (hn : items.isNil = true → c = false) (fuel : Nat)
    (hf : sizeItems items ≤ fuel) (r : List Tok) :
    parseItems fuel kind close (ts ++ (if c then [.op ','] else []) ++ .op close :: r) = some (items, c, r) := by
  cases fuel with
  | zero => cases h <;> simp [sizeItems] at hf
  | succ fuel =>
    cases h with
    | nil =>
      rw [hn rfl]
      simp [parseItems]
    | @one k v kt vt hk hv =>
      obtain ⟨h1, h2, h3⟩ := fits_cons hg
      simp only [sizeItems] at hf
      obtain ⟨t, tr, et, ht1, ht2⟩ := shows_head hv
      have e : kt ++ vt ++ (if c then [.op ','] else []) ++ .op close :: r =
          kt ++ (vt ++ ((if c then [.op ','] else []) ++ .op close :: r)) := by simp
      rw [e, parseItems, if_neg (key_head hk hv hcl), parse_key hk h1 hv fuel (by omega)]
      simp only
      rw [parse_shows hv h2 fuel (by omega)]
      simp only
      cases c with
      | false => simp
      | true =>
        have : close ≠ ',' := by rintro rfl; simp at hcl
        cases fuel with
        | zero => omega
        | succ fuel => simp [parseItems, this.symm, Items.isNil]
    | @cons k v rest kt vt ts hk hv hr h =>
      obtain ⟨h1, h2, h3⟩ := fits_cons hg
      simp only [sizeItems] at hf
      have e : kt ++ vt ++ .op ',' :: ts ++ (if c then [.op ','] else []) ++ .op close :: r =
          kt ++ (vt ++ .op ',' :: (ts ++ (if c then [.op ','] else []) ++ .op close :: r)) := by simp
      rw [e, parseItems, if_neg (key_head hk hv hcl), parse_key hk h1 hv fuel (by omega)]
      simp only
      rw [parse_shows hv h2 fuel (by omega)]
      have hc' : close ≠ ',' := by rintro rfl; simp at hcl
      simp only [List.head?_cons, Option.some.injEq, Tok.op.injEq, hc'.symm, if_false, if_true, List.tail_cons]
      rw [parse_items h h3 hcl c (by simp [hr]) fuel (by omega)]
      simp [hr]
theorem parse_key {k : Key} {kt : List Tok} {kind : Elements} (h : ShowsKey k kt) (hg : KeyFits kind k) {v : Expr} {vt : List Tok}
    (hv : Shows v vt) (fuel : Nat) (hf : sizeKey k ≤ fuel) (r : List Tok) :
    parseKey fuel kind (kt ++ (vt ++ r)) = some (k, vt ++ r) := by
  cases fuel with
  | zero => cases h <;> simp [sizeKey] at hf
  | succ fuel =>
    cases h with
    | pos =>
      cases kind with
      | seq => rfl
      | pairs => exact hg.elim
      | args =>
        obtain ⟨t, tr, rfl, ht1, ht2⟩ := shows_head hv
        simp only [List.nil_append, parseKey]
        split
        · rename_i n ts' he
          simp only [List.cons_append, List.cons.injEq] at he
          obtain ⟨r', hr'⟩ := ht2 n he.1
          rw [hr'] at he
          simp at he
        · rename_i ts' he
          simp only [List.cons_append, List.cons.injEq] at he
          exact absurd he.1 (ht1 '*' (by simp))
        · rfl
    | kw n =>
      cases kind with
      | seq => exact hg.elim
      | pairs => exact hg.elim
      | args => rfl
    | key h =>
      cases kind with
      | seq => exact hg.elim
      | args => exact hg.elim
      | pairs =>
        simp only [sizeKey] at hf
        simp only [parseKey, List.append_assoc, List.cons_append, List.nil_append]
        rw [parse_shows h hg fuel (by omega)]
        rfl
theorem key_head {k : Key} {kt : List Tok} (h : ShowsKey k kt) {v : Expr} {vt : List Tok}
    (hv : Shows v vt) {close : Char} (hcl : close ∈ [')', ']', '}']) {r : List Tok} :
    ¬ (kt ++ (vt ++ r)).head? = some (.op close) := by
  have hm : close ∈ [')', ']', '}', ',', '*'] := by simp at hcl ⊢; rcases hcl with h | h | h <;> simp [h]
  cases h with
  | pos =>
    obtain ⟨t, tr, rfl, ht1, -⟩ := shows_head hv
    simpa using ht1 close hm
  | kw n => simp
  | key h =>
    obtain ⟨t, tr, rfl, ht1, -⟩ := shows_head h
    simpa using ht1 close hm
end

theorem parsePython_shows {e : Expr} {ts : List Tok} (h : Shows e ts) (hg : GoodExpr e) :
    parsePython ts = some e := by
  have := parse_shows h hg (3 * ts.length + 3) (by have := size_le h; omega) []
  rw [List.append_nil] at this
  rw [parsePython, this]

end Specfile.Formatter
