import Verif.Proof.Format4
/-
Trees with objects.
-/
namespace Specfile.Formatter
open Py Spec

mutual
/-- literals in place of objects -/
def hideExpr (repr : Str → Str) : Expr → Expr
  | .const r => .const (if isObject r then repr r else r)
  | .tuple items => .tuple (hideItems repr items)
  | .list items => .list (hideItems repr items)
  | .dict items => .dict (hideItems repr items)
  | .call f items => .call f (hideItems repr items)
  | .other => .other
def hideItems (repr : Str → Str) : Items → Items
  | .nil => .nil
  | .cons k v rest => .cons (hideKey repr k) (hideExpr repr v) (hideItems repr rest)
def hideKey (repr : Str → Str) : Key → Key
  | .pos => .pos
  | .kw n => .kw n
  | .unpack => .unpack
  | .key e => .key (hideExpr repr e)
end

variable {repr : Str → Str}

theorem argsInOrder_hide (items : Items) : ∀ b, argsInOrder b (hideItems repr items) = argsInOrder b items := by
  induction items using Items.rec (motive_1 := fun _ => True) (motive_3 := fun _ => True) with
  | nil => intro b; simp [hideItems]
  | cons k v rest _ _ ih => intro b; cases k <;> simp [hideItems, hideKey, argsInOrder, ih]
  | _ => trivial

theorem isNil_hide (items : Items) : (hideItems repr items).isNil = items.isNil := by
  cases items <;> simp [hideItems, Items.isNil]

theorem single_hide (items : Items) : (hideItems repr items).single = items.single := by
  rcases items with _ | ⟨k, v, _ | ⟨k', v', r⟩⟩ <;> simp [hideItems, Items.single]

theorem parenthesized_hide (items : Items) (c : Bool) :
    parenthesized (hideItems repr items) c = hideExpr repr (parenthesized items c) := by
  rcases items with _ | ⟨k, v, _ | ⟨k', v', r⟩⟩ <;> cases c <;> (try cases k) <;>
    simp [hideItems, hideKey, hideExpr, parenthesized]

theorem head_hide (ts : List Tok) (c : Char) : ((ts.map (hideTok repr)).head? = some (.op c)) ↔ (ts.head? = some (.op c)) := by
  rcases ts with _ | ⟨t, ts⟩
  · simp
  · cases t <;> simp [hideTok]

theorem parseExpr_op {c : Char} (n : Nat) (ts : List Tok) (h1 : c ≠ '(') (h2 : c ≠ '[') (h3 : c ≠ '{') :
    parseExpr (n + 1) (.op c :: ts) = none := by
  unfold parseExpr
  split <;> simp_all

theorem parseExpr_name {ts : List Tok} (n : Nat) (f : Str) (h : ¬ ∃ r, ts = .op '(' :: r) :
    parseExpr (n + 1) (.name f :: ts) = none := by
  unfold parseExpr
  split <;> simp_all

theorem parse_hide (n : Nat) :
    (∀ ts, parseExpr n (ts.map (hideTok repr)) =
      (parseExpr n ts).map (fun r => (hideExpr repr r.1, r.2.map (hideTok repr)))) ∧
    (∀ k c ts, parseItems n k c (ts.map (hideTok repr)) =
      (parseItems n k c ts).map (fun r => (hideItems repr r.1, r.2.1, r.2.2.map (hideTok repr)))) ∧
    (∀ k ts, parseKey n k (ts.map (hideTok repr)) =
      (parseKey n k ts).map (fun r => (hideKey repr r.1, r.2.map (hideTok repr)))) := by
  induction n with
  | zero => simp [parseExpr, parseItems, parseKey]
  | succ n ih =>
    obtain ⟨ihE, ihI, ihK⟩ := ih
    refine ⟨fun ts => ?_, fun k c ts => ?_, fun k ts => ?_⟩
    · rcases ts with _ | ⟨t, ts⟩
      · simp [parseExpr]
      · cases t with
        | const r => simp [parseExpr, hideTok, hideExpr]
        | op c =>
          by_cases h1 : c = '('
          · subst h1
            simp only [List.map_cons, hideTok, parseExpr, ihI]
            cases parseItems n .seq ')' ts <;> simp [parenthesized_hide]
          · by_cases h2 : c = '['
            · subst h2
              simp only [List.map_cons, hideTok, parseExpr, ihI]
              cases parseItems n .seq ']' ts <;> simp [hideExpr]
            · by_cases h3 : c = '{'
              · subst h3
                simp only [List.map_cons, hideTok, parseExpr, ihI]
                cases parseItems n .pairs '}' ts <;> simp [hideExpr]
              · simp only [List.map_cons, hideTok]
                rw [parseExpr_op n _ h1 h2 h3, parseExpr_op n _ h1 h2 h3]
                rfl
        | name f =>
          by_cases h1 : ∃ r, ts = .op '(' :: r
          · obtain ⟨r, rfl⟩ := h1
            simp only [List.map_cons, hideTok, parseExpr, ihI]
            cases parseItems n .args ')' r with
            | none => simp
            | some q =>
              obtain ⟨items, comma, rest⟩ := q
              simp only [Option.map_some, argsInOrder_hide]
              split <;> simp [hideExpr]
          · simp only [List.map_cons, hideTok]
            rw [parseExpr_name n f h1, parseExpr_name n f]
            · rfl
            · rintro ⟨r, hr⟩
              rcases ts with _ | ⟨t, ts⟩
              · simp at hr
              · cases t <;> simp [hideTok] at hr
                exact h1 ⟨ts, by simp [hr]⟩
    · unfold parseItems
      simp only [head_hide]
      split
      · simp [hideItems]
      · rw [ihK]
        cases hk : parseKey n k ts with
        | none => simp
        | some r =>
          obtain ⟨key, ts1⟩ := r
          simp only [Option.map_some]
          rw [ihE]
          cases he : parseExpr n ts1 with
          | none => simp
          | some r =>
            obtain ⟨v, ts2⟩ := r
            simp only [Option.map_some, head_hide]
            split
            · simp [hideItems]
            · split
              · rw [← List.map_tail, ihI]
                cases hi : parseItems n k c ts2.tail with
                | none => simp
                | some r => simp [hideItems, isNil_hide]
              · simp
    · cases k with
      | seq => simp [parseKey, hideKey]
      | pairs =>
        simp only [parseKey]
        rw [ihE]
        cases he : parseExpr n ts with
        | none => simp
        | some r =>
          obtain ⟨v, ts2⟩ := r
          rcases ts2 with _ | ⟨t, ts2⟩
          · simp
          · cases t with
            | op c =>
              by_cases hc : c = ':'
              · subst hc; simp [hideTok, hideKey]
              · simp only [Option.map_some, List.map_cons, hideTok]
                split
                · simp_all
                · split
                  · simp_all
                  · rfl
            | _ => simp [hideTok]
      | args =>
        rcases ts with _ | ⟨t, ts⟩
        · simp [parseKey, hideKey]
        · cases t with
          | const r => simp [parseKey, hideTok, hideKey]
          | name f =>
            rcases ts with _ | ⟨t, ts⟩
            · simp [parseKey, hideTok, hideKey]
            · cases t with
              | op c =>
                by_cases hc : c = '='
                · subst hc; simp [parseKey, hideTok, hideKey]
                · simp only [parseKey, List.map_cons, hideTok]
                  split <;> split <;> simp_all [hideKey, hideTok]
              | _ => simp [parseKey, hideTok, hideKey]
          | op c =>
            by_cases hc : c = '*'
            · subst hc
              rcases ts with _ | ⟨t, ts⟩
              · simp [parseKey, hideTok, hideKey]
              · cases t with
                | op d =>
                  by_cases hd : d = '*'
                  · subst hd; simp [parseKey, hideTok, hideKey]
                  · simp only [parseKey, List.map_cons, hideTok]
                    split <;> split <;> simp_all [hideKey, hideTok]
                | _ => simp [parseKey, hideTok, hideKey]
            · simp only [parseKey, List.map_cons, hideTok]
              split <;> split <;> simp_all [hideKey, hideTok]

end Specfile.Formatter
