import Verif.Proof.Format5
/-
Constants and names of an expression, in order.
-/
namespace Specfile.Formatter
open Py Spec

mutual
/-- constants and names -/
def atoms : Expr → List Tok
  | .const r => [.const r]
  | .tuple items => atomsItems items
  | .list items => atomsItems items
  | .dict items => atomsItems items
  | .call f items => .name f :: atomsItems items
  | .other => []
def atomsItems : Items → List Tok
  | .nil => []
  | .cons k v rest => atomsKey k ++ atoms v ++ atomsItems rest
def atomsKey : Key → List Tok
  | .pos => []
  | .kw n => [.name n]
  | .unpack => []
  | .key e => atoms e
end

/-- the token is a constant or name -/
def isAtom : Tok → Bool
  | .op _ => false
  | .const _ => true
  | .name _ => true

theorem atoms_parenthesized (items : Items) (c : Bool) : atoms (parenthesized items c) = atomsItems items := by
  rcases items with _ | ⟨k, v, _ | ⟨k', v', r⟩⟩ <;> cases c <;> (try cases k) <;>
    simp [atoms, atomsItems, atomsKey, parenthesized]

theorem filter_head {ts : List Tok} {c : Char} (h : ts.head? = some (.op c)) : ts.filter isAtom = ts.tail.filter isAtom := by
  rcases ts with _ | ⟨t, ts⟩
  · simp at h
  · simp at h; subst h; simp [isAtom]

theorem parse_atoms (n : Nat) :
    (∀ ts e r, parseExpr n ts = some (e, r) → ts.filter isAtom = atoms e ++ r.filter isAtom) ∧
    (∀ k c ts items b r, parseItems n k c ts = some (items, b, r) → ts.filter isAtom = atomsItems items ++ r.filter isAtom) ∧
    (∀ k ts key r, parseKey n k ts = some (key, r) → ts.filter isAtom = atomsKey key ++ r.filter isAtom) := by
  induction n with
  | zero => simp [parseExpr, parseItems, parseKey]
  | succ n ih =>
    obtain ⟨ihE, ihI, ihK⟩ := ih
    refine ⟨fun ts e r h => ?_, fun k c ts items b r h => ?_, fun k ts key r h => ?_⟩
    · rcases ts with _ | ⟨t, ts⟩
      · simp [parseExpr] at h
      · cases t with
        | const q => simp [parseExpr] at h; obtain ⟨rfl, rfl⟩ := h; simp [List.filter, atoms, isAtom]
        | op c =>
          rw [List.filter_cons_of_neg (by simp [isAtom])]
          by_cases h1 : c = '('
          · subst h1
            simp only [parseExpr] at h
            split at h
            · rename_i hi; simp at h; obtain ⟨rfl, rfl⟩ := h; rw [atoms_parenthesized]; exact ihI _ _ _ _ _ _ hi
            · simp at h
          · by_cases h2 : c = '['
            · subst h2
              simp only [parseExpr] at h
              split at h
              · rename_i hi; simp at h; obtain ⟨rfl, rfl⟩ := h; exact ihI _ _ _ _ _ _ hi
              · simp at h
            · by_cases h3 : c = '{'
              · subst h3
                simp only [parseExpr] at h
                split at h
                · rename_i hi; simp at h; obtain ⟨rfl, rfl⟩ := h; exact ihI _ _ _ _ _ _ hi
                · simp at h
              · rw [parseExpr_op n _ h1 h2 h3] at h; simp at h
        | name f =>
          rw [List.filter_cons_of_pos (by simp [isAtom])]
          by_cases h1 : ∃ r, ts = .op '(' :: r
          · obtain ⟨q, rfl⟩ := h1
            simp only [parseExpr] at h
            split at h
            · rename_i hi
              split at h
              · simp at h; obtain ⟨rfl, rfl⟩ := h
                rw [List.filter_cons_of_neg (by simp [isAtom]), ihI _ _ _ _ _ _ hi, atoms, List.cons_append]
              · simp at h
            · simp at h
          · rw [parseExpr_name n f h1] at h; simp at h
    · unfold parseItems at h
      split at h
      · rename_i hh; simp at h; obtain ⟨rfl, rfl, rfl⟩ := h; rw [filter_head hh]; simp [atomsItems]
      · split at h
        · simp at h
        · rename_i hk
          split at h
          · simp at h
          · rename_i hv
            rw [ihK _ _ _ _ hk, ihE _ _ _ hv]
            split at h
            · rename_i hh; simp at h; obtain ⟨rfl, rfl, rfl⟩ := h; rw [filter_head hh]; simp [atomsItems]
            · split at h
              · rename_i hh
                split at h
                · simp at h
                · rename_i hi
                  simp at h
                  obtain ⟨rfl, rfl, rfl⟩ := h
                  rw [filter_head hh, ihI _ _ _ _ _ _ hi]; simp [atomsItems]
              · simp at h
    · cases k with
      | seq => simp [parseKey] at h; obtain ⟨rfl, rfl⟩ := h; simp [atomsKey]
      | pairs =>
        simp only [parseKey] at h
        split at h
        · rename_i he
          simp at h; obtain ⟨rfl, rfl⟩ := h
          rw [ihE _ _ _ he]; simp [atomsKey, isAtom]
        · simp at h
      | args =>
        simp only [parseKey] at h
        split at h <;> simp at h <;> obtain ⟨rfl, rfl⟩ := h <;> simp [List.filter, atomsKey, isAtom]

theorem parsePython_atoms {ts : List Tok} {e : Expr} (h : parsePython ts = some e) : ts.filter isAtom = atoms e := by
  unfold parsePython at h
  split at h
  · rename_i hp
    simp at h; subst h
    simpa using (parse_atoms _).1 _ _ _ hp
  · simp at h

theorem parsePython_hide {repr : Str → Str} {ts : List Tok} {e : Expr} (h : parsePython ts = some e) :
    parsePython (ts.map (hideTok repr)) = some (hideExpr repr e) := by
  unfold parsePython at h ⊢
  rw [List.length_map, (parse_hide _).1]
  split at h
  · rename_i hp
    simp at h; subst h
    rw [hp]; rfl
  · simp at h

/-- an operator of the formatter -/
def opChars : List Char := ['(', ')', '[', ']', '{', '}', ',', ':', '=']

mutual
theorem shows_atoms {e : Expr} {ts : List Tok} (h : Shows e ts) : ts.filter isAtom = atoms e := by
  cases h with
  | const r => rfl
  | tuple c h _ _ => cases c <;> simp [isAtom, atoms, showsItems_atoms h]
  | list c h _ => cases c <;> simp [isAtom, atoms, showsItems_atoms h]
  | dict c h _ => cases c <;> simp [isAtom, atoms, showsItems_atoms h]
  | call c h _ =>
    rw [List.cons_append, List.cons_append, List.cons_append, List.cons_append, List.filter_cons_of_pos rfl]
    cases c <;> simp [isAtom, atoms, showsItems_atoms h]
theorem showsItems_atoms {items : Items} {ts : List Tok} (h : ShowsItems items ts) : ts.filter isAtom = atomsItems items := by
  cases h with
  | nil => rfl
  | one hk hv => simp [atomsItems, showsKey_atoms hk, shows_atoms hv]
  | cons hk hv _ hr => simp [atomsItems, showsKey_atoms hk, shows_atoms hv, showsItems_atoms hr, isAtom]
theorem showsKey_atoms {k : Key} {ts : List Tok} (h : ShowsKey k ts) : ts.filter isAtom = atomsKey k := by
  cases h with
  | pos => rfl
  | kw n => rfl
  | key h => simp [atomsKey, shows_atoms h, isAtom]
end

/-- no constant follows a constant -/
def Apart : Bool → List Tok → Prop
  | _, [] => True
  | b, .const _ :: ts => b = false ∧ Apart true ts
  | _, .op _ :: ts => Apart false ts
  | b, .name _ :: ts => Apart b ts

theorem Apart.mono {ts : List Tok} : ∀ {b : Bool}, Apart b ts → Apart false ts := by
  induction ts with
  | nil => intros; trivial
  | cons t ts ih =>
    intro b h
    cases t with
    | const r => exact ⟨rfl, h.2⟩
    | op c => exact h
    | name n => exact ih (b := b) h

mutual
theorem shows_apart {e : Expr} {ts : List Tok} (h : Shows e ts) (r : List Tok) (hr : Apart true r) :
    Apart false (ts ++ r) := by
  cases h with
  | const q => exact ⟨rfl, hr⟩
  | tuple c h _ _ =>
    have := showsItems_apart h
    cases c
    · simpa [Apart] using this (.op ')' :: r) (by exact hr.mono)
    · simpa [Apart] using this (.op ',' :: .op ')' :: r) (by exact hr.mono)
  | list c h _ =>
    have := showsItems_apart h
    cases c
    · simpa [Apart] using this (.op ']' :: r) (by exact hr.mono)
    · simpa [Apart] using this (.op ',' :: .op ']' :: r) (by exact hr.mono)
  | dict c h _ =>
    have := showsItems_apart h
    cases c
    · simpa [Apart] using this (.op '}' :: r) (by exact hr.mono)
    · simpa [Apart] using this (.op ',' :: .op '}' :: r) (by exact hr.mono)
  | call c h _ =>
    have := showsItems_apart h
    cases c
    · simpa [Apart] using this (.op ')' :: r) (by exact hr.mono)
    · simpa [Apart] using this (.op ',' :: .op ')' :: r) (by exact hr.mono)
theorem showsItems_apart {items : Items} {ts : List Tok} (h : ShowsItems items ts) (r : List Tok) (hr : Apart true r) :
    Apart false (ts ++ r) := by
  cases h with
  | nil => exact hr.mono
  | one hk hv =>
    rw [List.append_assoc]
    exact showsKey_apart hk _ (shows_apart hv _ hr)
  | cons hk hv _ h =>
    have h1 := showsItems_apart h _ hr
    have h2 := shows_apart hv (.op ',' :: (_ ++ r)) h1
    have h3 := showsKey_apart hk _ h2
    simpa using h3
theorem showsKey_apart {k : Key} {ts : List Tok} (h : ShowsKey k ts) (r : List Tok) (hr : Apart false r) :
    Apart false (ts ++ r) := by
  cases h with
  | pos => exact hr
  | kw n => simpa [Apart] using hr
  | key h => simpa using shows_apart h (.op ':' :: r) hr
end

mutual
/-- a way to write an expression without its objects -/
theorem shows_hide {repr : Str → Str} {e : Expr} {ts : List Tok} (h : Shows (hideExpr repr e) ts) :
    ∃ ts', ts = ts'.map (hideTok repr) ∧ Shows e ts' := by
  cases e with
  | const r =>
    rw [hideExpr] at h
    cases h
    exact ⟨[.const r], rfl, .const r⟩
  | tuple items =>
    rw [hideExpr] at h
    cases h with
    | tuple c h hc hn =>
      obtain ⟨t, rfl, ht⟩ := showsItems_hide h
      exact ⟨_, by cases c <;> simp [hideTok], .tuple c ht (by rwa [single_hide] at hc) (by rwa [isNil_hide] at hn)⟩
  | list items =>
    rw [hideExpr] at h
    cases h with
    | list c h hn =>
      obtain ⟨t, rfl, ht⟩ := showsItems_hide h
      exact ⟨_, by cases c <;> simp [hideTok], .list c ht (by rwa [isNil_hide] at hn)⟩
  | dict items =>
    rw [hideExpr] at h
    cases h with
    | dict c h hn =>
      obtain ⟨t, rfl, ht⟩ := showsItems_hide h
      exact ⟨_, by cases c <;> simp [hideTok], .dict c ht (by rwa [isNil_hide] at hn)⟩
  | call f items =>
    rw [hideExpr] at h
    cases h with
    | call c h hn =>
      obtain ⟨t, rfl, ht⟩ := showsItems_hide h
      exact ⟨_, by cases c <;> simp [hideTok], .call c ht (by rwa [isNil_hide] at hn)⟩
  | other => rw [hideExpr] at h; cases h
theorem showsItems_hide {repr : Str → Str} {items : Items} {ts : List Tok} (h : ShowsItems (hideItems repr items) ts) :
    ∃ ts', ts = ts'.map (hideTok repr) ∧ ShowsItems items ts' := by
  cases items with
  | nil => rw [hideItems] at h; cases h; exact ⟨[], rfl, .nil⟩
  | cons k v rest =>
    rw [hideItems] at h
    generalize hr : hideItems repr rest = R at h
    cases h with
    | one hk hv =>
      obtain ⟨t1, rfl, h1⟩ := showsKey_hide hk
      obtain ⟨t2, rfl, h2⟩ := shows_hide hv
      have : rest = .nil := isNil_of (by rw [← isNil_hide (repr := repr), hr]; rfl)
      subst this
      exact ⟨_, (List.map_append ..).symm, .one h1 h2⟩
    | cons hk hv hn h =>
      obtain ⟨t1, rfl, h1⟩ := showsKey_hide hk
      obtain ⟨t2, rfl, h2⟩ := shows_hide hv
      subst hr
      obtain ⟨t3, rfl, h3⟩ := showsItems_hide h
      exact ⟨_, by simp [hideTok], .cons h1 h2 (by rwa [isNil_hide] at hn) h3⟩
theorem showsKey_hide {repr : Str → Str} {k : Key} {ts : List Tok} (h : ShowsKey (hideKey repr k) ts) :
    ∃ ts', ts = ts'.map (hideTok repr) ∧ ShowsKey k ts' := by
  cases k with
  | pos => rw [hideKey] at h; cases h; exact ⟨[], rfl, .pos⟩
  | kw n => rw [hideKey] at h; cases h; exact ⟨_, by simp [hideTok], .kw n⟩
  | unpack => rw [hideKey] at h; cases h
  | key e =>
    rw [hideKey] at h
    cases h with
    | key h =>
      obtain ⟨t, rfl, ht⟩ := shows_hide h
      exact ⟨_, by simp [hideTok], .key ht⟩
end

mutual
theorem good_hide {repr : Str → Str} {e : Expr} (h : GoodExpr e) : GoodExpr (hideExpr repr e) := by
  cases e with
  | const r => trivial
  | other => exact h
  | tuple items => exact fits_hide (kind := .seq) h
  | list items => exact fits_hide (kind := .seq) h
  | dict items => exact fits_hide (kind := .pairs) h
  | call f items => exact ⟨fits_hide (kind := .args) h.1, by rw [argsInOrder_hide]; exact h.2⟩
theorem fits_hide {repr : Str → Str} {kind : Elements} {items : Items} (h : Fits kind items) :
    Fits kind (hideItems repr items) := by
  cases items with
  | nil => rw [hideItems]; exact h
  | cons k v rest =>
    obtain ⟨hk, hv, hr⟩ := fits_cons h
    have h1 := good_hide (repr := repr) hv
    have h2 := fits_hide (repr := repr) hr
    rw [hideItems]
    cases k with
    | key e =>
      cases kind <;> simp only [KeyFits] at hk
      have h3 := good_hide (repr := repr) hk
      exact ⟨h3, h1, h2⟩
    | _ => cases kind <;> first | exact hk.elim | exact ⟨h1, h2⟩
end

/-- whitespace of the formatter -/
def PlainPiece : Piece → Prop
  | .ws s => ∀ c ∈ s, c = ' ' ∨ c = '\n'
  | .tok (.op c) => c ∈ opChars
  | _ => True

theorem plain_blanks (n : Nat) : PlainPiece (blanks n) := by
  intro c hc
  exact Or.inl (List.eq_of_mem_replicate hc)

/-- all pieces are like that -/
def AllPlain (ps : List Piece) : Prop := ∀ x ∈ ps, PlainPiece x

theorem AllPlain.append {a b : List Piece} (ha : AllPlain a) (hb : AllPlain b) : AllPlain (a ++ b) := by
  intro x hx
  rcases List.mem_append.1 hx with hx | hx
  · exact ha x hx
  · exact hb x hx

theorem AllPlain.cons {a : Piece} {b : List Piece} (ha : PlainPiece a) (hb : AllPlain b) : AllPlain (a :: b) := by
  intro x hx
  rcases List.mem_cons.1 hx with rfl | hx
  · exact ha
  · exact hb x hx

theorem AllPlain.nil : AllPlain [] := by intro x hx; simp at hx

theorem plain_op {c : Char} (h : c ∈ opChars) : PlainPiece (op c) := h
theorem plain_name (n : Str) : PlainPiece (.tok (.name n)) := trivial
theorem plain_newline : PlainPiece (.ws ['\n']) := by intro c hc; simp at hc; exact Or.inr hc
theorem plain_space : PlainPiece (.ws [' ']) := by intro c hc; simp at hc; exact Or.inl hc

theorem choose_plain {th i : Nat} {items : Items} {pre post pre' post' ps : List Piece} (h1 : AllPlain pre) (h2 : AllPlain post)
    (h3 : AllPlain pre') (h4 : AllPlain post') (hf : ∀ y, flat th items = .ok y → AllPlain y)
    (hm : ∀ y, multi th i items = .ok y → AllPlain y)
    (h : choose th (wrap pre post (flat th items)) (wrap pre' post' (multi th i items)) = .ok ps) : AllPlain ps := by
  rcases choose_cases h with ⟨y, hy, rfl⟩ | ⟨y, hy, rfl⟩
  · exact (h1.append (hf y hy)).append h2
  · exact (h3.append (hm y hy)).append h4

mutual
theorem fmt_plain {th i : Nat} {p ps : List Piece} {e : Expr} (h : fmt th i p e = .ok ps) (hp : AllPlain p) : AllPlain ps := by
  have hb : AllPlain (blanks i :: p) := .cons (plain_blanks i) hp
  cases e with
  | const r =>
    rw [fmt] at h; cases h
    exact hb.append (.cons trivial .nil)
  | other => rw [fmt] at h; cases h
  | tuple items =>
    rw [fmt] at h
    refine choose_plain (hb.append (.cons (plain_op (by decide)) .nil)) ?_
      (hb.append (.cons (plain_op (by decide)) (.cons plain_newline .nil)))
      (.cons (plain_blanks _) (.cons (plain_op (by decide)) .nil))
      (fun y hy => flat_plain hy) (fun y hy => multi_plain hy) h
    split
    · exact .cons (plain_op (by decide)) (.cons (plain_op (by decide)) .nil)
    · exact .cons (plain_op (by decide)) .nil
  | list items =>
    rw [fmt] at h
    exact choose_plain (hb.append (.cons (plain_op (by decide)) .nil)) (.cons (plain_op (by decide)) .nil)
      (hb.append (.cons (plain_op (by decide)) (.cons plain_newline .nil)))
      (.cons (plain_blanks _) (.cons (plain_op (by decide)) .nil))
      (fun y hy => flat_plain hy) (fun y hy => multi_plain hy) h
  | dict items =>
    rw [fmt] at h
    exact choose_plain (hb.append (.cons (plain_op (by decide)) .nil)) (.cons (plain_op (by decide)) .nil)
      (hb.append (.cons (plain_op (by decide)) (.cons plain_newline .nil)))
      (.cons (plain_blanks _) (.cons (plain_op (by decide)) .nil))
      (fun y hy => flat_plain hy) (fun y hy => multi_plain hy) h
  | call f items =>
    rw [fmt] at h
    exact choose_plain (hb.append (.cons (plain_name f) (.cons (plain_op (by decide)) .nil))) (.cons (plain_op (by decide)) .nil)
      (hb.append (.cons (plain_name f) (.cons (plain_op (by decide)) (.cons plain_newline .nil))))
      (.cons (plain_blanks _) (.cons (plain_op (by decide)) .nil))
      (fun y hy => flat_plain hy) (fun y hy => multi_plain hy) h
theorem flat_plain {th : Nat} {ps : List Piece} {items : Items} (h : flat th items = .ok ps) : AllPlain ps := by
  cases items with
  | nil => rw [flat] at h; cases h; exact .nil
  | cons k v rest =>
    rw [flat] at h
    split at h
    · cases h
    · rename_i p hk
      obtain ⟨a, b, ha, hb, rfl⟩ := join_ok h
      obtain ⟨y, hy, rfl⟩ := wrap_ok hb
      refine (fmt_plain ha (before_plain hk)).append ((AllPlain.append ?_ (flat_plain hy)).append .nil)
      split
      · exact .nil
      · exact .cons (plain_op (by decide)) (.cons plain_space .nil)
theorem multi_plain {th i : Nat} {ps : List Piece} {items : Items} (h : multi th i items = .ok ps) : AllPlain ps := by
  cases items with
  | nil => rw [multi] at h; cases h; exact .nil
  | cons k v rest =>
    rw [multi] at h
    split at h
    · cases h
    · rename_i p hk
      obtain ⟨a, b, ha, hb, rfl⟩ := join_ok h
      obtain ⟨y, hy, rfl⟩ := wrap_ok hb
      exact (fmt_plain ha (before_plain hk)).append
        ((AllPlain.append (.cons (plain_op (by decide)) (.cons plain_newline .nil)) (multi_plain hy)).append .nil)
theorem before_plain {th : Nat} {p : List Piece} {k : Key} (h : before th k = .ok p) : AllPlain p := by
  cases k with
  | pos => rw [before] at h; cases h; exact .nil
  | unpack => rw [before] at h; cases h; exact .nil
  | kw n => rw [before] at h; cases h; exact .cons trivial (.cons (plain_op (by decide)) .nil)
  | key e =>
    rw [before] at h
    split at h
    · cases h
    · rename_i q hq
      cases h
      exact (fmt_plain hq .nil).append (.cons (plain_op (by decide)) (.cons plain_space .nil))
end

end Specfile.Formatter
