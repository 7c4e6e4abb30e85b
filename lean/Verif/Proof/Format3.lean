import Verif.Proof.Format2
/-
The layout that the formatter chooses.
-/
namespace Specfile.Formatter
open Py Spec

theorem text_append (a b : List Piece) : text (a ++ b) = text a ++ text b := by simp [text]
theorem text_nil : text [] = [] := rfl
theorem text_op (c : Char) (ps : List Piece) : text (op c :: ps) = c :: text ps := rfl
theorem text_ws (s : Str) (ps : List Piece) : text (.ws s :: ps) = s ++ text ps := rfl
theorem text_name (s : Str) (ps : List Piece) : text (.tok (.name s) :: ps) = s ++ text ps := rfl
theorem text_const (s : Str) (ps : List Piece) : text (.tok (.const s) :: ps) = s ++ text ps := rfl
theorem text_blanks (n : Nat) (ps : List Piece) : text (blanks n :: ps) = spaces n ++ text ps := rfl
theorem length_spaces (n : Nat) : (spaces n).length = n := by simp [spaces]

theorem oneLineItems_cons (k : Key) (v : Expr) (rest : Items) :
    text (oneLineItems (.cons k v rest)) =
      text (oneLineKey k) ++ text (oneLine v) ++ (if rest.isNil then [] else [',', ' '] ++ text (oneLineItems rest)) := by
  cases rest with
  | nil => simp [oneLineItems, text_append, Items.isNil]
  | cons k' v' r => simp [oneLineItems, text_append, Items.isNil, text_op, text_ws, text_nil]

theorem layout_short {th i : Nat} {label : Str} {e : Expr} (h : (spaces i ++ label ++ oneLineText e).length ≤ th) :
    layout th i label e = spaces i ++ label ++ oneLineText e := by
  cases e with
  | const r => simp [layout, oneLineText, oneLine, text_const, text_nil]
  | other => simp [layout, oneLineText, oneLine, text_nil]
  | tuple items => rw [layout, if_pos h]
  | list items => rw [layout, if_pos h]
  | dict items => rw [layout, if_pos h]
  | call f items => rw [layout, if_pos h]

mutual
theorem layout_ge (th i : Nat) (label : Str) (e : Expr) :
    i + label.length + (oneLineText e).length ≤ (layout th i label e).length := by
  cases e with
  | const r => simp [layout, oneLineText, oneLine, text_const, text_nil, length_spaces]; omega
  | other => simp [layout, oneLineText, oneLine, text_nil, length_spaces]
  | tuple items =>
    rw [layout]
    split
    · simp [length_spaces]; omega
    · have := layoutItems_ge th (i + 4) items
      cases items with
      | nil => simp [length_spaces, oneLineText, oneLine, text_op, text_nil, text_append, oneLineItems, Items.single]; omega
      | cons k v r =>
        simp only [Items.isNil] at this
        simp only [oneLineText, oneLine]
        split <;> simp [length_spaces, text_op, text_nil, text_append] <;> simp at this <;> omega
  | list items =>
    rw [layout]
    split
    · simp [length_spaces]; omega
    · have := layoutItems_ge th (i + 4) items
      simp [length_spaces, oneLineText, oneLine, text_op, text_nil, text_append]; omega
  | dict items =>
    rw [layout]
    split
    · simp [length_spaces]; omega
    · have := layoutItems_ge th (i + 4) items
      simp [length_spaces, oneLineText, oneLine, text_op, text_nil, text_append]; omega
  | call f items =>
    rw [layout]
    split
    · simp [length_spaces]; omega
    · have := layoutItems_ge th (i + 4) items
      simp [length_spaces, oneLineText, oneLine, text_op, text_nil, text_append, text_name]; omega
theorem layoutItems_ge (th i : Nat) (items : Items) :
    (text (oneLineItems items)).length + (if items.isNil then 0 else 2) ≤ (layoutItems th i items).length := by
  cases items with
  | nil => simp [oneLineItems, text_nil, Items.isNil]
  | cons k v rest =>
    have h1 := layout_ge th i (layoutKey th k) v
    have h2 := layoutItems_ge th i rest
    have h3 := layoutKey_ge th k
    rw [oneLineItems_cons, layoutItems]
    simp only [oneLineText] at h1
    have h0 : (Items.cons k v rest).isNil = false := rfl
    rw [h0]
    simp only [List.length_append]
    cases hn : rest.isNil
    · simp [hn] at h2 ⊢; omega
    · simp; omega
theorem layoutKey_ge (th : Nat) (k : Key) : (text (oneLineKey k)).length ≤ (layoutKey th k).length := by
  cases k with
  | pos => simp [oneLineKey, text_nil]
  | unpack => simp [oneLineKey, text_nil]
  | kw n => simp [oneLineKey, layoutKey, text_name, text_op, text_nil]
  | key e =>
    have := layout_ge th 0 [] e
    simp [oneLineKey, layoutKey, text_op, text_nil, text_append, text_ws, oneLineText] at this ⊢
    omega
end

theorem layoutKey_short {th : Nat} {k : Key} (h : (text (oneLineKey k)).length ≤ th) :
    layoutKey th k = text (oneLineKey k) := by
  cases k with
  | pos => simp [oneLineKey, layoutKey, text_nil]
  | unpack => simp [oneLineKey, layoutKey, text_nil]
  | kw n => simp [oneLineKey, layoutKey, text_name, text_op, text_nil]
  | key e =>
    simp [oneLineKey, text_op, text_nil, text_append, text_ws] at h
    rw [layoutKey, layout_short (by simp [spaces, oneLineText]; omega)]
    simp [oneLineKey, text_op, text_nil, text_append, text_ws, spaces, oneLineText]

theorem choose_text {th i : Nat} {items : Items} {pre post pre' post' : List Piece} {ps : List Piece}
    {one many : Str}
    (h : choose th (wrap pre post (flat th items)) (wrap pre' post' (multi th i items)) = .ok ps)
    (hf : ∀ ys, flat th items = .ok ys → (text (oneLineItems items)).length ≤ (text ys).length ∧
      ((text (oneLineItems items)).length ≤ th → text ys = text (oneLineItems items)))
    (hm : ∀ ys, multi th i items = .ok ys → text ys = layoutItems th i items)
    (h1 : one = text pre ++ text (oneLineItems items) ++ text post)
    (h2 : many = text pre' ++ layoutItems th i items ++ text post') :
    text ps = if one.length ≤ th then one else many := by
  obtain ⟨x, hx, h⟩ := choose_ok h
  obtain ⟨y, hy, rfl⟩ := wrap_ok hx
  have hf := hf y hy
  simp only [text_append, List.length_append] at h
  subst h1
  rcases h with ⟨hle, rfl⟩ | ⟨hgt, h⟩
  · rw [if_pos (by simp only [List.length_append]; omega), text_append, text_append, hf.2 (by omega)]
  · obtain ⟨z, hz, rfl⟩ := wrap_ok h
    rw [if_neg, text_append, text_append, hm z hz, h2]
    intro hle
    simp only [List.length_append] at hle
    rw [hf.2 (by omega)] at hgt
    omega

mutual
theorem fmt_text {th i : Nat} {p ps : List Piece} {e : Expr} (h : fmt th i p e = .ok ps) :
    text ps = layout th i (text p) e := by
  cases e with
  | const r =>
    simp only [fmt, Except.ok.injEq] at h
    subst h
    simp [layout, text_append, text_blanks, text_const, text_nil]
  | other => simp [fmt] at h
  | tuple items =>
    simp only [fmt] at h
    rw [layout]
    refine choose_text h (fun ys hy => flat_text hy) (fun ys hy => multi_text hy) ?_ ?_
    · simp only [oneLineText, oneLine]
      split <;> simp [text_append, text_blanks, text_op, text_nil]
    · simp [text_append, text_blanks, text_op, text_nil, text_ws]
  | list items =>
    simp only [fmt] at h
    rw [layout]
    refine choose_text h (fun ys hy => flat_text hy) (fun ys hy => multi_text hy) ?_ ?_
    · simp [oneLineText, oneLine, text_append, text_blanks, text_op, text_nil]
    · simp [text_append, text_blanks, text_op, text_nil, text_ws]
  | dict items =>
    simp only [fmt] at h
    rw [layout]
    refine choose_text h (fun ys hy => flat_text hy) (fun ys hy => multi_text hy) ?_ ?_
    · simp [oneLineText, oneLine, text_append, text_blanks, text_op, text_nil]
    · simp [text_append, text_blanks, text_op, text_nil, text_ws]
  | call f items =>
    simp only [fmt] at h
    rw [layout]
    refine choose_text h (fun ys hy => flat_text hy) (fun ys hy => multi_text hy) ?_ ?_
    · simp [oneLineText, oneLine, text_append, text_blanks, text_op, text_nil, text_name]
    · simp [text_append, text_blanks, text_op, text_nil, text_ws, text_name]
theorem flat_text {th : Nat} {ps : List Piece} {items : Items} (h : flat th items = .ok ps) :
    (text (oneLineItems items)).length ≤ (text ps).length ∧
      ((text (oneLineItems items)).length ≤ th → text ps = text (oneLineItems items)) := by
  cases items with
  | nil =>
    simp only [flat, Except.ok.injEq] at h
    subst h
    simp [oneLineItems, text_nil]
  | cons k v rest =>
    simp only [flat] at h
    split at h
    · cases h
    · rename_i p hp
      obtain ⟨a, b, ha, hb, rfl⟩ := join_ok h
      obtain ⟨y, hy, rfl⟩ := wrap_ok hb
      have e1 := fmt_text ha
      have e2 := before_text hp
      obtain ⟨e3, e4⟩ := flat_text hy
      have g1 := layout_ge th 0 (layoutKey th k) v
      have g2 := layoutKey_ge th k
      rw [oneLineItems_cons, text_append, e1, e2]
      simp only [oneLineText] at g1
      constructor
      · split
        · simp [text_append, List.length_append]; omega
        · simp [text_append, List.length_append, text_op, text_ws]; omega
      · intro hle
        simp only [List.length_append] at hle
        rw [layoutKey_short (by omega), layout_short (by simp [spaces, oneLineText]; omega)]
        split
        · rename_i hn
          cases isNil_of hn
          simp only [flat, Except.ok.injEq] at hy
          subst hy
          simp [spaces, oneLineText, text_nil]
        · rename_i hn
          rw [if_neg hn] at hle
          simp at hle
          simp [text_append, text_op, text_ws, text_nil, spaces, oneLineText]
          exact e4 (by omega)
theorem multi_text {th i : Nat} {ps : List Piece} {items : Items} (h : multi th i items = .ok ps) :
    text ps = layoutItems th i items := by
  cases items with
  | nil =>
    simp only [multi, Except.ok.injEq] at h
    subst h
    simp [layoutItems, text_nil]
  | cons k v rest =>
    simp only [multi] at h
    split at h
    · cases h
    · rename_i p hp
      obtain ⟨a, b, ha, hb, rfl⟩ := join_ok h
      obtain ⟨y, hy, rfl⟩ := wrap_ok hb
      rw [text_append, fmt_text ha, before_text hp, layoutItems]
      simp [text_append, text_op, text_ws, text_nil, multi_text hy]
theorem before_text {th : Nat} {p : List Piece} {k : Key} (h : before th k = .ok p) : text p = layoutKey th k := by
  cases k with
  | pos => simp only [before, Except.ok.injEq] at h; subst h; rfl
  | kw n => simp only [before, Except.ok.injEq] at h; subst h; simp [layoutKey, text_name, text_op, text_nil]
  | unpack => simp only [before, Except.ok.injEq] at h; subst h; rfl
  | key e =>
    simp only [before] at h
    split at h
    · cases h
    · rename_i ps hps
      simp only [Except.ok.injEq] at h
      subst h
      rw [text_append, fmt_text hps, layoutKey]
      rfl
end

end Specfile.Formatter
