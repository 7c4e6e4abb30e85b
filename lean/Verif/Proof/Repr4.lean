import Verif.Proof.Repr3
import Verif.Proof.Format3
/-
The text of a representation.
-/
namespace Specfile.ReprProof
open Py Spec Formatter Representation

variable {parse : Str → Parsed} {repr : Str → Str} {th fuel : Nat}

theorem formatted_tree {s : Str} {e : Expr} (h : parse s = .tree e) {ps : List Formatter.Piece} (hf : format th e = .ok ps) :
    formatted parse repr th fuel s = .ok (Formatter.text ps) := by
  have : parseLoop parse repr fuel s = .ok (e, []) := by
    unfold parseLoop
    simp [h]
  simp [formatted, formatExpression, this, hf, revert]

theorem written_format {e : Expr} (hg : GoodExpr e) (th : Nat) : ∃ ps, format th e = .ok ps ∧ Shows e (tokens ps) := by
  obtain ⟨ps, hp⟩ := fmt_isOk (good_supported hg) th 0 []
  obtain ⟨t, ht, hs⟩ := fmt_shows hp hg
  exact ⟨ps, hp, by rw [ht]; exact hs⟩

theorem fits_cons' {kind : Elements} {k : Key} {v : Expr} {rest : Items} (h : Fits kind (.cons k v rest)) :
    KeyFits kind k ∧ GoodExpr v ∧ Fits kind rest := by
  cases kind <;> cases k <;> simp_all [Fits, KeyFits, GoodSeq, GoodPairs, GoodArgs]

mutual
theorem shown_written : ∀ (e : Expr), GoodExpr e → PythonReads parse repr th fuel e →
    ∃ ps, shown parse repr th fuel e = .ok (Formatter.text ps) ∧ Shows e (tokens ps)
  | .const r, _, _ => ⟨[.tok (.const r)], by simp [shown, text_const, text_nil], .const r⟩
  | .tuple items, hg, hr => by
    rw [GoodExpr] at hg
    obtain ⟨ps, hp, hs⟩ := items_written .seq items hg (by simpa [PythonReads] using hr)
    refine ⟨op '(' :: ps ++ (if items.single then [op ',', op ')'] else [op ')']), ?_, ?_⟩
    · simp only [shown, hp]
      cases items.single <;> simp [text_op, text_append, text_nil]
    · have := Shows.tuple items.single hs (fun h => h) (by cases items <;> simp [Items.isNil, Items.single])
      cases hi : items.single <;> simpa [hi, tokens_append, tokens_op, tokens] using this
  | .list items, hg, hr => by
    rw [GoodExpr] at hg
    obtain ⟨ps, hp, hs⟩ := items_written .seq items hg (by simpa [PythonReads] using hr)
    refine ⟨op '[' :: ps ++ [op ']'], ?_, ?_⟩
    · simp only [shown, hp]
      simp [text_op, text_append, text_nil]
    · have := Shows.list false hs (fun _ => rfl)
      simpa [tokens_append, tokens_op, tokens] using this
  | .dict items, hg, hr => by
    rw [GoodExpr] at hg
    obtain ⟨ps, hp, hs⟩ := items_written .pairs items hg (by simpa [PythonReads] using hr)
    refine ⟨op '{' :: ps ++ [op '}'], ?_, ?_⟩
    · simp only [shown, hp]
      simp [text_op, text_append, text_nil]
    · have := Shows.dict false hs (fun _ => rfl)
      simpa [tokens_append, tokens_op, tokens] using this
  | .call f items, hg, hr => by
    have hg' := hg
    rw [GoodExpr] at hg
    rw [PythonReads] at hr
    obtain ⟨ps, hp, hs⟩ := items_written .args items hg.1 hr.1
    have ht : Formatter.text (.tok (.name f) :: op '(' :: ps ++ [op ')']) = f ++ '(' :: Formatter.text ps ++ s% ")" := by
      simp [text_name, text_op, text_append, text_nil]
    have hsh : Shows (.call f items) (tokens (.tok (.name f) :: op '(' :: ps ++ [op ')'])) := by
      have := Shows.call (f := f) false hs (fun _ => rfl)
      simpa [tokens_append, tokens_op, tokens] using this
    simp only [shown, hp]
    split
    · exact ⟨_, by rw [ht], hsh⟩
    · obtain ⟨qs, hq, hw⟩ := written_format hg' th
      exact ⟨qs, formatted_tree (hr.2 _ _ hp ht (parsePython_shows hsh hg')) hq, hw⟩
  | .other, hg, _ => by simp [GoodExpr] at hg
theorem items_written (kind : Elements) : ∀ (items : Items), Fits kind items → PythonReadsItems parse repr th fuel items →
    ∃ ps, shownItems parse repr th fuel items = .ok (Formatter.text ps) ∧ ShowsItems items (tokens ps)
  | .nil, _, _ => ⟨[], rfl, .nil⟩
  | .cons k v rest, hg, hr => by
    obtain ⟨h1, h2, h3⟩ := fits_cons' hg
    rw [PythonReadsItems] at hr
    obtain ⟨ks, hk, hks⟩ := key_written kind k h1 hr.1
    obtain ⟨vs, hv, hvs⟩ := shown_written v h2 hr.2.1
    obtain ⟨rs, hrr, hrs⟩ := items_written kind rest h3 hr.2.2
    cases hn : rest.isNil with
    | true =>
      rw [isNil_of hn]
      refine ⟨ks ++ vs, ?_, ?_⟩
      · simp [shownItems, hk, hv, text_append, Items.isNil]
      · rw [tokens_append]
        exact .one hks hvs
    | false =>
      refine ⟨ks ++ vs ++ op ',' :: .ws [' '] :: rs, ?_, ?_⟩
      · simp [shownItems, hk, hv, hrr, text_append, text_op, text_ws, hn]
      · rw [tokens_append, tokens_append]
        exact .cons hks hvs hn hrs
theorem key_written (kind : Elements) : ∀ (k : Key), KeyFits kind k → PythonReadsKey parse repr th fuel k →
    ∃ ps, shownKey parse repr th fuel k = .ok (Formatter.text ps) ∧ ShowsKey k (tokens ps)
  | .pos, _, _ => ⟨[], rfl, .pos⟩
  | .kw n, _, _ => ⟨[.tok (.name n), op '='], by simp [shownKey, text_name, text_op, text_nil], .kw n⟩
  | .unpack, h, _ => by cases kind <;> simp [KeyFits] at h
  | .key e, h, hr => by
    have he : GoodExpr e := by cases kind <;> simp_all [KeyFits]
    obtain ⟨ps, hp, hs⟩ := shown_written e he (by simpa [PythonReadsKey] using hr)
    refine ⟨ps ++ [op ':', .ws [' ']], ?_, ?_⟩
    · simp [shownKey, hp, text_append, text_op, text_ws, text_nil]
    · have := ShowsKey.key hs
      simpa [tokens_append, tokens_op, tokens] using this
end

end Specfile.ReprProof
