import Verif.Proof.Repr2
import Verif.Proof.Tags2
/-
What can be evaluated is an expression of the subset that the formatter supports.
-/
namespace Specfile.ReprProof
open Py Spec Construct
open Formatter

variable [Uni] {P : Python}

mutual
theorem eval_good : ∀ (e : Expr) {x : Obj}, eval P e = some x → GoodExpr e
  | .const _, _, _ => by simp [GoodExpr]
  | .tuple items, x, h => by
    simp only [eval, Option.bind_eq_bind, Option.bind_eq_some_iff] at h
    obtain ⟨a, ha, l, hl, _⟩ := h
    rw [GoodExpr]
    exact seq_good items ha hl
  | .list items, x, h => by
    simp only [eval, Option.bind_eq_bind, Option.bind_eq_some_iff] at h
    obtain ⟨a, ha, l, hl, _⟩ := h
    rw [GoodExpr]
    exact seq_good items ha hl
  | .dict items, x, h => by
    simp only [eval, Option.bind_eq_bind, Option.bind_eq_some_iff] at h
    obtain ⟨a, ha, l, hl, _⟩ := h
    rw [GoodExpr]
    exact pairs_good items ha hl
  | .call f items, x, h => by
    simp only [eval, Option.bind_eq_bind, Option.bind_eq_some_iff] at h
    obtain ⟨a, ha, ⟨p, k⟩, hl, _⟩ := h
    rw [GoodExpr]
    have := args_good items ha hl
    exact ⟨this.1, this.2.1⟩
  | .other, x, h => by simp [eval] at h
theorem seq_good : ∀ (items : Items) {a : List Arg} {l : List Obj}, evalItems P items = some a → elements a = some l →
    GoodSeq items
  | .nil, _, _, _, _ => by simp [GoodSeq]
  | .cons .pos v rest, a, l, h, hl => by
    simp only [evalItems, Option.bind_eq_bind, Option.bind_eq_some_iff, Option.some.injEq] at h
    obtain ⟨x, hx, r, hr, rfl⟩ := h
    simp only [elements, Option.map_eq_some_iff] at hl
    obtain ⟨l', hl', _⟩ := hl
    rw [GoodSeq]
    exact ⟨eval_good v hx, seq_good rest hr hl'⟩
  | .cons (.kw n) v rest, a, l, h, hl => by
    simp only [evalItems, Option.bind_eq_bind, Option.bind_eq_some_iff, Option.some.injEq] at h
    obtain ⟨x, hx, r, hr, rfl⟩ := h
    simp [elements] at hl
  | .cons .unpack v rest, a, l, h, hl => by simp [evalItems] at h
  | .cons (.key k) v rest, a, l, h, hl => by
    simp only [evalItems, Option.bind_eq_bind, Option.bind_eq_some_iff] at h
    obtain ⟨k', hk', x, hx, r, hr, h⟩ := h
    split at h
    · cases h; simp [elements] at hl
    · cases h
theorem pairs_good : ∀ (items : Items) {a : List Arg} {d l : List (Representation.Lit × Obj)},
    evalItems P items = some a → itemsOf d a = some l → GoodPairs items
  | .nil, _, _, _, _, _ => by simp [GoodPairs]
  | .cons .pos v rest, a, d, l, h, hl => by
    simp only [evalItems, Option.bind_eq_bind, Option.bind_eq_some_iff, Option.some.injEq] at h
    obtain ⟨x, hx, r, hr, rfl⟩ := h
    simp [itemsOf] at hl
  | .cons (.kw n) v rest, a, d, l, h, hl => by
    simp only [evalItems, Option.bind_eq_bind, Option.bind_eq_some_iff, Option.some.injEq] at h
    obtain ⟨x, hx, r, hr, rfl⟩ := h
    simp [itemsOf] at hl
  | .cons .unpack v rest, a, d, l, h, hl => by simp [evalItems] at h
  | .cons (.key k) v rest, a, d, l, h, hl => by
    simp only [evalItems, Option.bind_eq_bind, Option.bind_eq_some_iff] at h
    obtain ⟨k', hk', x, hx, r, hr, h⟩ := h
    split at h
    · cases h
      rw [itemsOf] at hl
      rw [GoodPairs]
      exact ⟨eval_good k hk', eval_good v hx, pairs_good rest hr hl⟩
    · cases h
theorem args_good : ∀ (items : Items) {a : List Arg} {p : List Obj} {k : List (Str × Obj)},
    evalItems P items = some a → arguments a = some (p, k) →
    GoodArgs items ∧ argsInOrder false items = true ∧ (p = [] → argsInOrder true items = true)
  | .nil, _, _, _, _, _ => by simp [GoodArgs, argsInOrder]
  | .cons .pos v rest, a, p, k, h, hl => by
    simp only [evalItems, Option.bind_eq_bind, Option.bind_eq_some_iff, Option.some.injEq] at h
    obtain ⟨x, hx, r, hr, rfl⟩ := h
    simp only [arguments, Option.map_eq_some_iff, Prod.mk.injEq] at hl
    obtain ⟨⟨p', k'⟩, hl', rfl, rfl⟩ := hl
    have := args_good rest hr hl'
    rw [GoodArgs]
    exact ⟨⟨eval_good v hx, this.1⟩, by simp [argsInOrder, this.2.1], by simp⟩
  | .cons (.kw n) v rest, a, p, k, h, hl => by
    simp only [evalItems, Option.bind_eq_bind, Option.bind_eq_some_iff, Option.some.injEq] at h
    obtain ⟨x, hx, r, hr, rfl⟩ := h
    rw [arguments] at hl
    split at hl
    · rename_i kws hr'
      have := args_good rest hr hr'
      rw [GoodArgs]
      exact ⟨⟨eval_good v hx, this.1⟩, by simp [argsInOrder, this.2.2], by simp [argsInOrder, this.2.2]⟩
    · cases hl
  | .cons .unpack v rest, a, p, k, h, hl => by simp [evalItems] at h
  | .cons (.key k) v rest, a, _, _, h, hl => by
    simp only [evalItems, Option.bind_eq_bind, Option.bind_eq_some_iff] at h
    obtain ⟨k', hk', x, hx, r, hr, h⟩ := h
    split at h
    · cases h; simp [arguments] at hl
    · cases h
end

omit [Uni] in
/-- the names of the tags that are read -/
theorem parseLoop_names [Uni] {names : List Str} (hN : Tags.IsTagNames names) : ∀ (ls : List (Str × Bool)) (buffer : List Str)
    (skip : Nat) {t : Tags}, (∀ l ∈ ls, '\n' ∉ l.1) → Tags.parseLoop names buffer skip ls = .ok t → ∀ x ∈ t.data, TagName x.name := by
  intro ls
  induction ls with
  | nil => intro b k t _ h x hx; simp only [Tags.parseLoop, Except.ok.injEq] at h; subst h; cases hx
  | cons l ls ih =>
    intro b k t hl h x hx
    have hl' : ∀ l ∈ ls, '\n' ∉ l.1 := fun l hm => hl l (List.mem_cons_of_mem _ hm)
    cases k with
    | succ k => rw [Tags.parseLoop] at h; exact ih _ _ hl' h x hx
    | zero =>
      rw [Tags.parseLoop] at h
      simp only at h
      split at h
      · cases h
      · rename_i c hc
        split at h
        · exact ih _ _ hl' h x hx
        · rename_i m hm
          split at h
          · cases h
          · rename_i rest hr
            cases h
            rcases List.mem_cons.1 hx with rfl | hx
            · obtain ⟨e1, _⟩ := MacroDefinitions.splitTrailing_line (hl l List.mem_cons_self)
              have hs : '\n' ∉ (MacroDefinitions.splitTrailing l.1).1 := fun hx => hl l List.mem_cons_self (by rw [e1]; simp [hx])
              obtain ⟨n, s, v, _, hn, _, _, hg, _⟩ := Tags.tagMatch_inv hN hm (Utils.splitConditional_newline hc hs).1
              simpa [hg] using hn
            · exact ih _ _ hl' hr x hx

end Specfile.ReprProof
