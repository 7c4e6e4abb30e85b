import Verif.Proof.Format
/-
What the formatter writes.
-/
namespace Specfile.Formatter
open Py Spec

theorem wrap_ok {b a : List Piece} {x : Except Err (List Piece)} {ps : List Piece} (h : wrap b a x = .ok ps) :
    ∃ y, x = .ok y ∧ ps = b ++ y ++ a := by
  unfold wrap at h
  split at h
  · cases h
  · cases h; exact ⟨_, rfl, rfl⟩

theorem join_ok {x y : Except Err (List Piece)} {ps : List Piece} (h : join x y = .ok ps) :
    ∃ a b, x = .ok a ∧ y = .ok b ∧ ps = a ++ b := by
  unfold join at h
  split at h
  · cases h; exact ⟨_, _, rfl, rfl, rfl⟩
  · cases h
  · cases h

theorem choose_ok {th : Nat} {f m : Except Err (List Piece)} {ps : List Piece} (h : choose th f m = .ok ps) :
    ∃ x, f = .ok x ∧ ((text x).length ≤ th ∧ ps = x ∨ (text x).length > th ∧ m = .ok ps) := by
  unfold choose at h
  split at h
  · cases h
  · split at h
    · exact ⟨_, rfl, Or.inr ⟨by assumption, h⟩⟩
    · cases h; exact ⟨_, rfl, Or.inl ⟨by omega, rfl⟩⟩

theorem tokens_blanks (n : Nat) (ps : List Piece) : tokens (blanks n :: ps) = tokens ps := rfl
theorem tokens_op (c : Char) (ps : List Piece) : tokens (op c :: ps) = .op c :: tokens ps := rfl

theorem goodArgs_of {items : Items} (h : GoodArgs items) : Fits .args items := h

theorem choose_cases {th : Nat} {items : Items} {pre post pre' post' : List Piece} {i : Nat} {ps : List Piece}
    (h : choose th (wrap pre post (flat th items)) (wrap pre' post' (multi th i items)) = .ok ps) :
    (∃ y, flat th items = .ok y ∧ ps = pre ++ y ++ post) ∨ (∃ y, multi th i items = .ok y ∧ ps = pre' ++ y ++ post') := by
  obtain ⟨x, hx, h⟩ := choose_ok h
  rcases h with ⟨-, rfl⟩ | ⟨-, h⟩
  · obtain ⟨y, hy, rfl⟩ := wrap_ok hx; exact Or.inl ⟨y, hy, rfl⟩
  · obtain ⟨y, hy, rfl⟩ := wrap_ok h; exact Or.inr ⟨y, hy, rfl⟩

theorem isNil_of {items : Items} (h : items.isNil = true) : items = .nil := by
  cases items <;> simp_all [Items.isNil]

mutual
theorem fmt_shows {th i : Nat} {p ps : List Piece} {e : Expr} (h : fmt th i p e = .ok ps) (hg : GoodExpr e) :
    ∃ t, tokens ps = tokens p ++ t ∧ Shows e t := by
  cases e with
  | const r =>
    simp only [fmt, Except.ok.injEq] at h
    subst h
    exact ⟨_, by simp [tokens_blanks, tokens_append, tokens], Shows.const r⟩
  | tuple items =>
    simp only [fmt] at h
    rcases choose_cases h with ⟨y, hy, rfl⟩ | ⟨y, hy, rfl⟩
    · refine ⟨_, ?_, Shows.tuple items.single (flat_shows hy (kind := .seq) hg) (fun h => h) ?_⟩
      · cases items.single <;> simp [tokens_append, tokens_blanks, tokens_op, tokens]
      · cases items with
        | nil => simp [Items.single]
        | cons => simp [Items.isNil]
    · rcases multi_shows hy (kind := .seq) hg with ⟨hn, ht⟩ | ⟨hn, t, ht, hs⟩
      · cases isNil_of hn
        refine ⟨_, ?_, Shows.tuple false .nil (fun h => by cases h) (fun _ => rfl)⟩
        simp [tokens_append, tokens_blanks, tokens_op, tokens, ht]
      · refine ⟨_, ?_, Shows.tuple true hs (fun _ => rfl) (by simp [hn])⟩
        simp [tokens_append, tokens_blanks, tokens_op, tokens, ht]
  | list items =>
    simp only [fmt] at h
    rcases choose_cases h with ⟨y, hy, rfl⟩ | ⟨y, hy, rfl⟩
    · refine ⟨_, ?_, Shows.list false (flat_shows hy (kind := .seq) hg) (fun _ => rfl)⟩
      simp [tokens_append, tokens_blanks, tokens_op, tokens]
    · rcases multi_shows hy (kind := .seq) hg with ⟨hn, ht⟩ | ⟨hn, t, ht, hs⟩
      · cases isNil_of hn
        refine ⟨_, ?_, Shows.list false .nil (fun _ => rfl)⟩
        simp [tokens_append, tokens_blanks, tokens_op, tokens, ht]
      · refine ⟨_, ?_, Shows.list true hs (by simp [hn])⟩
        simp [tokens_append, tokens_blanks, tokens_op, tokens, ht]
  | dict items =>
    simp only [fmt] at h
    rcases choose_cases h with ⟨y, hy, rfl⟩ | ⟨y, hy, rfl⟩
    · refine ⟨_, ?_, Shows.dict false (flat_shows hy (kind := .pairs) hg) (fun _ => rfl)⟩
      simp [tokens_append, tokens_blanks, tokens_op, tokens]
    · rcases multi_shows hy (kind := .pairs) hg with ⟨hn, ht⟩ | ⟨hn, t, ht, hs⟩
      · cases isNil_of hn
        refine ⟨_, ?_, Shows.dict false .nil (fun _ => rfl)⟩
        simp [tokens_append, tokens_blanks, tokens_op, tokens, ht]
      · refine ⟨_, ?_, Shows.dict true hs (by simp [hn])⟩
        simp [tokens_append, tokens_blanks, tokens_op, tokens, ht]
  | call f items =>
    simp only [fmt] at h
    rcases choose_cases h with ⟨y, hy, rfl⟩ | ⟨y, hy, rfl⟩
    · refine ⟨_, ?_, Shows.call false (flat_shows hy (kind := .args) hg.1) (fun _ => rfl)⟩
      simp [tokens_append, tokens_blanks, tokens_op, tokens]
    · rcases multi_shows hy (kind := .args) hg.1 with ⟨hn, ht⟩ | ⟨hn, t, ht, hs⟩
      · cases isNil_of hn
        refine ⟨_, ?_, Shows.call false .nil (fun _ => rfl)⟩
        simp [tokens_append, tokens_blanks, tokens_op, tokens, ht]
      · refine ⟨_, ?_, Shows.call true hs (by simp [hn])⟩
        simp [tokens_append, tokens_blanks, tokens_op, tokens, ht]
  | other => exact hg.elim
theorem flat_shows {th : Nat} {ps : List Piece} {items : Items} (h : flat th items = .ok ps) {kind : Elements}
    (hg : Fits kind items) : ShowsItems items (tokens ps) := by
  cases items with
  | nil =>
    simp only [flat, Except.ok.injEq] at h
    subst h
    exact .nil
  | cons k v rest =>
    obtain ⟨h1, h2, h3⟩ := fits_cons hg
    simp only [flat] at h
    split at h
    · cases h
    · rename_i p hp
      obtain ⟨a, b, ha, hb, rfl⟩ := join_ok h
      obtain ⟨y, hy, rfl⟩ := wrap_ok hb
      obtain ⟨t, ht, hs⟩ := fmt_shows ha h2
      have hk := before_shows hp h1
      have hr := flat_shows hy h3
      rw [tokens_append, ht]
      cases hn : rest.isNil with
      | true =>
        cases isNil_of hn
        simp only [flat, Except.ok.injEq] at hy
        subst hy
        simpa [tokens] using ShowsItems.one hk hs
      | false =>
        simpa [tokens_op, tokens] using ShowsItems.cons hk hs hn hr
theorem multi_shows {th i : Nat} {ps : List Piece} {items : Items} (h : multi th i items = .ok ps) {kind : Elements}
    (hg : Fits kind items) : items.isNil = true ∧ tokens ps = [] ∨
      items.isNil = false ∧ ∃ t, tokens ps = t ++ [.op ','] ∧ ShowsItems items t := by
  cases items with
  | nil =>
    simp only [multi, Except.ok.injEq] at h
    subst h
    exact Or.inl ⟨rfl, rfl⟩
  | cons k v rest =>
    obtain ⟨h1, h2, h3⟩ := fits_cons hg
    refine Or.inr ⟨rfl, ?_⟩
    simp only [multi] at h
    split at h
    · cases h
    · rename_i p hp
      obtain ⟨a, b, ha, hb, rfl⟩ := join_ok h
      obtain ⟨y, hy, rfl⟩ := wrap_ok hb
      obtain ⟨t, ht, hs⟩ := fmt_shows ha h2
      have hk := before_shows hp h1
      rw [tokens_append, ht]
      rcases multi_shows hy h3 with ⟨hn, hr⟩ | ⟨hn, t', ht', hr⟩
      · cases isNil_of hn
        exact ⟨_, by simp [tokens_op, tokens, hr], ShowsItems.one hk hs⟩
      · exact ⟨_, by simp [tokens_op, tokens, ht'], ShowsItems.cons hk hs hn hr⟩
theorem before_shows {th : Nat} {p : List Piece} {k : Key} (h : before th k = .ok p) {kind : Elements}
    (hg : KeyFits kind k) : ShowsKey k (tokens p) := by
  cases k with
  | pos => simp only [before, Except.ok.injEq] at h; subst h; exact .pos
  | kw n => simp only [before, Except.ok.injEq] at h; subst h; exact .kw n
  | unpack => cases kind <;> exact hg.elim
  | key e =>
    have hg : GoodExpr e := by cases kind <;> first | exact hg.elim | exact hg
    simp only [before] at h
    split at h
    · cases h
    · rename_i ps hps
      simp only [Except.ok.injEq] at h
      subst h
      obtain ⟨t, ht, hs⟩ := fmt_shows hps hg
      rw [tokens_append, ht]
      exact .key hs
end

/-! ### Errors -/

theorem wrap_error {b a : List Piece} {x : Except Err (List Piece)} {e : Err} :
    wrap b a x = .error e ↔ x = .error e := by
  unfold wrap; split <;> simp_all

theorem wrap_isOk {b a : List Piece} {x : Except Err (List Piece)} (h : ∃ y, x = .ok y) : ∃ y, wrap b a x = .ok y := by
  obtain ⟨y, rfl⟩ := h; exact ⟨_, rfl⟩

theorem choose_isOk {th : Nat} {f m : Except Err (List Piece)} (hf : ∃ y, f = .ok y) (hm : ∃ y, m = .ok y) :
    ∃ y, choose th f m = .ok y := by
  obtain ⟨x, rfl⟩ := hf
  obtain ⟨y, rfl⟩ := hm
  unfold choose
  simp only
  split
  · exact ⟨_, rfl⟩
  · exact ⟨_, rfl⟩

mutual
theorem fmt_isOk {e : Expr} (h : Supported e) (th i : Nat) (p : List Piece) : ∃ ps, fmt th i p e = .ok ps := by
  cases e with
  | const r => exact ⟨_, by rw [fmt]⟩
  | other => exact h.elim
  | tuple items =>
    rw [fmt]; exact choose_isOk (wrap_isOk (flat_isOk h th)) (wrap_isOk (multi_isOk h th _))
  | list items =>
    rw [fmt]; exact choose_isOk (wrap_isOk (flat_isOk h th)) (wrap_isOk (multi_isOk h th _))
  | dict items =>
    rw [fmt]; exact choose_isOk (wrap_isOk (flat_isOk h th)) (wrap_isOk (multi_isOk h th _))
  | call f items =>
    rw [fmt]; exact choose_isOk (wrap_isOk (flat_isOk h th)) (wrap_isOk (multi_isOk h th _))
theorem flat_isOk {items : Items} (h : SupportedItems items) (th : Nat) : ∃ ps, flat th items = .ok ps := by
  cases items with
  | nil => exact ⟨_, by rw [flat]⟩
  | cons k v rest =>
    obtain ⟨p, hp⟩ := before_isOk h.1 th
    obtain ⟨a, ha⟩ := fmt_isOk h.2.1 th 0 p
    obtain ⟨b, hb⟩ := flat_isOk h.2.2 th
    exact ⟨_, by rw [flat, hp]; simp only [ha, hb, wrap, join]; rfl⟩
theorem multi_isOk {items : Items} (h : SupportedItems items) (th i : Nat) : ∃ ps, multi th i items = .ok ps := by
  cases items with
  | nil => exact ⟨_, by rw [multi]⟩
  | cons k v rest =>
    obtain ⟨p, hp⟩ := before_isOk h.1 th
    obtain ⟨a, ha⟩ := fmt_isOk h.2.1 th i p
    obtain ⟨b, hb⟩ := multi_isOk h.2.2 th i
    exact ⟨_, by rw [multi, hp]; simp only [ha, hb, wrap, join]; rfl⟩
theorem before_isOk {k : Key} (h : SupportedKey k) (th : Nat) : ∃ ps, before th k = .ok ps := by
  cases k with
  | pos => exact ⟨_, by rw [before]⟩
  | kw n => exact ⟨_, by rw [before]⟩
  | unpack => exact ⟨_, by rw [before]⟩
  | key e =>
    obtain ⟨a, ha⟩ := fmt_isOk h th 0 []
    exact ⟨_, by rw [before, ha]⟩
end

theorem choose_err {th : Nat} {f m : Except Err (List Piece)} {e : Err} (hf : f = .error e) : choose th f m = .error e := by
  subst hf; rfl

mutual
theorem fmt_err {e : Expr} (h : ¬ Supported e) (th i : Nat) (p : List Piece) : fmt th i p e = .error .specfileException := by
  cases e with
  | const r => exact (h trivial).elim
  | other => rw [fmt]
  | tuple items => rw [fmt]; exact choose_err (wrap_error.2 (flat_err h th))
  | list items => rw [fmt]; exact choose_err (wrap_error.2 (flat_err h th))
  | dict items => rw [fmt]; exact choose_err (wrap_error.2 (flat_err h th))
  | call f items => rw [fmt]; exact choose_err (wrap_error.2 (flat_err h th))
theorem flat_err {items : Items} (h : ¬ SupportedItems items) (th : Nat) : flat th items = .error .specfileException := by
  cases items with
  | nil => exact (h trivial).elim
  | cons k v rest =>
    rw [flat]
    by_cases hk : SupportedKey k
    · obtain ⟨p, hp⟩ := before_isOk hk th
      rw [hp]
      by_cases hv : Supported v
      · obtain ⟨a, ha⟩ := fmt_isOk hv th 0 p
        simp only [ha, wrap_error.2 (flat_err (fun hr => h ⟨hk, hv, hr⟩) th), join]
      · simp only [fmt_err hv th 0 p, join]
    · rw [before_err hk th]
theorem before_err {k : Key} (h : ¬ SupportedKey k) (th : Nat) : before th k = .error .specfileException := by
  cases k with
  | pos => exact (h trivial).elim
  | kw n => exact (h trivial).elim
  | unpack => exact (h trivial).elim
  | key e => rw [before, fmt_err h]
end

mutual
theorem good_supported {e : Expr} (h : GoodExpr e) : Supported e := by
  cases e with
  | const r => trivial
  | other => exact h
  | tuple items => exact good_supportedItems (kind := .seq) h
  | list items => exact good_supportedItems (kind := .seq) h
  | dict items => exact good_supportedItems (kind := .pairs) h
  | call f items => exact good_supportedItems (kind := .args) h.1
theorem good_supportedItems {kind : Elements} {items : Items} (h : Fits kind items) : SupportedItems items := by
  cases items with
  | nil => trivial
  | cons k v rest =>
    obtain ⟨h1, h2, h3⟩ := fits_cons h
    refine ⟨?_, good_supported h2, good_supportedItems h3⟩
    cases k with
    | key e => cases kind <;> first | exact h1.elim | exact good_supported h1
    | _ => trivial
end

/-! ### Whitespace -/

/-- these pieces may stand where the depth is `d` -/
def Neutral (d : Int) (ps : List Piece) : Prop := ∀ rest, SpaceInside d rest → SpaceInside d (ps ++ rest)

theorem Neutral.append {d : Int} {a b : List Piece} (ha : Neutral d a) (hb : Neutral d b) : Neutral d (a ++ b) := by
  intro rest h
  rw [List.append_assoc]
  exact ha _ (hb _ h)

theorem Neutral.nil (d : Int) : Neutral d [] := fun _ h => h
theorem Neutral.ws {d : Int} {s : Str} (h : s = [] ∨ 0 < d) : Neutral d [.ws s] := fun _ hr => ⟨h, hr⟩
theorem Neutral.blanks {d : Int} {n : Nat} (h : n = 0 ∨ 0 < d) : Neutral d [blanks n] := fun _ hr => by
  refine ⟨?_, hr⟩
  rcases h with rfl | h
  · exact Or.inl rfl
  · exact Or.inr h
theorem Neutral.name {d : Int} {n : Str} : Neutral d [.tok (.name n)] := fun _ hr => hr
theorem Neutral.const {d : Int} {n : Str} : Neutral d [.tok (.const n)] := fun _ hr => hr
theorem Neutral.op {d : Int} {c : Char} (h : c ∉ ['(', '[', '{', ')', ']', '}']) : Neutral d [op c] := fun _ hr => by
  simp only [List.mem_cons, List.not_mem_nil, or_false, not_or] at h
  simp only [Formatter.op, List.cons_append, List.nil_append, SpaceInside, depthAfter]
  rw [if_neg (by simp [h]), if_neg (by simp [h])]
  exact hr

theorem Neutral.bracket {d : Int} {o c : Char} {ps : List Piece} (ho : o ∈ ['(', '[', '{']) (hc : c ∈ [')', ']', '}'])
    (h : Neutral (d + 1) ps) : Neutral d ([Formatter.op o] ++ ps ++ [Formatter.op c]) := fun r hr => by
  simp only [Formatter.op, List.cons_append, List.nil_append, SpaceInside, depthAfter, List.append_assoc]
  rw [if_pos ho]
  apply h
  simp only [SpaceInside, depthAfter]
  have : c ∉ ['(', '[', '{'] := by simp at hc ⊢; rcases hc with rfl | rfl | rfl <;> decide
  rw [if_neg this, if_pos hc]
  have : d + 1 - 1 = d := by omega
  rw [this]
  exact hr

mutual
theorem fmt_space {th i : Nat} {p ps : List Piece} {e : Expr} (h : fmt th i p e = .ok ps) {d : Int} (hd : 0 ≤ d)
    (hi : i = 0 ∨ 0 < d) (hp : Neutral d p) : Neutral d ps := by
  have hb : Neutral d ([blanks i] ++ p) := (Neutral.blanks hi).append hp
  cases e with
  | const r =>
    simp only [fmt, Except.ok.injEq] at h
    subst h
    exact hb.append .const
  | tuple items =>
    simp only [fmt] at h
    rcases choose_cases h with ⟨y, hy, rfl⟩ | ⟨y, hy, rfl⟩
    · have h1 := flat_space hy (d := d + 1) (by omega)
      have h2 := hb.append (Neutral.bracket (o := '(') (c := ')') (by simp) (by simp)
        (h1.append (b := if items.single then [op ','] else []) (by split; exact .op (by simp); exact .nil _)))
      simpa using h2
    · have h1 := multi_space hy (d := d + 1) (by omega)
      have h2 := hb.append (Neutral.bracket (o := '(') (c := ')') (by simp) (by simp)
        (((Neutral.ws (s := ['\n']) (Or.inr (by omega))).append h1).append (Neutral.blanks (n := i) (Or.inr (by omega)))))
      simpa using h2
  | list items =>
    simp only [fmt] at h
    rcases choose_cases h with ⟨y, hy, rfl⟩ | ⟨y, hy, rfl⟩
    · have h1 := flat_space hy (d := d + 1) (by omega)
      have h2 := hb.append (Neutral.bracket (o := '[') (c := ']') (by simp) (by simp) h1)
      simpa using h2
    · have h1 := multi_space hy (d := d + 1) (by omega)
      have h2 := hb.append (Neutral.bracket (o := '[') (c := ']') (by simp) (by simp)
        (((Neutral.ws (s := ['\n']) (Or.inr (by omega))).append h1).append (Neutral.blanks (n := i) (Or.inr (by omega)))))
      simpa using h2
  | dict items =>
    simp only [fmt] at h
    rcases choose_cases h with ⟨y, hy, rfl⟩ | ⟨y, hy, rfl⟩
    · have h1 := flat_space hy (d := d + 1) (by omega)
      have h2 := hb.append (Neutral.bracket (o := '{') (c := '}') (by simp) (by simp) h1)
      simpa using h2
    · have h1 := multi_space hy (d := d + 1) (by omega)
      have h2 := hb.append (Neutral.bracket (o := '{') (c := '}') (by simp) (by simp)
        (((Neutral.ws (s := ['\n']) (Or.inr (by omega))).append h1).append (Neutral.blanks (n := i) (Or.inr (by omega)))))
      simpa using h2
  | call f items =>
    simp only [fmt] at h
    rcases choose_cases h with ⟨y, hy, rfl⟩ | ⟨y, hy, rfl⟩
    · have h1 := flat_space hy (d := d + 1) (by omega)
      have h2 := (hb.append (Neutral.name (n := f))).append (Neutral.bracket (o := '(') (c := ')') (by simp) (by simp) h1)
      simpa using h2
    · have h1 := multi_space hy (d := d + 1) (by omega)
      have h2 := (hb.append (Neutral.name (n := f))).append (Neutral.bracket (o := '(') (c := ')') (by simp) (by simp)
        (((Neutral.ws (s := ['\n']) (Or.inr (by omega))).append h1).append (Neutral.blanks (n := i) (Or.inr (by omega)))))
      simpa using h2
  | other => simp [fmt] at h
theorem flat_space {th : Nat} {ps : List Piece} {items : Items} (h : flat th items = .ok ps) {d : Int} (hd : 0 < d) :
    Neutral d ps := by
  cases items with
  | nil =>
    simp only [flat, Except.ok.injEq] at h
    subst h
    exact .nil _
  | cons k v rest =>
    simp only [flat] at h
    split at h
    · cases h
    · rename_i p hp
      obtain ⟨a, b, ha, hb, rfl⟩ := join_ok h
      obtain ⟨y, hy, rfl⟩ := wrap_ok hb
      refine (fmt_space ha (by omega) (Or.inl rfl) (before_space hp hd)).append ?_
      refine Neutral.append (Neutral.append ?_ (flat_space hy hd)) (.nil _)
      split
      · exact .nil _
      · exact Neutral.append (a := [op ',']) (.op (by simp)) (.ws (Or.inr hd))
theorem multi_space {th i : Nat} {ps : List Piece} {items : Items} (h : multi th i items = .ok ps) {d : Int} (hd : 0 < d) :
    Neutral d ps := by
  cases items with
  | nil =>
    simp only [multi, Except.ok.injEq] at h
    subst h
    exact .nil _
  | cons k v rest =>
    simp only [multi] at h
    split at h
    · cases h
    · rename_i p hp
      obtain ⟨a, b, ha, hb, rfl⟩ := join_ok h
      obtain ⟨y, hy, rfl⟩ := wrap_ok hb
      refine (fmt_space ha (by omega) (Or.inr hd) (before_space hp hd)).append ?_
      refine Neutral.append (Neutral.append ?_ (multi_space hy hd)) (.nil _)
      exact Neutral.append (a := [op ',']) (.op (by simp)) (.ws (Or.inr hd))
theorem before_space {th : Nat} {p : List Piece} {k : Key} (h : before th k = .ok p) {d : Int} (hd : 0 < d) : Neutral d p := by
  cases k with
  | pos => simp only [before, Except.ok.injEq] at h; subst h; exact .nil _
  | kw n =>
    simp only [before, Except.ok.injEq] at h
    subst h
    exact Neutral.append (a := [.tok (.name n)]) .name (.op (by simp))
  | unpack => simp only [before, Except.ok.injEq] at h; subst h; exact .nil _
  | key e =>
    simp only [before] at h
    split at h
    · cases h
    · rename_i ps hps
      simp only [Except.ok.injEq] at h
      subst h
      refine (fmt_space hps (by omega) (Or.inl rfl) (.nil _)).append ?_
      exact Neutral.append (a := [op ':']) (.op (by simp)) (.ws (Or.inr hd))
end

end Specfile.Formatter
