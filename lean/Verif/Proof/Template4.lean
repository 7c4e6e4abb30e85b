import Verif.Proof.Template3
/-
Helper lemmas for C73: parsed values, conditionals.
-/
namespace Specfile.Template
open Py Regex Spec ValueParser

/-! ### literals of parsed values -/

def IsLit : Node → Prop
  | .lit _ => True
  | _ => False

mutual
/-- literals are never adjacent, and their characters satisfy `q` -/
def TidyNode (q : Char → Prop) : Node → Prop
  | .cond _ _ body => TidyNodes q body
  | .lit s => ∀ c ∈ s, q c
  | .shell _ => True
  | .expr _ => True
  | .sub _ _ => True
  | .encl _ _ _ => True
  | .builtin _ _ => True
def TidyNodes (q : Char → Prop) : List Node → Prop
  | [] => True
  | n :: ns => TidyNode q n ∧ TidyNodes q ns ∧ (IsLit n → ∀ m ∈ ns.head?, ¬ IsLit m)
end

theorem mkNode_tidy [Uni] {q : Char → Prop} {fuel : Nat} {c : Char} {m : Str} {node : Node} (hq : ∀ x ∈ m, q x)
    (ih : ∀ {start : Nat} {rest : Str} {offset : Nat} {ns : List Node}, (∀ x ∈ rest, q x) →
      parseF fuel start rest offset = .ok ns → TidyNodes q ns)
    (h : mkNode fuel c m = .ok node) : TidyNode q node ∧ ¬ IsLit node := by
  have hi : ∀ x ∈ inner m, q x := fun x hx => hq x (List.mem_of_mem_tail ((List.dropLast_sublist _).subset hx))
  unfold mkNode at h
  split at h
  · cases h; exact ⟨by simp [TidyNode], id⟩
  · split at h
    · cases h; exact ⟨by simp [TidyNode], id⟩
    · split at h
      · split at h
        · rename_i cond body hs
          split at h
          · cases hb : parseF fuel 0 body 0 with
            | error e => rw [hb] at h; simp [bind, Except.bind] at h
            | ok ns =>
              rw [hb] at h
              simp only [bind, Except.bind] at h
              cases h
              refine ⟨?_, id⟩
              simp only [TidyNode]
              refine ih ?_ hb
              intro x hx
              have := (splitColon_some hs).1
              exact hi x (by rw [this]; simp [hx])
          · cases h; exact ⟨by simp [TidyNode], id⟩
        · unfold mkEncl at h
          split at h
          · cases h
          · cases h; exact ⟨by simp [TidyNode], id⟩
      · cases h; exact ⟨by simp [TidyNode, mkSub], by simp [IsLit, mkSub]⟩

theorem parseF_tidy [Uni] {q : Char → Prop} : ∀ (fuel : Nat) {start : Nat} {rest : Str} {offset : Nat} {ns : List Node},
    (∀ x ∈ rest, q x) → parseF fuel start rest offset = .ok ns → TidyNodes q ns := by
  intro fuel
  induction fuel with
  | zero => intro _ _ _ _ _ h; simp [parseF] at h
  | succ fuel ih =>
    intro start rest offset ns hq h
    rcases parseF_ok_cases h with ⟨-, rfl⟩ | ⟨-, -, rfl⟩ | ⟨b, a, -, -, h'⟩ | ⟨b, c, a, m, rest', node, ns', e1, -, -, hm, hn, hr, rfl⟩
    · simp [TidyNodes]
    · simp only [TidyNodes, TidyNode]; exact ⟨hq, trivial, by simp⟩
    · exact ih hq h'
    · have hsub : ∀ x ∈ m ++ rest', q x := by
        intro x hx
        rw [← findMacroEnd_append hm] at hx
        refine hq x (List.mem_of_mem_drop (i := offset) ?_)
        rw [e1]
        simp only [List.mem_append, List.mem_cons] at hx ⊢
        exact .inr (.inr hx)
      obtain ⟨t1, t2⟩ := mkNode_tidy (fun x hx => hsub x (by simp [hx])) ih hn
      have t3 := ih (fun x hx => hsub x (by simp [hx])) hr
      have tail : TidyNodes q (node :: ns') := by
        simp only [TidyNodes]
        exact ⟨t1, t3, fun h => absurd h t2⟩
      split
      · exact tail
      · simp only [List.cons_append, List.nil_append]
        rw [TidyNodes]
        refine ⟨?_, tail, fun _ m hm => ?_⟩
        · simp only [TidyNode]
          intro x hx
          rw [List.mem_append] at hx
          rcases hx with hx | hx
          · exact hq x (List.mem_of_mem_take hx)
          · exact hq x (List.mem_of_mem_drop (i := offset) (by rw [e1]; simp [hx]))
        · simp only [List.head?_cons, Option.mem_some_iff] at hm
          subst hm
          exact t2

theorem apart_append_constant {ps qs : List Part} {r s : Str} (h1 : Apart ps) (h2 : Apart qs) :
    Apart (ps ++ .constant r s :: qs) := by
  induction ps with
  | nil => simpa [Apart] using h2
  | cons p ps ih =>
    have := ih (apart_tail h1)
    cases p with
    | constant _ _ => simpa [Apart] using this
    | reference _ _ => simpa [Apart] using this
    | literal s =>
      cases ps with
      | nil => simpa [Apart] using this
      | cons p' ps =>
        cases p' with
        | constant _ _ => simpa [Apart] using this
        | reference _ _ => simpa [Apart] using this
        | literal _ => simp [Apart] at h1

theorem parts_tidy {ex : Str → Except Err Str} {entities flips : List Str} {q : Char → Prop} {ns : List Node}
    {ps : List Part} (h : Parts ex entities flips ns ps) (ht : TidyNodes q ns) :
    Apart ps ∧ (∀ s, Part.literal s ∈ ps → ∀ c ∈ s, q c) ∧ ((∀ m ∈ ns.head?, ¬ IsLit m) → ∀ s r, ps ≠ .literal s :: r) := by
  induction h with
  | nil => exact ⟨trivial, by simp, by simp⟩
  | lit h ih =>
    rename_i s ns ps
    simp only [TidyNodes, TidyNode] at ht
    obtain ⟨i1, i2, i3⟩ := ih ht.2.1
    refine ⟨?_, ?_, fun h => absurd trivial (h (.lit s) rfl)⟩
    · have := i3 (ht.2.2 trivial)
      cases ps with
      | nil => trivial
      | cons p ps =>
        cases p with
        | literal s' => exact absurd rfl (this s' ps)
        | constant _ _ => simpa [Apart] using i1
        | reference _ _ => simpa [Apart] using i1
    · intro s' hs
      simp only [List.mem_cons, Part.literal.injEq] at hs
      rcases hs with rfl | hs
      · exact ht.1
      · exact i2 s' hs
  | reference h1 h2 h ih =>
    simp only [TidyNodes] at ht
    obtain ⟨i1, i2, i3⟩ := ih ht.2.1
    exact ⟨by simpa [Apart] using i1, fun s hs => i2 s (by simpa using hs), by simp⟩
  | constant h1 h2 h3 h ih =>
    simp only [TidyNodes] at ht
    obtain ⟨i1, i2, i3⟩ := ih ht.2.1
    exact ⟨by simpa [Apart] using i1, fun s hs => i2 s (by simpa using hs), by simp⟩
  | closed h1 h ih =>
    simp only [TidyNodes] at ht
    obtain ⟨i1, i2, i3⟩ := ih ht.2.1
    exact ⟨by simpa [Apart] using i1, fun s hs => i2 s (by simpa using hs), by simp⟩
  | opened h1 h2 hb h ihb ih =>
    simp only [TidyNodes, TidyNode] at ht
    obtain ⟨i1, i2, i3⟩ := ih ht.2.1
    obtain ⟨j1, j2, j3⟩ := ihb ht.1
    refine ⟨?_, ?_, by simp⟩
    · simp only [Apart]
      exact apart_append_constant j1 i1
    · intro s hs
      simp only [List.mem_cons, List.mem_append, reduceCtorEq, false_or] at hs
      rcases hs with hs | hs
      · exact j2 s hs
      · exact i2 s hs

/-! ### conditionals -/

/-- entities to flip were processed, and may be flipped -/
structure Good (modifiable flippable : List Str) (f : Flips) : Prop where
  sub : ∀ x ∈ f.toFlip, x ∈ f.processed
  allowed : ∀ x ∈ f.toFlip, x ∈ flippable ∧ x ∈ modifiable

/-- later states do not change their mind about processed entities -/
structure Later (f g : Flips) : Prop where
  processed : ∀ x ∈ f.processed, x ∈ g.processed
  flip : ∀ x ∈ f.toFlip, x ∈ g.toFlip
  keep : ∀ x ∈ f.processed, x ∈ g.toFlip → x ∈ f.toFlip

theorem Later.refl (f : Flips) : Later f f := ⟨fun _ h => h, fun _ h => h, fun _ _ h => h⟩
theorem Later.trans {f g h : Flips} (a : Later f g) (b : Later g h) : Later f h :=
  ⟨fun x hx => b.processed x (a.processed x hx), fun x hx => b.flip x (a.flip x hx),
    fun x hx hh => a.keep x hx (b.keep x (a.processed x hx) hh)⟩

theorem evaluate_spec {ex : Str → Except Err Str} {modifiable flippable : List Str} {p x : Str} {f g : Flips} {b : Bool}
    (hf : Good modifiable flippable f) (h : evaluate ex modifiable flippable p x f = .ok (b, g)) :
    Good modifiable flippable g ∧ Later f g ∧ ∀ F, Good modifiable flippable F → Later g F →
      (b = true → x ∈ modifiable ∧ Succeeds ex F.toFlip p x) ∧
      (b = false → x ∈ modifiable → ¬ Succeeds ex F.toFlip p x) := by
  unfold evaluate at h
  split at h
  · rename_i hm
    cases h
    refine ⟨hf, .refl f, fun F _ _ => ⟨by simp, fun _ hx => ?_⟩⟩
    simp at hm
    exact absurd hx hm
  · rename_i hm
    have hm : x ∈ modifiable := by simpa using hm
    split at h
    · cases h
    · rename_i d hd
      have suc : ∀ F : List Str, Succeeds ex F p x ↔ (((d ≠ []) ↔ x ∉ F) ↔ p.count '!' % 2 = 0) := by
        intro F
        constructor
        · rintro ⟨d', hd', h'⟩
          rw [hd] at hd'
          cases hd'
          exact h'
        · intro h'; exact ⟨d, hd, h'⟩
      simp only at h
      split at h
      · rename_i hc
        have hc : ((d ≠ []) ↔ ¬ p.count '!' % 2 = 0) := by
          rcases Nat.mod_two_eq_zero_or_one (p.count '!') with h0 | h0 <;> cases d <;> simp_all
        split at h
        · rename_i hfl
          cases h
          have hfl : x ∉ flippable := by simpa using hfl
          refine ⟨hf, .refl f, fun F hF _ => ⟨by simp, fun _ _ => ?_⟩⟩
          rw [suc]
          have : x ∉ F.toFlip := fun hx => hfl (hF.allowed x hx).1
          simp only [this, not_false_eq_true, iff_true, hc]
          rcases Nat.mod_two_eq_zero_or_one (p.count '!') with h0 | h0 <;> simp [h0]
        · rename_i hfl
          have hfl : x ∈ flippable := by simpa using hfl
          split at h
          · rename_i hp
            cases h
            simp only [Bool.and_eq_true, Bool.not_eq_true', List.contains_eq_mem, decide_eq_false_iff_not, decide_eq_true_eq] at hp
            refine ⟨hf, .refl f, fun F hF hl => ⟨by simp, fun _ _ => ?_⟩⟩
            rw [suc]
            have : x ∉ F.toFlip := fun hx => hp.2 (hl.keep x hp.1 hx)
            simp only [this, not_false_eq_true, iff_true, hc]
            rcases Nat.mod_two_eq_zero_or_one (p.count '!') with h0 | h0 <;> simp [h0]
          · rename_i hp
            cases h
            simp only [Bool.and_eq_true, Bool.not_eq_true', List.contains_eq_mem, decide_eq_false_iff_not, decide_eq_true_eq] at hp
            refine ⟨⟨?_, ?_⟩, ⟨?_, ?_, ?_⟩, fun F hF hl => ⟨fun _ => ⟨hm, ?_⟩, by simp⟩⟩
            · intro y hy
              simp only [List.mem_cons] at hy ⊢
              exact hy.imp id (hf.sub y)
            · intro y hy
              simp only [List.mem_cons] at hy
              rcases hy with rfl | hy
              · exact ⟨hfl, hm⟩
              · exact hf.allowed y hy
            · intro y hy; simp [hy]
            · intro y hy; simp [hy]
            · intro y hy hy2
              simp only [List.mem_cons] at hy2
              rcases hy2 with rfl | hy2
              · exact Classical.byContradiction fun hn => hp ⟨hy, hn⟩
              · exact hy2
            · rw [suc]
              have : x ∈ F.toFlip := hl.flip x (by simp)
              simp only [this, not_true_eq_false, iff_false, hc]
              rcases Nat.mod_two_eq_zero_or_one (p.count '!') with h0 | h0 <;> simp [h0]
      · rename_i hc
        have hc : ((d ≠ []) ↔ p.count '!' % 2 = 0) := by
          rcases Nat.mod_two_eq_zero_or_one (p.count '!') with h0 | h0 <;> cases d <;> simp_all
        split at h
        · rename_i hfl
          cases h
          have hfl : x ∈ f.toFlip := by simpa using hfl
          refine ⟨hf, .refl f, fun F hF hl => ⟨by simp, fun _ _ => ?_⟩⟩
          rw [suc]
          have : x ∈ F.toFlip := hl.flip x hfl
          simp only [this, not_true_eq_false, iff_false, hc]
          rcases Nat.mod_two_eq_zero_or_one (p.count '!') with h0 | h0 <;> simp [h0]
        · rename_i hfl
          cases h
          have hfl : x ∉ f.toFlip := by simpa using hfl
          refine ⟨⟨?_, ?_⟩, ⟨?_, ?_, ?_⟩, fun F hF hl => ⟨fun _ => ⟨hm, ?_⟩, by simp⟩⟩
          · intro y hy; simp [hf.sub y hy]
          · exact hf.allowed
          · intro y hy; simp [hy]
          · intro y hy; exact hy
          · intro y hy hy2; exact hy2
          · rw [suc]
            have : x ∉ F.toFlip := fun hx => hfl (hl.keep x (by simp) hx)
            simp only [this, not_false_eq_true, iff_true, hc]

theorem tokens_append {ex : Str → Except Err Str} {modifiable : List Str} {ps qs : List Piece} {ts : List Tok}
    (h : tokens ex modifiable (ps ++ qs) = .ok ts) :
    ∃ a b, tokens ex modifiable ps = .ok a ∧ tokens ex modifiable qs = .ok b ∧ ts = a ++ b := by
  induction ps generalizing ts with
  | nil => exact ⟨[], ts, rfl, h, rfl⟩
  | cons p ps ih =>
    simp only [List.cons_append, tokens] at h ⊢
    split at h
    · cases h
    · rename_i t ht
      split at h
      · cases h
      · rename_i ts' hts
        cases h
        obtain ⟨a, b, h1, h2, rfl⟩ := ih hts
        exact ⟨t ++ a, b, by simp [h1], h2, by simp⟩

theorem refersTo_name {n : Node} {x y : Str} (h1 : RefersTo n x) (h2 : RefersTo n y) : x = y := by
  cases h1 <;> cases h2 <;> rfl

/-- a node that is no conditional -/
theorem token_parts {ex : Str → Except Err Str} {modifiable flips : List Str} {n : Node} {ts : List Tok}
    (hn : ∀ p x b, n ≠ .cond p x b) (h : token ex modifiable (.node n) = .ok ts) {ns : List Node} {ps : List Part}
    (hp : Parts ex modifiable flips ns ps) : Parts ex modifiable flips (n :: ns) (ts.map part ++ ps) := by
  have hconst : ∀ m, IsMacro m → (∀ x, RefersTo m x → x ∉ modifiable) → constant ex m = .ok ts →
      Parts ex modifiable flips (m :: ns) (ts.map part ++ ps) := by
    intro m h1 h2 h
    unfold constant at h
    split at h
    · cases h
    · rename_i s hs
      cases h
      exact .constant h1 h2 hs hp
  cases n with
  | lit s => simp only [token] at h; cases h; exact .lit hp
  | shell b => exact hconst _ trivial (by rintro x ⟨⟩) h
  | expr b => exact hconst _ trivial (by rintro x ⟨⟩) h
  | builtin n b => exact hconst _ trivial (by rintro x ⟨⟩) h
  | cond p x b => exact absurd rfl (hn p x b)
  | sub p x =>
    simp only [token] at h
    split at h
    · rename_i hc
      cases h
      exact .reference (.plain hc.1) (by simpa using hc.2) hp
    · rename_i hc
      refine hconst _ trivial ?_ h
      rintro y ⟨h0⟩ hy
      exact hc ⟨h0, by simpa using hy⟩
  | encl p x args =>
    simp only [token] at h
    split at h
    · rename_i hc
      cases h
      have ha : args = [] := by simpa using hc.2.1
      subst ha
      exact .reference (.braced hc.1) (by simpa using hc.2.2) hp
    · rename_i hc
      refine hconst _ trivial ?_ h
      rintro y h0 hy
      cases h0 with
      | braced h0 => exact hc ⟨h0, rfl, by simpa using hy⟩

mutual
theorem openNode_parts {ex : Str → Except Err Str} {modifiable flippable : List Str} : ∀ (n : Node) {f g : Flips}
    {ps : List Piece}, Good modifiable flippable f → openNode ex modifiable flippable n f = .ok (ps, g) →
    Good modifiable flippable g ∧ Later f g ∧ ∀ F, Good modifiable flippable F → Later g F →
      ∀ ts, tokens ex modifiable ps = .ok ts → ∀ ns qs, Parts ex modifiable F.toFlip ns qs →
        Parts ex modifiable F.toFlip (n :: ns) (ts.map part ++ qs)
  | .cond p x body, f, g, ps, hf, h => by
    simp only [openNode] at h
    split at h
    · cases h
    · rename_i f1 he
      cases h
      obtain ⟨h1, h2, h3⟩ := evaluate_spec hf he
      refine ⟨h1, h2, fun F hF hl ts hts ns qs hp => ?_⟩
      simp only [tokens, token] at hts
      cases hts
      exact .closed ((h3 F hF hl).2 rfl) hp
    · rename_i f1 he
      obtain ⟨h1, h2, h3⟩ := evaluate_spec hf he
      split at h
      · cases h
      · rename_i ps' f2 hb
        cases h
        obtain ⟨i1, i2, i3⟩ := openNodes_parts body h1 hb
        refine ⟨i1, h2.trans i2, fun F hF hl ts hts ns qs hp => ?_⟩
        have key : ∃ ts', tokens ex modifiable ps' = .ok ts' ∧
            ts = .c [] (s% "%{" ++ p ++ x ++ [':']) :: (ts' ++ [.c [] ['}']]) := by
          simp only [tokens, token] at hts
          split at hts
          · cases hts
          · rename_i ts1 ht1
            cases hts
            obtain ⟨a, b, e1, e2, rfl⟩ := tokens_append ht1
            simp only [tokens, token] at e2
            cases e2
            exact ⟨a, e1, rfl⟩
        obtain ⟨ts', e1, rfl⟩ := key
        have hb' := i3 F hF hl ts' e1
        obtain ⟨s1, s2⟩ := (h3 F hF (i2.trans hl)).1 rfl
        have := Parts.opened s1 s2 hb' hp
        simpa [part] using this
  | .lit s, f, g, ps, hf, h => by
    simp only [openNode] at h; cases h
    refine ⟨hf, .refl f, fun F _ _ ts hts ns qs hp => ?_⟩
    refine token_parts (by rintro _ _ _ ⟨⟩) ?_ hp
    simp only [tokens] at hts
    split at hts
    · cases hts
    · cases hts; simp [*]
  | .shell s, f, g, ps, hf, h => by
    simp only [openNode] at h; cases h
    refine ⟨hf, .refl f, fun F _ _ ts hts ns qs hp => ?_⟩
    refine token_parts (by rintro _ _ _ ⟨⟩) ?_ hp
    simp only [tokens] at hts
    split at hts
    · cases hts
    · cases hts; simp [*]
  | .expr s, f, g, ps, hf, h => by
    simp only [openNode] at h; cases h
    refine ⟨hf, .refl f, fun F _ _ ts hts ns qs hp => ?_⟩
    refine token_parts (by rintro _ _ _ ⟨⟩) ?_ hp
    simp only [tokens] at hts
    split at hts
    · cases hts
    · cases hts; simp [*]
  | .sub _ _, f, g, ps, hf, h => by
    simp only [openNode] at h; cases h
    refine ⟨hf, .refl f, fun F _ _ ts hts ns qs hp => ?_⟩
    refine token_parts (by rintro _ _ _ ⟨⟩) ?_ hp
    simp only [tokens] at hts
    split at hts
    · cases hts
    · cases hts; simp [*]
  | .encl _ _ _, f, g, ps, hf, h => by
    simp only [openNode] at h; cases h
    refine ⟨hf, .refl f, fun F _ _ ts hts ns qs hp => ?_⟩
    refine token_parts (by rintro _ _ _ ⟨⟩) ?_ hp
    simp only [tokens] at hts
    split at hts
    · cases hts
    · cases hts; simp [*]
  | .builtin _ _, f, g, ps, hf, h => by
    simp only [openNode] at h; cases h
    refine ⟨hf, .refl f, fun F _ _ ts hts ns qs hp => ?_⟩
    refine token_parts (by rintro _ _ _ ⟨⟩) ?_ hp
    simp only [tokens] at hts
    split at hts
    · cases hts
    · cases hts; simp [*]
theorem openNodes_parts {ex : Str → Except Err Str} {modifiable flippable : List Str} : ∀ (l : List Node) {f g : Flips}
    {ps : List Piece}, Good modifiable flippable f → openNodes ex modifiable flippable l f = .ok (ps, g) →
    Good modifiable flippable g ∧ Later f g ∧ ∀ F, Good modifiable flippable F → Later g F →
      ∀ ts, tokens ex modifiable ps = .ok ts → Parts ex modifiable F.toFlip l (ts.map part)
  | [], f, g, ps, hf, h => by
    simp only [openNodes] at h
    cases h
    refine ⟨hf, .refl f, fun F _ _ ts hts => ?_⟩
    simp only [tokens] at hts
    cases hts
    exact .nil
  | n :: ns, f, g, ps, hf, h => by
    simp only [openNodes] at h
    split at h
    · cases h
    · rename_i ps1 f1 hn
      split at h
      · cases h
      · rename_i ps2 f2 hns
        cases h
        obtain ⟨a1, a2, a3⟩ := openNode_parts n hf hn
        obtain ⟨b1, b2, b3⟩ := openNodes_parts ns a1 hns
        refine ⟨b1, a2.trans b2, fun F hF hl ts hts => ?_⟩
        obtain ⟨t1, t2, e1, e2, rfl⟩ := tokens_append hts
        rw [List.map_append]
        exact a3 F hF (b2.trans hl) t1 e1 ns _ (b3 F hF hl t2 e2)
end

end Specfile.Template
