import Verif.Proof.MacroDefinitions5
/-
List operations on macro definitions, and what survives parsing of any text.
-/
namespace Specfile
open Py Regex Spec
namespace MacroDefinitions

/-- the lines of the definition itself -/
def own (d : MacroDefinition) : List Str := d.raw.drop d.preceding.length

theorem raw_own (d : MacroDefinition) : d.raw = d.preceding ++ own d := by
  obtain ⟨b, bs, _, h⟩ := raw_eq d
  rw [own, h, List.drop_left]

theorem own_preceding (d : MacroDefinition) (p : List Str) : own { d with preceding := p } = own d := by
  obtain ⟨b, bs, hs, h⟩ := raw_eq d
  obtain ⟨b', bs', hs', h'⟩ := raw_eq { d with preceding := p }
  simp only at hs' h'
  rw [hs] at hs'
  simp only [List.cons.injEq] at hs'
  obtain ⟨rfl, rfl⟩ := hs'
  rw [own, own, h, h', List.drop_left]
  simp only [List.drop_left]
  rfl

theorem own_ne_nil (d : MacroDefinition) : own d ≠ [] := by
  obtain ⟨b, bs, _, h⟩ := raw_eq d
  rw [own, h, List.drop_left]; simp

theorem flatten_split {α β} (l : List α) (f : α → List β) {k : Nat} {x : α} (h : l[k]? = some x) :
    (l.map f).flatten = ((l.take k).map f).flatten ++ f x ++ ((l.drop (k + 1)).map f).flatten := by
  induction l generalizing k with
  | nil => simp at h
  | cons y ys ih =>
    cases k with
    | zero => simp at h; simp [h]
    | succ k => simp at h; simp [ih h]

theorem flatten_erase {α β} (l : List α) (f : α → List β) (k : Nat) :
    ((l.eraseIdx k).map f).flatten = ((l.take k).map f).flatten ++ ((l.drop (k + 1)).map f).flatten := by
  induction l generalizing k with
  | nil => simp
  | cons y ys ih => cases k with
    | zero => simp
    | succ k => simp [ih]

theorem flatten_modify {α β} (l : List α) (f : α → List β) (g : α → α) {k : Nat} {x : α}
    (h : l[k]? = some x) :
    ((l.modify k g).map f).flatten =
      ((l.take k).map f).flatten ++ f (g x) ++ ((l.drop (k + 1)).map f).flatten := by
  induction l generalizing k with
  | nil => simp at h
  | cons y ys ih =>
    cases k with
    | zero => simp at h; simp [h]
    | succ k => simp at h; simp [ih h]

theorem take_eraseIdx {α} (l : List α) (k : Nat) : (l.eraseIdx k).take k = l.take k := by
  induction l generalizing k with
  | nil => simp
  | cons x xs ih => cases k <;> simp [ih]

theorem drop_eraseIdx {α} (l : List α) (k : Nat) : (l.eraseIdx k).drop (k + 1) = l.drop (k + 2) := by
  induction l generalizing k with
  | nil => simp
  | cons x xs ih => cases k <;> simp [ih]

theorem take_modify_self {α} (l : List α) (f : α → α) (k : Nat) : (l.modify k f).take k = l.take k := by
  induction l generalizing k with
  | nil => simp
  | cons x xs ih => cases k <;> simp [ih]

theorem delItem_nat {m : MacroDefinitions} {k : Nat} (hk : k < m.data.length) :
    (delItem m k).2 = none ∧
    (delItem m k).1.data.map own = (m.data.eraseIdx k).map own ∧
    (∀ d, m.data[k]? = some d →
      raw (delItem m k).1 = ((m.data.take k).map MacroDefinition.raw).flatten ++ d.preceding ++
        ((m.data.drop (k + 1)).map MacroDefinition.raw).flatten ++ m.remainder) := by
  have hlen : (m.data.eraseIdx k).length = m.data.length - 1 := by
    rw [List.length_eraseIdx, if_pos hk]
  obtain ⟨d, hd⟩ : ∃ d, m.data[k]? = some d := ⟨_, List.getElem?_eq_getElem hk⟩
  unfold delItem
  simp only [pyIndex_ofNat hk, hd, Option.map_some, Option.getD_some]
  by_cases hl : k < m.data.length - 1
  · rw [if_pos (by rw [hlen]; omega), hlen, pyIndex_ofNat hl]
    refine ⟨rfl, ?_, ?_⟩
    · simp only
      apply List.ext_getElem?
      intro i
      simp only [List.getElem?_map, List.getElem?_modify]
      cases (m.data.eraseIdx k)[i]? with
      | none => rfl
      | some x =>
        by_cases h : k = i
        · simp [h, own_preceding]
        · simp [h]
    · rintro d' hd'
      cases hd'
      have hx : ∃ x, m.data[k + 1]? = some x := ⟨_, List.getElem?_eq_getElem (by omega)⟩
      obtain ⟨x, hx⟩ := hx
      have hx' : (m.data.eraseIdx k)[k]? = some x := by
        rw [List.getElem?_eraseIdx, if_neg (by omega), hx]
      simp only [raw]
      rw [flatten_modify _ _ _ hx', raw_own, own_preceding]
      have e1 : (m.data.eraseIdx k).take k = m.data.take k := take_eraseIdx _ _
      have e2 : (m.data.eraseIdx k).drop (k + 1) = m.data.drop (k + 2) := drop_eraseIdx _ _
      have e3 : m.data.drop (k + 1) = x :: m.data.drop (k + 2) := by
        rw [List.drop_eq_getElem_cons (by omega)]
        congr 1
        rw [List.getElem?_eq_getElem (by omega)] at hx
        exact Option.some.inj hx
      rw [e1, e2, e3]
      simp [raw_own x]
  · rw [if_neg (by rw [hlen]; omega)]
    refine ⟨rfl, rfl, ?_⟩
    rintro d' hd'
    cases hd'
    have e : m.data.drop (k + 1) = [] := List.drop_eq_nil_of_le (by omega)
    simp only [raw, flatten_erase, e]
    simp

/-- the lines left by deleting the definitions whose index is in `is` -/
def without (is : List Nat) : Nat → List MacroDefinition → List Str
  | _, [] => []
  | i, d :: ds => (if i ∈ is then d.preceding else d.raw) ++ without is (i + 1) ds

theorem without_append (is : List Nat) (i : Nat) (a b : List MacroDefinition) :
    without is i (a ++ b) = without is i a ++ without is (i + a.length) b := by
  induction a generalizing i with
  | nil => simp [without]
  | cons d ds ih =>
    simp only [List.cons_append, without, ih, List.append_assoc, List.length_cons]
    rw [show i + 1 + ds.length = i + (ds.length + 1) by omega]

theorem without_none {is : List Nat} {i : Nat} {ds : List MacroDefinition}
    (h : ∀ k ∈ is, ¬ (i ≤ k ∧ k < i + ds.length)) :
    without is i ds = (ds.map MacroDefinition.raw).flatten := by
  induction ds generalizing i with
  | nil => rfl
  | cons d ds ih =>
    simp only [without, List.map_cons, List.flatten_cons]
    rw [if_neg, ih]
    · intro k hk; have := h k hk; simp at this; omega
    · intro hi; have := h i hi; simp at this

theorem without_congr {is js : List Nat} {i : Nat} {ds : List MacroDefinition}
    (h : ∀ k, i ≤ k → k < i + ds.length → (k ∈ is ↔ k ∈ js)) : without is i ds = without js i ds := by
  induction ds generalizing i with
  | nil => rfl
  | cons d ds ih =>
    simp only [without]
    rw [ih (fun k h1 h2 => h k (by omega) (by simp; omega))]
    have := h i (by omega) (by simp)
    by_cases hi : i ∈ is
    · rw [if_pos hi, if_pos (this.1 hi)]
    · rw [if_neg hi, if_neg (fun x => hi (this.2 x))]

theorem delAll_append (m : MacroDefinitions) (a b : List Nat) :
    delAll m (a ++ b) = match delAll m a with
      | (m', some e) => (m', some e)
      | (m', none) => delAll m' b := by
  induction a generalizing m with
  | nil => rfl
  | cons i a ih =>
    simp only [List.cons_append, delAll]
    cases h : delItem m i with
    | mk m' e => cases e with
      | none => simp only; exact ih m'
      | some e => rfl

/-- deletion keeps everything up to the deleted definition -/
theorem delItem_take {m : MacroDefinitions} {k : Nat} (hk : k < m.data.length) :
    (delItem m k).1.data.take k = m.data.take k ∧ (delItem m k).1.data.length = m.data.length - 1 := by
  have hlen : (m.data.eraseIdx k).length = m.data.length - 1 := by
    rw [List.length_eraseIdx, if_pos hk]
  unfold delItem
  simp only [pyIndex_ofNat hk]
  by_cases hl : k < m.data.length - 1
  · rw [if_pos (by rw [hlen]; omega), hlen, pyIndex_ofNat hl]
    simp only [List.length_modify, hlen, and_true]
    rw [take_modify_self, take_eraseIdx]
  · rw [if_neg (by rw [hlen]; omega)]
    exact ⟨take_eraseIdx _ _, hlen⟩

/-- deleting definitions from the last to the first -/
theorem delAll_spec (is : List Nat) : ∀ {m : MacroDefinitions} {n : Nat}, n ≤ m.data.length →
    List.Pairwise (· > ·) is → (∀ i ∈ is, i < n) →
    (delAll m is).2 = none ∧
    raw (delAll m is).1 = without is 0 m.data ++ m.remainder := by
  induction is with
  | nil => intro m n _ _ _; exact ⟨rfl, by rw [without_none (by simp)]; rfl⟩
  | cons i is ih =>
    intro m n hn hp hi
    have him : i < m.data.length := by have := hi i (by simp); omega
    have hd := List.getElem?_eq_getElem him
    obtain ⟨e1, _, e2⟩ := delItem_nat him
    obtain ⟨t1, t2⟩ := delItem_take him
    have e2 := e2 _ hd
    rw [List.pairwise_cons] at hp
    unfold delAll
    cases h : delItem m i with
    | mk m' e =>
      rw [h] at e1 e2 t1 t2
      simp only at e1 e2 t1 t2
      subst e1
      simp only
      obtain ⟨r1, r2⟩ := ih (m := m') (n := i) (by rw [t2]; omega) hp.2 hp.1
      refine ⟨r1, ?_⟩
      rw [r2]
      -- `m'` agrees with `m` below `i`
      have hsplit' : m'.data = m.data.take i ++ m'.data.drop i := by
        rw [← t1, List.take_append_drop]
      have hraw' : raw m' = ((m.data.take i).map MacroDefinition.raw).flatten ++
          (((m'.data.drop i).map MacroDefinition.raw).flatten ++ m'.remainder) := by
        rw [raw, ← List.append_assoc, ← List.flatten_append, ← List.map_append, ← hsplit']
      rw [hraw'] at e2
      simp only [List.append_assoc] at e2
      have e2 := List.append_cancel_left e2
      have hlen : (m.data.take i).length = i := by simp; omega
      rw [hsplit', without_append, hlen]
      rw [without_none (i := 0 + i) (fun k hk => by have := hp.1 k hk; omega)]
      rw [List.append_assoc, e2]
      conv => rhs; rw [← List.take_append_drop i m.data, without_append, hlen,
        List.drop_eq_getElem_cons him]
      simp only [without, Nat.zero_add, List.mem_cons, true_or, if_true]
      rw [without_none (i := i + 1) (fun k hk => by
        simp only [List.mem_cons] at hk
        rcases hk with rfl | hk
        · omega
        · have := hp.1 k hk; omega)]
      rw [without_congr (is := i :: is) (js := is)]
      · simp
      · intro k h1 h2
        rw [hlen] at h2
        simp only [List.mem_cons]
        constructor
        · rintro (rfl | h)
          · omega
          · exact h
        · exact .inr

theorem increasing_pairwise {n : Nat} {l : List Nat} (h : Increasing n l) :
    List.Pairwise (· < ·) l ∧ ∀ k ∈ l, k < n := by
  induction l with
  | nil => simp
  | cons a l ih =>
    cases l with
    | nil => simp only [Increasing] at h; simpa using h
    | cons b l =>
      obtain ⟨h1, h2⟩ := h
      obtain ⟨p, q⟩ := ih h2
      have hb := q b (by simp)
      refine ⟨?_, ?_⟩
      · rw [List.pairwise_cons]
        refine ⟨?_, p⟩
        rw [List.pairwise_cons] at p
        intro x hx
        simp only [List.mem_cons] at hx
        rcases hx with rfl | hx
        · exact h1
        · have := p.1 x hx; omega
      · intro k hk
        simp only [List.mem_cons] at hk
        rcases hk with rfl | hk
        · omega
        · exact q k (by simpa using hk)

/-! ### lookup -/

theorem findLoop_spec (name : Str) (i : Nat) (first : Option Nat) (l : List MacroDefinition) :
    findLoop name i first l =
      match l.findIdx? (fun x => x.name == name && x.valid) with
      | some k => some (i + k)
      | none => match first with
        | some f => some f
        | none => (l.findIdx? (fun x => x.name == name)).map (i + ·) := by
  induction l generalizing i first with
  | nil => cases first <;> simp [findLoop]
  | cons x xs ih =>
    simp only [findLoop, List.findIdx?_cons]
    by_cases h : x.name == name
    · by_cases hv : x.valid
      · simp [h, hv]
      · simp only [Bool.not_eq_true] at hv
        simp only [h, if_true, hv, Bool.false_eq_true, if_false, Bool.and_false, ih]
        cases xs.findIdx? (fun x => x.name == name && x.valid) with
        | some k => simp; omega
        | none => cases first <;> simp
    · simp only [Bool.not_eq_true] at h
      simp only [h, Bool.false_eq_true, if_false, Bool.false_and, ih]
      cases xs.findIdx? (fun x => x.name == name && x.valid) with
      | some k => simp; omega
      | none =>
        cases first with
        | some f => simp
        | none =>
          simp only [Option.map_none, Option.map_map]
          congr 1
          funext k
          simp; omega

theorem eqv_refl (d : MacroDefinition) : d.eqv d = true := by simp [MacroDefinition.eqv]

theorem eqv_iff (a b : MacroDefinition) : a.eqv b = true ↔ { a with valid := b.valid } = b := by
  cases a; cases b
  simp [MacroDefinition.eqv]
  grind

theorem position_spec {m : MacroDefinitions} {i : Nat} {d : MacroDefinition}
    (hd : m.data[i]? = some d)
    (hu : ∀ j x, j < i → m.data[j]? = some x → { x with valid := d.valid } ≠ d) :
    position m d = .ok (((m.data.take i).map (fun y => y.raw.length)).sum + d.preceding.length) := by
  have : index m.data d = some i := by
    unfold index
    rw [List.findIdx?_eq_some_iff_getElem]
    have hi : i < m.data.length := by
      rcases Nat.lt_or_ge i m.data.length with h | h
      · exact h
      · rw [List.getElem?_eq_none h] at hd; simp at hd
    refine ⟨hi, ?_, ?_⟩
    · rw [List.getElem?_eq_getElem hi] at hd
      rw [Option.some.inj hd]; exact eqv_refl d
    · intro j hj
      have := hu j _ hj (List.getElem?_eq_getElem (by omega))
      rw [Bool.not_eq_true, Bool.eq_false_iff, ne_eq, eqv_iff]
      exact this
  simp [position, this]

theorem length_flatten_raw (l : List MacroDefinition) :
    ((l.map MacroDefinition.raw).flatten).length = (l.map (fun y => y.raw.length)).sum := by
  induction l with
  | nil => rfl
  | cons x xs ih => simp [ih]

/-! ### any text -/

/-- the characters of the lines that are not whitespace -/
def inked (ls : List Str) : Str := ls.flatten.filter (fun c => !isSpace c)

theorem inked_append (a b : List Str) : inked (a ++ b) = inked a ++ inked b := by
  simp [inked]

theorem inked_cons (a : Str) (b : List Str) : inked (a :: b) = a.filter (fun c => !isSpace c) ++ inked b := by
  simp [inked]

theorem inked_splitC (s : Str) : inked (splitC '\n' s) = s.filter (fun c => !isSpace c) := by
  conv => rhs; rw [← joinC_splitC '\n' s]
  generalize splitC '\n' s = l
  induction l with
  | nil => simp [inked, joinC]
  | cons a l ih =>
    cases l with
    | nil => simp [inked, joinC]
    | cons b l =>
      rw [inked_cons, ih]
      simp only [joinC, List.filter_append, List.filter_cons]
      rw [if_neg (by decide)]

theorem inked_joinC (l : List Str) : (joinC '\n' l).filter (fun c => !isSpace c) = inked l := by
  induction l with
  | nil => simp [inked, joinC]
  | cons a l ih =>
    cases l with
    | nil => simp [inked, joinC]
    | cons b l =>
      rw [inked_cons, ← ih]
      simp only [joinC, List.filter_append, List.filter_cons]
      rw [if_neg (by decide)]

theorem build_inked [Uni] {line : Str} {t : St Nat} {valid : Bool}
    {buffer : List Str} {rest : List (Str × Bool)} (ht : rmatch mdRe line = some t)
    (hc : ¬ (s% "%dnl" <:+: line ∧ '#' ∈ line ∧ s% "%%" <:+: line)) :
    inked (build t valid buffer rest).1.raw =
      inked (buffer ++ line :: (rest.take (build t valid buffer rest).2).map (·.1)) := by
  obtain ⟨p, pline⟩ := mdRe_inv ht
  have hr : p.r.filter (fun c => !isSpace c) = [] := by
    rcases p.r_eq with h | h
    · simp [h]
    · rw [h]; decide
  have hhead := build_head p valid buffer rest (by
    rintro ⟨h1, h2, h3⟩
    have hd : p.dnl = s% "%dnl" := by
      rcases p.get2 with ⟨a, _⟩ | ⟨a, _⟩
      · exact absurd a h1
      · exact a
    apply hc
    refine ⟨⟨p.g1, p.g3 ++ p.g4 ++ p.g5 ++ p.g6 ++ p.g7 ++ p.g8 ++ p.g9 ++ p.r, ?_⟩, ?_, ?_⟩
    · rw [pline, hd]; simp
    · rw [pline]; simp [h2]
    · obtain ⟨z, hz⟩ := h3
      exact ⟨p.g1 ++ p.dnl ++ z, p.g4 ++ p.g5 ++ p.g6 ++ p.g7 ++ p.g8 ++ p.g9 ++ p.r, by
        rw [pline, ← hz]; simp⟩)
  obtain ⟨b, bs, hs, hraw⟩ := raw_eq (build t valid buffer rest).1
  obtain ⟨k1, k2, k3, k4⟩ := build_body t valid buffer rest
  have hsp := splitTrailing_spec (full t rest).1
  have hf := (full_spec t rest).2
  have hbw := body0_ws0 t
  rw [hraw, k3, inked_append, inked_append, inked_cons, inked_cons, hhead, List.filter_append,
    List.append_assoc, ← inked_cons, ← hs, inked_splitC, k1, k2]
  have h1 : ((splitTrailing (full t rest).1).1 ++ (splitTrailing (full t rest).1).2).filter
      (fun c => !isSpace c) = (full t rest).1.filter (fun c => !isSpace c) := by
    rcases hsp.2 with h | ⟨h, _⟩
    · rw [← h]
    · conv => rhs; rw [h, List.filter_append]
      rw [show List.filter (fun c => !isSpace c) ['\n'] = [] by decide, List.append_nil]
  rw [← List.append_assoc (splitTrailing (full t rest).1).1, List.filter_append (l₂ := ws0 t), h1, hf, inked_joinC,
    inked_cons, ← k4]
  have hl : line = (p.g1 ++ p.dnl ++ p.g3 ++ p.g4 ++ p.g5 ++ p.g6 ++ p.g7) ++ (body0 t ++ ws0 t) ++ p.r := by
    rw [hbw, p.get8, p.get9, pline]; simp
  conv => rhs; rw [hl]
  simp only [List.filter_append, hr, List.append_nil, List.append_assoc]
  -- whitespace at the end of the first line
  have hend : (ws0 t).filter (fun c => !isSpace c) = [] ∨ (build t valid buffer rest).2 = 0 := by
    by_cases hc : continues t = true
    · left
      by_cases h9 : (t.get 9).getD [] = ['\\']
      · simp [ws0, hc, h9]
      · simp only [ws0, hc, beq_false_of_ne h9, Bool.and_false, Bool.false_eq_true, if_false]
        rw [p.get9] at h9 ⊢
        rcases p.end9 with h | h
        · rw [List.filter_eq_nil_iff]
          rw [List.all_eq_true] at h
          intro c hcc
          simp [h c hcc]
        · exact absurd h h9
    · right; rw [k4]; simp [full, hc]
  rcases hend with h | h
  · simp [h]
  · simp [h, inked]

theorem parseLoop_inked [Uni] (ls : List (Str × Bool)) (buffer : List Str)
    (hc : ∀ l ∈ ls, ¬ (s% "%dnl" <:+: l.1 ∧ '#' ∈ l.1 ∧ s% "%%" <:+: l.1)) :
    inked (raw (parseLoop buffer 0 ls)) = inked (buffer ++ ls.map (·.1)) := by
  induction hn : ls.length using Nat.strongRecOn generalizing ls buffer with
  | ind n ih =>
    cases ls with
    | nil => simp [parseLoop, raw]
    | cons l ls =>
      simp only [parseLoop]
      split
      · rw [ih ls.length (by simp at hn; omega) ls _ (fun x hx => hc x (by simp [hx])) rfl]; simp
      · rename_i t ht
        have h2 := build_inked (valid := l.2) (buffer := buffer) (rest := ls) ht (hc l (by simp))
        rw [raw_cons, parseLoop_skip, inked_append, ih _ _ (ls.drop _) [] _ rfl, h2, ← inked_append]
        · simp only [List.nil_append, List.append_assoc, List.cons_append, List.map_cons]
          rw [← List.map_append, List.take_append_drop]
        · simp at hn ⊢; omega
        · intro x hx; exact hc x (by simp [List.mem_of_mem_drop hx])

end MacroDefinitions
end Specfile
