import Verif.Proof.Changelog3
/-
Filtering a changelog.
-/
namespace Specfile.Changelog
open Py Spec

theorem nextIdx_of {test : ChangelogEntry → Except Err Bool} {g : ChangelogEntry → Bool} {l : List ChangelogEntry} {k : Nat}
    (h : ∀ e ∈ l, test e = .ok (g e)) :
    nextIdx test k l = .ok (if l.any g then some (k + (l.takeWhile (fun e => !g e)).length) else none) := by
  induction l generalizing k with
  | nil => rfl
  | cons e es ih =>
    unfold nextIdx
    rw [h e (by simp)]
    cases hg : g e with
    | true => simp [hg]
    | false =>
      simp only
      rw [ih (fun x hx => h x (by simp [hx]))]
      simp only [List.any_cons, hg, Bool.false_or, List.takeWhile_cons, Bool.not_false, if_true, List.length_cons]
      congr 1
      split
      · congr 1; omega
      · rfl

variable [Uni]

theorem parseEvr_some {s : Str} : ∃ v, parseEvr (some s) = .ok v ∧ ReadsAs s v := by
  unfold parseEvr ReadsAs
  cases h : Utils.evrFromString s with
  | ok v => exact ⟨v, by simp [h], .inl rfl⟩
  | error e =>
    have : e = .specfileException := by
      unfold Utils.evrFromString at h
      split at h
      · simpa using h.symm
      · simp at h
    subst this
    exact ⟨⟨0, s% "0", []⟩, by simp [h], .inr ⟨by simp, rfl⟩⟩

theorem readsAs_iff {s : Str} {v : EVR} : ReadsAs s v ↔ parseEvr (some s) = .ok v := by
  obtain ⟨v', h1, h2⟩ := parseEvr_some (s := s)
  rw [h1]
  constructor
  · intro h
    rcases h with h | ⟨h, rfl⟩ <;> rcases h2 with h2 | ⟨h2, rfl⟩
    · rw [h] at h2; simpa using h2.symm
    · exact absurd h (h2 _)
    · exact absurd h2 (h _)
    · rfl
  · intro h
    simp at h
    rw [← h]; exact h2

theorem testEvr_of {op : EVR → EVR → Bool} {bound : Str} {b v : EVR} {e : ChangelogEntry}
    (hn : '\n' ∉ e.header) (he : EntryEvr e v) (hb : ReadsAs bound b) : testEvr op bound e = .ok (op v b) := by
  obtain ⟨s, hs, hv⟩ := he
  unfold testEvr
  rw [(evr_iff hn).2 hs, readsAs_iff.1 hv, readsAs_iff.1 hb]

omit [Uni] in
theorem drop_any_iff {g : ChangelogEntry → Bool} {l : List ChangelogEntry} {p : Nat} :
    (l.take (p + 1)).any g = true ↔ l.any g = true ∧ (l.takeWhile (fun e => !g e)).length ≤ p := by
  induction l generalizing p with
  | nil => simp
  | cons e es ih =>
    cases hg : g e with
    | true => simp [hg]
    | false =>
      cases p with
      | zero => simp [hg]
      | succ p =>
        have := ih (p := p)
        simp only [List.take_succ_cons, List.any_cons, hg, Bool.false_or, this, List.takeWhile_cons, Bool.not_false,
          if_true, List.length_cons, Nat.add_le_add_iff_right]

omit [Uni] in
theorem take_any_iff {g : ChangelogEntry → Bool} {l : List ChangelogEntry} {p : Nat} (hp : p < l.length) :
    (l.drop p).any g = true ↔ l.any g = true ∧ p < l.length - (l.reverse.takeWhile (fun e => !g e)).length := by
  have h := drop_any_iff (g := g) (l := l.reverse) (p := l.length - p - 1)
  rw [List.take_reverse] at h
  have e1 : l.length - (l.length - p - 1 + 1) = p := by omega
  rw [e1] at h
  simp only [List.any_reverse] at h
  rw [h]
  have hl : (l.reverse.takeWhile (fun e => !g e)).length ≤ l.length := by
    have := (List.takeWhile_prefix (fun e => !g e) (l := l.reverse)).length_le
    simpa using this
  constructor
  · rintro ⟨a, b⟩; exact ⟨a, by omega⟩
  · rintro ⟨a, b⟩; exact ⟨a, by omega⟩

omit [Uni] in
theorem filter_range_eq {n i j : Nat} {k : Nat → Bool} (hk : ∀ p < n, k p = true ↔ i ≤ p ∧ p < j) (hj : j ≤ n) :
    (List.range n).filter k = List.range' i (j - i) := by
  have h1 : (List.range n).filter k = (List.range n).filter (fun p => decide (i ≤ p ∧ p < j)) := by
    apply List.filter_congr
    intro p hp
    have := hk p (List.mem_range.1 hp)
    cases hkp : k p <;> simp_all
  rw [h1]
  clear h1 hk
  by_cases hij : i ≤ j
  · have e : n = i + ((j - i) + (n - j)) := by omega
    rw [e, List.range_add, List.range_add, List.map_append, List.filter_append, List.filter_append]
    rw [List.filter_eq_nil_iff.2 (by intro p hp; simp at hp ⊢; omega)]
    rw [List.filter_eq_self.2 (by intro p hp; simp at hp ⊢; omega)]
    rw [List.filter_eq_nil_iff.2 (by intro p hp; simp at hp ⊢; omega)]
    rw [List.nil_append, List.append_nil, List.range'_eq_map_range]
  · rw [List.filter_eq_nil_iff.2 (by intro p hp; simp; omega)]
    have : j - i = 0 := by omega
    rw [this]
    rfl

omit [Uni] in
theorem filterMap_range' {α : Type} (l : List α) (i k : Nat) (h : i + k ≤ l.length) :
    (List.range' i k).filterMap (fun p => l[p]?) = (l.drop i).take k := by
  induction k generalizing i with
  | zero => simp
  | succ k ih =>
    rw [List.range'_succ, List.filterMap_cons]
    have : i < l.length := by omega
    rw [List.getElem?_eq_getElem this]
    simp only
    rw [ih (i + 1) (by omega), List.drop_eq_getElem_cons this, List.take_succ_cons]

omit [Uni] in
theorem kept_eq {lo hi : ChangelogEntry → Bool} {l : List ChangelogEntry} {i j : Nat}
    (hi1 : ∀ p < l.length, (l.take (p + 1)).any lo = true ↔ i ≤ p)
    (hj1 : ∀ p < l.length, (l.drop p).any hi = true ↔ p < j) : keptEntries lo hi l = (l.take j).drop i := by
  unfold keptEntries
  rw [filter_range_eq (i := i) (j := min j l.length) (k := keptAt lo hi l) ?_ (Nat.min_le_right _ _)]
  · by_cases hij : i ≤ min j l.length
    · rw [filterMap_range' _ _ _ (by omega)]
      have : l.take j = l.take (min j l.length) := by
        rcases Nat.le_total j l.length with h | h
        · rw [Nat.min_eq_left h]
        · rw [Nat.min_eq_right h, List.take_of_length_le h, List.take_of_length_le (Nat.le_refl _)]
      rw [this, List.drop_take]
    · have : min j l.length - i = 0 := by omega
      rw [this]
      simp
      omega
  · intro p hp
    unfold keptAt
    rw [Bool.and_eq_true, hi1 p hp, hj1 p hp]
    omega

/-- the lower bound as a test of one entry -/
def lowTest (lc : Utils.Label → Utils.Label → Int) (f : ChangelogEntry → EVR) : Option EVR → ChangelogEntry → Bool
  | none => fun _ => true
  | some b => fun e => Utils.EVR.ge lc (f e) b

def highTest (lc : Utils.Label → Utils.Label → Int) (f : ChangelogEntry → EVR) : Option EVR → ChangelogEntry → Bool
  | none => fun _ => true
  | some b => fun e => Utils.EVR.le lc (f e) b

/-- a bound and its meaning -/
def BoundReads (s : Option Str) (b : Option EVR) : Prop :=
  (s = none ∧ b = none) ∨ ∃ t v, s = some t ∧ b = some v ∧ ReadsAs t v

theorem filter_eq {lc : Utils.Label → Utils.Label → Int} {c : Changelog} {f : ChangelogEntry → EVR}
    {since until_ : Option Str} {lo hi : Option EVR}
    (hn : ∀ e ∈ c.data, '\n' ∉ e.header) (hf : ∀ e ∈ c.data, EntryEvr e (f e))
    (hlo : BoundReads since lo) (hhi : BoundReads until_ hi) :
    filter lc c since until_ = .ok ⟨keptEntries (lowTest lc f lo) (highTest lc f hi) c.data, c.predecessor⟩ := by
  have h1 : ∃ i, startIndex lc c since = .ok i ∧
      ∀ p < c.data.length, (c.data.take (p + 1)).any (lowTest lc f lo) = true ↔ i ≤ p := by
    rcases hlo with ⟨rfl, rfl⟩ | ⟨t, v, rfl, rfl, hr⟩
    · refine ⟨0, rfl, ?_⟩
      intro p hp
      simp only [lowTest, Nat.zero_le, iff_true, List.any_eq_true, and_true]
      cases hd : c.data with
      | nil => rw [hd] at hp; simp at hp
      | cons e es => exact ⟨e, by simp⟩
    · simp only [startIndex]
      rw [nextIdx_of (g := lowTest lc f (some v)) (fun e he => by
        rw [testEvr_of (hn e he) (hf e he) hr]; rfl)]
      by_cases ha : c.data.any (lowTest lc f (some v)) = true
      · rw [if_pos ha]
        refine ⟨_, rfl, ?_⟩
        intro p _
        rw [drop_any_iff, ha, Nat.zero_add]
        simp
      · rw [if_neg ha]
        refine ⟨_, rfl, ?_⟩
        intro p hp
        rw [drop_any_iff]
        constructor
        · rintro ⟨h, _⟩; exact absurd h ha
        · intro h; omega
  have h2 : ∃ j, endIndex lc c until_ = .ok j ∧
      ∀ p < c.data.length, (c.data.drop p).any (highTest lc f hi) = true ↔ p < j := by
    rcases hhi with ⟨rfl, rfl⟩ | ⟨t, v, rfl, rfl, hr⟩
    · refine ⟨_, rfl, ?_⟩
      intro p hp
      simp only [highTest, List.any_eq_true, and_true]
      refine iff_of_true ⟨c.data[p], ?_⟩ (by omega)
      rw [List.drop_eq_getElem_cons hp]
      exact List.mem_cons_self
    · simp only [endIndex]
      rw [nextIdx_of (g := highTest lc f (some v)) (fun e he => by
        rw [testEvr_of (hn e (by simpa using he)) (hf e (by simpa using he)) hr]; rfl)]
      rw [List.any_reverse]
      by_cases ha : c.data.any (highTest lc f (some v)) = true
      · rw [if_pos ha]
        refine ⟨_, rfl, ?_⟩
        intro p hp
        rw [take_any_iff hp, ha]
        have hlt : (c.data.reverse.takeWhile (fun e => !highTest lc f (some v) e)).length < c.data.length := by
          have h0 : (c.data.reverse.takeWhile (fun e => !highTest lc f (some v) e)).length ≤ c.data.length := by
            have := (List.takeWhile_prefix (fun e => !highTest lc f (some v) e) (l := c.data.reverse)).length_le
            simpa using this
          rcases Nat.lt_or_eq_of_le h0 with h | h
          · exact h
          · exfalso
            have hp := (List.takeWhile_prefix (fun e => !highTest lc f (some v) e) (l := c.data.reverse)).eq_of_length
              (by rw [h, List.length_reverse])
            rw [List.any_eq_true] at ha
            obtain ⟨e, he, hg⟩ := ha
            have : e ∈ c.data.reverse.takeWhile (fun e => !highTest lc f (some v) e) := by rw [hp]; simpa using he
            have := List.all_eq_true.mp List.all_takeWhile e this
            simp [hg] at this
        constructor
        · rintro ⟨_, h⟩; omega
        · intro h; exact ⟨rfl, by omega⟩
      · rw [if_neg ha]
        refine ⟨_, rfl, ?_⟩
        intro p hp
        rw [take_any_iff hp]
        constructor
        · rintro ⟨h, _⟩; exact absurd h ha
        · intro h; omega
  obtain ⟨i, ei, hi1⟩ := h1
  obtain ⟨j, ej, hj1⟩ := h2
  unfold filter
  rw [ei, ej]
  simp only
  rw [kept_eq hi1 hj1]

omit [Uni] in
/-- the errors of `filter` -/
theorem nextIdx_error {test : ChangelogEntry → Except Err Bool} {l : List ChangelogEntry} {k : Nat} {x : Err}
    (h : nextIdx test k l = .error x) : ∃ e ∈ l, test e = .error x := by
  induction l generalizing k with
  | nil => simp [nextIdx] at h
  | cons e es ih =>
    unfold nextIdx at h
    cases ht : test e with
    | error y => rw [ht] at h; simp at h; exact ⟨e, by simp, by rw [ht, h]⟩
    | ok b =>
      rw [ht] at h
      cases b with
      | true => simp at h
      | false =>
        simp only at h
        obtain ⟨e', he', h'⟩ := ih h
        exact ⟨e', by simp [he'], h'⟩

theorem testEvr_error {op : EVR → EVR → Bool} {bound : Str} {e : ChangelogEntry} {x : Err}
    (h : testEvr op bound e = .error x) : x = .typeError ∧ evr e.header = none := by
  unfold testEvr at h
  cases he : evr e.header with
  | none => rw [he] at h; simp [parseEvr] at h; exact ⟨h.symm, rfl⟩
  | some s =>
    rw [he] at h
    obtain ⟨v, hv, _⟩ := parseEvr_some (s := s)
    obtain ⟨w, hw, _⟩ := parseEvr_some (s := bound)
    rw [hv, hw] at h
    simp at h

theorem filter_error {lc : Utils.Label → Utils.Label → Int} {c : Changelog} {since until_ : Option Str} {x : Err}
    (h : filter lc c since until_ = .error x) : x = .typeError ∧ ∃ e ∈ c.data, evr e.header = none := by
  unfold filter at h
  split at h
  · rename_i y hs
    simp at h; subst h
    unfold startIndex at hs
    split at hs
    · simp at hs
    · split at hs <;> simp at hs
      rename_i s z hz
      subst hs
      obtain ⟨e, he, ht⟩ := nextIdx_error hz
      exact ⟨(testEvr_error ht).1, e, he, (testEvr_error ht).2⟩
  · split at h
    · rename_i y hs
      simp at h; subst h
      unfold endIndex at hs
      split at hs
      · simp at hs
      · split at hs <;> simp at hs
        rename_i s z hz
        subst hs
        obtain ⟨e, he, ht⟩ := nextIdx_error hz
        exact ⟨(testEvr_error ht).1, e, by simpa using he, (testEvr_error ht).2⟩
    · simp at h

end Specfile.Changelog
