import Verif.Proof.Sources3
/-
Sources: insertion with a number.
-/
namespace Specfile.Sources
open Py Regex Spec

variable [Uni]

omit [Uni] in
theorem dist_lt_of {a b n : Nat} (h : a < b ∧ b ≤ n ∨ n ≤ b ∧ b < a) : dist b n < dist a n := by
  unfold dist
  split <;> split <;> omega

/-- the first one of the nearest -/
def Nearest (n : Nat) (l : List TagSource) (j : Nat) (x : TagSource) : Prop :=
  l[j]? = some x ∧ ∀ y ∈ l, dist (number x) n ≤ dist (number y) n

theorem nearestFrom_spec (n : Nat) (rest : List TagSource) : ∀ (pre : List TagSource) (j : Nat) (x : TagSource),
    Nearest n pre j x →
    ∃ j' x', nearestFrom n (j, x) pre.length rest = (j', x') ∧ Nearest n (pre ++ rest) j' x' := by
  induction rest with
  | nil => intro pre j x h; exact ⟨j, x, rfl, by rw [List.append_nil]; exact h⟩
  | cons y rest ih =>
    intro pre j x h
    have key : ∀ j1 x1, Nearest n (pre ++ [y]) j1 x1 → ∃ j' x', nearestFrom n (j1, x1) (pre.length + 1) rest = (j', x') ∧
        Nearest n (pre ++ y :: rest) j' x' := by
      intro j1 x1 h1
      have := ih (pre ++ [y]) j1 x1 h1
      rw [List.length_append, List.length_singleton] at this
      simpa using this
    rw [nearestFrom]
    have hj : j < pre.length := by
      have := h.1
      rw [List.getElem?_eq_some_iff] at this
      exact this.1
    by_cases hd : dist (number y) n < dist (number (j, x).2) n
    · rw [if_pos hd]
      apply key
      refine ⟨by simp, ?_⟩
      intro z hz
      rcases List.mem_append.1 hz with hz | hz
      · have := h.2 z hz; simp only at hd; omega
      · rw [List.mem_singleton.1 hz]; omega
    · rw [if_neg hd]
      apply key
      refine ⟨by rw [List.getElem?_append_left hj]; exact h.1, ?_⟩
      intro z hz
      rcases List.mem_append.1 hz with hz | hz
      · exact h.2 z hz
      · rw [List.mem_singleton.1 hz]; simp only at hd; omega

theorem getTags_numbers (s : Sources) : s.getTags.map number = numberEntries 0 (ents s.kind s.tags.data) :=
  (tagLoop_numbers s.kind 0 0 s.tags.data).1

omit [Uni] in
theorem nextOf_le {A : List (Option Nat)} {n : Nat} (h : ∀ m ∈ numberEntries 0 A, m < n) : nextOf 0 A ≤ n := by
  rw [← numberEntries_last]
  cases hl : (numberEntries 0 A).getLast? with
  | none => exact Nat.zero_le _
  | some m => exact h m (List.mem_of_getLast? hl)

omit [Uni] in
theorem filter_split {ns A B : List Nat} {n : Nat} (h : ns = A ++ B) (hA : ∀ m ∈ A, m < n) (hB : ∀ m ∈ B, n ≤ m) :
    ns.filter (fun m => decide (m < n)) = A ∧ ns.filter (fun m => decide (n ≤ m)) = B := by
  subst h
  rw [List.filter_append, List.filter_append]
  refine ⟨?_, ?_⟩
  · rw [List.filter_eq_self.2 (by simpa using hA), List.filter_eq_nil_iff.2 (by simpa using hB), List.append_nil]
  · rw [List.filter_eq_nil_iff.2 (by simpa using hA), List.filter_eq_self.2 (by simpa using hB), List.nil_append]

/-- the new source can be given a number: the nearest source has one in its name, or there is none and new sources
are numbered -/
def CanNumber (s : Sources) (n : Nat) : Prop :=
  (ents s.kind s.tags.data = [] → s.implicitDefault = false ∧ s.digits ≠ 0) ∧
  ∀ (k m : Nat) (e : Option Nat), (ents s.kind s.tags.data)[k]? = some e →
    (numberEntries 0 (ents s.kind s.tags.data))[k]? = some m →
    (∀ m' ∈ numberEntries 0 (ents s.kind s.tags.data), dist m n ≤ dist m' n) → e ≠ none

/-- a number is put at a position, with room made for it -/
def Room (ns : List Nat) (k p : Nat) (ns' : List Nat) : Prop :=
  ns' = ns.take k ++ p :: makeRoom p (ns.drop k) ∧ (∀ m ∈ ns.take k, m < p) ∧ (∀ m ∈ ns.drop k, p ≤ m)

/-- the conclusion about numbers -/
def NumberedAt (s s' : Sources) (n k : Nat) : Prop :=
  GoodM s.kind s.tags.data → Inc 0 (ents s.kind s.tags.data) →
    ∃ p, Room (numberEntries 0 (ents s.kind s.tags.data)) k p (numberEntries 0 (ents s.kind s'.tags.data)) ∧
      (CanNumber s n → p = n)

/-- the step after the place has been found -/
theorem numbered_step (s : Sources) {a b : List Tag} {new : Tag} {n : Nat} {e : Option Nat}
    (h : s.tags.data = a ++ b) (he : entryM s.kind new = some e) (hgood : GoodNames s.kind [new])
    (hnew : NewTag s.kind s a b n new) :
    ∃ tags tags', s.insertTag a.length new = ({ s with tags := tags }, none) ∧
      dedup { s with tags := tags } ((vals s.kind a).length : Nat) = ({ s with tags := tags' }, none) ∧
      TagInserted s { s with tags := tags' } a b n new ∧
      (∃ t, tags'.data[a.length]? = some t ∧ bare t = bare new) ∧
      ((GoodM s.kind s.tags.data → Inc 0 (ents s.kind s.tags.data) → (e = none ∧ ¬ CanNumber s n) ∨ (e = some n ∧
          (∀ m ∈ numberEntries 0 (ents s.kind a), m < n) ∧
          (∀ m ∈ numberEntries (nextOf 0 (ents s.kind a)) (ents s.kind b), n ≤ m))) →
        NumberedAt s { s with tags := tags' } n (vals s.kind a).length) := by
  have hlen : (vals s.kind s.tags.data).length = (vals s.kind a).length + (vals s.kind b).length := by
    rw [h, vals_append, List.length_append]
  obtain ⟨tags, tags', g1, g2, g3, g5, g6, g7, g4⟩ := insertTag_dedup s (start := ((vals s.kind a).length : Nat)) h he (by
    unfold clampBound; rw [if_pos (by omega)]; omega)
  refine ⟨tags, tags', g1, g2, ⟨h, ⟨_, rfl⟩, ⟨_, he⟩, g3, fun h => g5 (goodNames_cons.2 ⟨hgood, h⟩),
    fun h => g6 (goodNames_cons.2 ⟨hgood, h⟩), hnew⟩, g7 rfl, ?_⟩
  intro hyp hg hi
  have g4 := g4 rfl (by
    intro t' ht'
    rcases List.mem_cons.1 ht' with rfl | ht'
    · exact goodM_of hgood _ (List.mem_singleton.2 rfl)
    · exact hg _ ht')
  have hk : (numberEntries 0 (ents s.kind a)).length = (vals s.kind a).length := by
    rw [numberEntries_length, ents_length]
  have hyp := hyp hg hi
  rw [h, ents_append] at hi ⊢
  rw [numberEntries_append]
  have hbelow : ∀ m ∈ numberEntries 0 (ents s.kind a), m < nextOf 0 (ents s.kind a) := by
    intro m hm
    have hs := ((inc_iff 0 _).1 (inc_append.1 hi).1).1
    rw [← numberEntries_last]
    cases hl : (numberEntries 0 (ents s.kind a)).getLast? with
    | none => rw [List.getLast?_eq_none_iff] at hl; rw [hl] at hm; cases hm
    | some l =>
      simp only
      have : m ≤ l := by
        have hne : numberEntries 0 (ents s.kind a) ≠ [] := List.ne_nil_of_mem hm
        have e1 := List.dropLast_concat_getLast hne
        rw [List.getLast?_eq_some_getLast hne, Option.some.injEq] at hl
        rw [hl] at e1
        rw [← e1] at hm hs
        rcases List.mem_append.1 hm with hm | hm
        · exact Nat.le_of_lt ((List.pairwise_append.1 hs).2.2 m hm l (by simp))
        · rw [List.mem_singleton.1 hm]; exact Nat.le_refl _
      omega
  have habove : ∀ m ∈ numberEntries (nextOf 0 (ents s.kind a)) (ents s.kind b), nextOf 0 (ents s.kind a) ≤ m :=
    ((inc_iff _ _).1 (inc_append.1 hi).2).2
  refine ⟨entryNumber (nextOf 0 (ents s.kind a)) e, ⟨?_, ?_, ?_⟩, ?_⟩
  · rw [List.take_left' hk, List.drop_left' hk]
    simp only
    rw [g4]
    apply numbers_room hi rfl
    intro x B' hx
    rcases hyp with ⟨rfl, _⟩ | ⟨rfl, hA, hB⟩
    · cases x with
      | none => exact .inl ⟨rfl, rfl⟩
      | some m => exact .inr ⟨m, rfl, habove m (by rw [hx]; simp [numberEntries])⟩
    · rw [hx] at hB
      cases x with
      | none =>
        refine .inl ⟨rfl, ?_⟩
        have h1 := nextOf_le hA
        have h2 := hB (nextOf 0 (ents s.kind a)) (by simp [numberEntries])
        show n = _
        omega
      | some m => exact .inr ⟨m, rfl, hB m (by simp [numberEntries])⟩
  · rw [List.take_left' hk]
    rcases hyp with ⟨rfl, _⟩ | ⟨rfl, hA, hB⟩
    · exact hbelow
    · exact hA
  · rw [List.drop_left' hk]
    rcases hyp with ⟨rfl, _⟩ | ⟨rfl, hA, hB⟩
    · exact habove
    · exact hB
  · intro hc
    rcases hyp with ⟨rfl, hn⟩ | ⟨rfl, _⟩
    · exact absurd hc hn
    · rfl

theorem insertNumbered_spec (s : Sources) (n : Nat) (loc : Str) (hd : s.allowDuplicates = true ∨ loc ∉ s.locations) :
    ∃ s' k a b new, s.insertNumbered n loc = (s', .ok k) ∧ TagInserted s s' a b n new ∧ new.value = loc ∧
      (vals s.kind a).length = k ∧ (∃ t, s'.tags.data[a.length]? = some t ∧ bare t = bare new) ∧ NumberedAt s s' n k := by
  have hdup : (!s.allowDuplicates && s.contains loc) = false := by
    rcases hd with hd | hd
    · simp [hd]
    · simp [Sources.contains, hd]
  unfold insertNumbered
  rw [hdup]
  simp only [Bool.false_eq_true, if_false]
  cases hg : s.getTags with
  | nil =>
    simp only
    obtain ⟨h1, h2⟩ := initial_entry s n hg
    generalize hnew : newTag (s.initial n).2.1 loc (s.initial n).2.2 s.lastValid = new
    have hh := h2 new (by rw [← hnew]; rfl)
    have hsplit : s.tags.data = s.tags.data.take (s.initial n).1 ++ s.tags.data.drop (s.initial n).1 := by simp
    have hv : vals s.kind s.tags.data = [] := List.length_eq_zero_iff.1 (by rw [← getTags_length, hg]; rfl)
    have hva := hv
    rw [hsplit, vals_append, List.append_eq_nil_iff] at hva
    have hents : ∀ ts, vals s.kind ts = [] → ents s.kind ts = [] := by
      intro ts h; apply List.length_eq_zero_iff.1; rw [ents_length, h]; rfl
    obtain ⟨tags, tags', g1, g2, g3, g7, g4⟩ := numbered_step s (n := n) hsplit hh.1 hh.2
      (hnew ▸ initial_new s n loc hg)
    rw [List.length_take, Nat.min_eq_left h1] at g1
    rw [hva.1] at g2
    rw [g1]
    simp only
    have g2 : dedup { s with tags := tags } ((0 : Nat) : Int) = ({ s with tags := tags' }, none) := g2
    rw [g2]
    refine ⟨_, _, _, _, new, rfl, g3, by rw [← hnew]; rfl, by rw [hva.1]; rfl, g7, ?_⟩
    rw [hva.1] at g4
    apply g4
    intro _ _
    by_cases hdef : s.implicitDefault = true ∨ s.digits = 0
    · refine .inl ⟨by rw [if_pos hdef], ?_⟩
      intro hc
      obtain ⟨c1, c2⟩ := hc.1 (hents _ hv)
      rcases hdef with h | h
      · rw [c1] at h; cases h
      · exact c2 h
    · refine .inr ⟨by rw [if_neg hdef], ?_, ?_⟩
      · rw [hents _ hva.1]; simp [numberEntries]
      · rw [hents _ hva.2]; simp [numberEntries]
  | cons ts rest =>
    obtain ⟨j, x, e1, e2, e3⟩ := nearestFrom_spec n rest [ts] 0 ts ⟨rfl, by simp⟩
    rw [List.singleton_append, ← hg] at e2 e3
    have e1 : nearestFrom n (0, ts) 1 rest = (j, x) := e1
    simp only [e1]
    obtain ⟨a, t, b, e, h1, h2, h3, h4⟩ := tagLoop_get e2
    rw [Nat.zero_add] at h4
    generalize hoff : (if number x < n then 1 else 0) = off
    have hnum : number x = entryNumber (nextOf 0 (ents s.kind a)) e := by
      rw [h4, number_srcOf h2]; cases e <;> rfl
    obtain ⟨a', b', h', hlen, hvals, hA, hB⟩ : ∃ a' b', s.tags.data = a' ++ b' ∧ a'.length = a.length + off ∧
        (vals s.kind a').length = (vals s.kind a).length + off ∧
        (n ≤ number x → a' = a ∧ b' = t :: b) ∧ (number x < n → a' = a ++ [t] ∧ b' = b) := by
      by_cases hlt : number x < n
      · rw [if_pos hlt] at hoff
        subst hoff
        exact ⟨a ++ [t], b, by simp [h1], by simp, by rw [vals_append, vals_cons_some h2]; simp [vals],
          fun h => absurd h (by omega), fun _ => ⟨rfl, rfl⟩⟩
      · rw [if_neg hlt] at hoff
        subst hoff
        exact ⟨a, t :: b, h1, rfl, rfl, fun _ => ⟨rfl, rfl⟩, fun h => absurd h hlt⟩
    generalize hf : s.tagFormat x n none = f
    generalize hnew : newTag f.1 loc f.2 x.tag.valid = new
    have hname : new.name = (s.tagFormat (srcOf a.length (nextOf 0 (ents s.kind a)) t e) n none).1 := by
      rw [← h4, hf, ← hnew]; rfl
    obtain ⟨n1, n2, ⟨e', n3⟩, n4⟩ := tagFormat_near h1 h2 _ _ _ hname
    have hidx : x.idx + off = a'.length := by rw [hlen, h4]; rfl
    obtain ⟨tags, tags', g1, g2, g3, g7, g4⟩ := numbered_step s (n := n) h' n3 n4 (by
      have hne : Spec.sourceTags s.kind s.tags.data ≠ [] := sourceTags_ne h1 h2
      refine ⟨by rw [← hnew]; exact ⟨rfl, rfl, rfl⟩, fun _ => ⟨t, ?_, by rw [← entryM_isSome, h2]; rfl, ?_, ?_, ?_⟩,
        fun h => absurd h hne⟩
      · by_cases hx : number x < n
        · rw [(hB hx).1]; exact .inr (by simp)
        · rw [(hA (by omega)).2]; exact .inl rfl
      · intro hnl
        rw [hname, tagFormat_name h1 h2 hnl]
      · apply adjustSep_aligned
        rw [← hnew, ← hf, h4]
        rfl
      · rw [← hnew, h4]; rfl)
    rw [hidx, g1]
    simp only
    rw [show j + off = (vals s.kind a').length by omega, g2]
    refine ⟨_, _, _, _, new, rfl, g3, by rw [← hnew]; rfl, rfl, g7, g4 ?_⟩
    intro hgood hinc
    have hns : numberEntries 0 (ents s.kind s.tags.data) =
        numberEntries 0 (ents s.kind a) ++ number x :: numberEntries (number x + 1) (ents s.kind b) := by
      rw [h1, ents_append, ents_cons_some h2, numberEntries_append, hnum]
      congr 1
      cases e <;> rfl
    have hmin : ∀ m ∈ numberEntries 0 (ents s.kind s.tags.data), dist (number x) n ≤ dist m n := by
      intro m hm
      rw [← getTags_numbers] at hm
      obtain ⟨y, hy, rfl⟩ := List.mem_map.1 hm
      exact e3 y hy
    have hsort := ((inc_iff 0 _).1 hinc).1
    rw [hns] at hsort
    have hs1 := List.pairwise_append.1 hsort
    have hs2 := List.pairwise_cons.1 hs1.2.1
    have hlt : ∀ m ∈ numberEntries 0 (ents s.kind a), m < number x := fun m hm => hs1.2.2 m hm _ (by simp)
    have hgt : ∀ m ∈ numberEntries (number x + 1) (ents s.kind b), number x < m := fun m hm => hs2.1 m hm
    by_cases hen : e = none
    · refine .inl ⟨?_, ?_⟩
      · have := n1 hen
        rw [n3] at this
        simpa using this
      · intro hc
        refine hc.2 j (number x) e ?_ ?_ hmin hen
        · rw [h1, ents_append, ents_cons_some h2,
            List.getElem?_append_right (by rw [ents_length]; omega), ents_length, h3, Nat.sub_self]
          rfl
        · rw [← getTags_numbers, List.getElem?_map, e2]; rfl
    refine .inr ⟨?_, ?_, ?_⟩
    · cases e with
      | none => exact absurd rfl hen
      | some m =>
        have := n2 m rfl (hgood t (by rw [h1]; simp) m h2)
        rw [n3] at this
        simpa using this
    · intro m hm
      by_cases hx : number x < n
      · rw [(hB hx).1, ents_append, ents_cons_some h2, numberEntries_append] at hm
        rcases List.mem_append.1 hm with hm | hm
        · have := hlt m hm; omega
        · have : m = number x := by
            rw [hnum]; cases e <;> simpa [ents, numberEntries, entryNumber] using hm
          omega
      · rw [(hA (by omega)).1] at hm
        have h5 := hlt m hm
        have h6 := hmin m (by rw [hns]; exact List.mem_append_left _ hm)
        cases Nat.lt_or_ge m n with
        | inl h => exact h
        | inr h =>
          have := dist_lt_of (a := number x) (b := m) (n := n) (.inr ⟨h, h5⟩)
          omega
    · intro m hm
      by_cases hx : number x < n
      · rw [(hB hx).1, (hB hx).2, ents_append, ents_cons_some h2, nextOf_append] at hm
        have hm : m ∈ numberEntries (number x + 1) (ents s.kind b) := by
          rw [hnum]; cases e <;> exact hm
        have h5 := hgt m hm
        have h6 := hmin m (by rw [hns]; simp [hm])
        cases Nat.lt_or_ge m n with
        | inr h => exact h
        | inl h =>
          have := dist_lt_of (a := number x) (b := m) (n := n) (.inl ⟨h5, by omega⟩)
          omega
      · rw [(hA (by omega)).1, (hA (by omega)).2, ents_cons_some h2] at hm
        have hm : m ∈ number x :: numberEntries (number x + 1) (ents s.kind b) := by
          rw [hnum]; cases e <;> exact hm
        rcases List.mem_cons.1 hm with rfl | hm
        · omega
        · have := hgt m hm; omega

/-! ### after insertion -/

omit [Uni] in
theorem makeRoom_above (ns : List Nat) : ∀ p, (∀ n ∈ ns, p < n) → ns.Pairwise (· < ·) → makeRoom p ns = ns := by
  induction ns with
  | nil => intros; rfl
  | cons m ms ih =>
    intro p h hp
    have hp := List.pairwise_cons.1 hp
    have := h m (.head _)
    rw [makeRoom, if_neg (by omega), ih m hp.1 hp.2]

end Specfile.Sources
