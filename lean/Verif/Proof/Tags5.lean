import Verif.Proof.Tags4
import Verif.Proof.Find
/-
Edits of tags.
-/
namespace Specfile.Tags
open Py Regex Spec

theorem tagRaw_eq (t : Tag) : tagRaw t = t.comments.preceding ++ ownLines t := by
  simp [tagRaw, ownLines, Comments.raw, tagLines, tagText]

theorem without_nil (i : Nat) (ts : List Tag) : tagLinesWithout [] i ts = (ts.map tagRaw).flatten := by
  induction ts generalizing i with
  | nil => rfl
  | cons t ts ih => simp [tagLinesWithout, ih, tagRaw_eq]

theorem raw_without (m : Tags) : raw m = tagLinesWithout [] 0 m.data ++ m.remainder := by
  rw [without_nil]; rfl

theorem without_append (is : List Nat) (i : Nat) (a b : List Tag) :
    tagLinesWithout is i (a ++ b) = tagLinesWithout is i a ++ tagLinesWithout is (i + a.length) b := by
  induction a generalizing i with
  | nil => simp [tagLinesWithout]
  | cons d ds ih =>
    simp only [List.cons_append, tagLinesWithout, ih, List.append_assoc, List.length_cons]
    rw [show i + 1 + ds.length = i + (ds.length + 1) by omega]

theorem without_none {is : List Nat} {i : Nat} {ts : List Tag} (h : ∀ k ∈ is, ¬ (i ≤ k ∧ k < i + ts.length)) :
    tagLinesWithout is i ts = (ts.map tagRaw).flatten := by
  induction ts generalizing i with
  | nil => rfl
  | cons t ts ih =>
    simp only [tagLinesWithout, List.map_cons, List.flatten_cons]
    rw [if_neg (fun hi => h i hi (by simp)), ih (fun k hk hx => h k hk (by simp; omega)), tagRaw_eq]

theorem dropWhile_empty (l : List Str) : ∃ n, l = List.replicate n [] ++ l.dropWhile (·.isEmpty) := by
  induction l with
  | nil => exact ⟨0, rfl⟩
  | cons x xs ih =>
    cases x with
    | nil =>
      obtain ⟨n, hn⟩ := ih
      refine ⟨n + 1, ?_⟩
      conv => lhs; rw [hn]
      simp [List.replicate_succ]
    | cons c cs => exact ⟨0, by simp⟩

theorem head_dropWhile (l : List Str) : (l.dropWhile (·.isEmpty)).head? ≠ some [] := by
  induction l with
  | nil => simp
  | cons x xs ih => cases x with
    | nil => simpa using ih
    | cons c cs => simp

theorem seam_compress (a b : List Str) : Seam a b (compress a b) := by
  obtain ⟨m, hm⟩ := dropWhile_empty a.reverse
  obtain ⟨n, hn⟩ := dropWhile_empty b
  have hm' : a = (a.reverse.dropWhile (·.isEmpty)).reverse ++ List.replicate m [] := by
    have := congrArg List.reverse hm
    rwa [List.reverse_reverse, List.reverse_append, List.reverse_replicate] at this
  have hl : (a.reverse.dropWhile (·.isEmpty)).reverse.getLast? ≠ some [] := by
    rw [List.getLast?_reverse]; exact head_dropWhile _
  have hh := head_dropWhile b
  refine ⟨_, m, n, _, hm', hn, hl, hh, ?_⟩
  unfold compress
  congr 2
  have e1 : (!a.isEmpty && a.getLast? == some []) = decide (m ≠ 0) := by
    cases m with
    | zero =>
      simp only [List.replicate_zero, List.append_nil] at hm'
      rw [← hm'] at hl
      simp [hl]
    | succ m =>
      rw [hm', List.replicate_succ']
      simp [← List.append_assoc]
  have e2 : (!b.isEmpty && b.head? == some []) = decide (n ≠ 0) := by
    cases n with
    | zero =>
      simp only [List.replicate_zero, List.nil_append] at hn
      rw [← hn] at hh
      simp [hh]
    | succ n =>
      rw [hn, List.replicate_succ]
      simp
  rw [e1, e2]
  by_cases h1 : m = 0 <;> by_cases h2 : n = 0 <;> simp [h1, h2]

theorem nonEmpty_append (a b : List Str) : nonEmpty (a ++ b) = nonEmpty a ++ nonEmpty b := by simp [nonEmpty]

theorem seam_nonEmpty {a b c : List Str} (h : Seam a b c) : nonEmpty c = nonEmpty a ++ nonEmpty b := by
  obtain ⟨x, m, n, y, rfl, rfl, _, _, rfl⟩ := h
  have hr : ∀ n, nonEmpty (List.replicate n []) = [] := by
    intro n; simp [nonEmpty]
  simp only [nonEmpty_append, hr]
  split <;> simp [nonEmpty]

theorem delItem_last (xs : List Tag) (t : Tag) (r : List Str) :
    delItem ⟨xs ++ [t], r⟩ (xs.length : Int) = (⟨xs, compress t.comments.preceding r⟩, none) := by
  unfold delItem
  simp only [List.length_append, List.length_cons, List.length_nil]
  rw [pyIndex_ofNat (by omega)]
  have he : (xs ++ [t]).eraseIdx xs.length = xs := by
    rw [List.eraseIdx_append_of_length_le (Nat.le_refl _)]; simp
  simp [he]

theorem modify_append {α : Type} (xs : List α) (y : α) (ys : List α) (f : α → α) :
    (xs ++ y :: ys).modify xs.length f = xs ++ f y :: ys := by
  induction xs with
  | nil => rfl
  | cons x xs ih => simp [ih]

theorem starts_iff {s p : Str} : startsWith s p = true ↔ p <+: s := List.isPrefixOf_iff_prefix

theorem drop_two (A B C : List Str) : (A ++ (B ++ C)).drop (A.length + B.length) = C := by
  rw [← List.append_assoc, ← List.length_append, List.drop_left]

theorem delItem_mid (xs : List Tag) (t y : Tag) (ys : List Tag) (r : List Str) :
    delItem ⟨xs ++ t :: y :: ys, r⟩ (xs.length : Int) =
      (⟨xs ++ { y with comments := { y.comments with preceding := compress t.comments.preceding y.comments.preceding } } :: ys, r⟩, none) := by
  unfold delItem
  simp only [List.length_append, List.length_cons]
  rw [pyIndex_ofNat (by omega)]
  have he : (xs ++ t :: y :: ys).eraseIdx xs.length = xs ++ y :: ys := by
    rw [List.eraseIdx_append_of_length_le (Nat.le_refl _)]; simp
  simp only [he, List.length_append, List.length_cons]
  rw [if_pos (by omega), pyIndex_ofNat (by omega)]
  simp only [List.getElem?_append_right (Nat.le_refl _), Nat.sub_self, List.getElem?_cons_zero, Option.map_some,
    Option.getD_some]
  congr 2
  rw [modify_append]

theorem split_at {α : Type} {l : List α} {k : Nat} {x : α} (h : l[k]? = some x) :
    l = l.take k ++ x :: l.drop (k + 1) ∧ (l.take k).length = k := by
  obtain ⟨hk, rfl⟩ := List.getElem?_eq_some_iff.1 h
  refine ⟨?_, by simp; omega⟩
  rw [List.getElem_cons_drop, List.take_append_drop]

/-- what deletion of the tag with index `k` does -/
theorem delItem_nat {m : Tags} {k : Nat} {t : Tag} (h : m.data[k]? = some t) :
    ∃ m' out, delItem m k = (m', none) ∧ Seam t.comments.preceding (linesAt m (k + 1)) out ∧
      m'.data.take k = m.data.take k ∧ linesAt m' k = out ∧
      m'.data.map bare = (m.data.eraseIdx k).map bare ∧
      (∀ j < k, linesAt m' j = linesAt m j) ∧ (∀ j, k < j → j < m.data.length → linesAt m' j = linesAt m (j + 1)) ∧
      raw m' = tagLinesWithout [] 0 (m.data.take k) ++ out ++
        (raw m).drop ((tagLinesWithout [] 0 (m.data.take (k + 1))).length + (linesAt m (k + 1)).length) := by
  obtain ⟨data, r⟩ := m
  simp only at h
  obtain ⟨e, hl⟩ := split_at h
  generalize data.take k = xs at *
  generalize hys : data.drop (k + 1) = ys at *
  subst e
  subst hl
  have ht1 : (xs ++ t :: ys).take (xs.length + 1) = xs ++ [t] := by
    rw [show xs.length + 1 = (xs ++ [t]).length by simp, show xs ++ t :: ys = (xs ++ [t]) ++ ys by simp, List.take_left]
  cases ys with
  | nil =>
    refine ⟨_, compress t.comments.preceding r, delItem_last xs t r, ?_, ?_, ?_, ?_, ?_, ?_, ?_⟩
    · simpa [linesAt] using seam_compress t.comments.preceding r
    · simp
    · simp [linesAt]
    · rw [List.eraseIdx_append_of_length_le (Nat.le_refl _)]; simp
    · intro j hj
      simp [linesAt, List.getElem?_append_left hj, List.getElem?_eq_getElem hj]
    · intro j h1 h2
      simp at h2; omega
    · have : linesAt ⟨xs ++ [t], r⟩ (xs.length + 1) = r := by simp [linesAt]
      rw [this, raw_without ⟨xs ++ [t], r⟩, raw_without]
      simp only
      rw [ht1, List.drop_eq_nil_of_le (by simp)]
      simp
  | cons y ys =>
    refine ⟨_, compress t.comments.preceding y.comments.preceding, delItem_mid xs t y ys r, ?_, ?_, ?_, ?_, ?_, ?_, ?_⟩
    · simpa [linesAt, List.getElem?_append_right] using seam_compress t.comments.preceding y.comments.preceding
    · simp
    · simp [linesAt]
    · rw [List.eraseIdx_append_of_length_le (Nat.le_refl _)]
      simp [bare]
    · intro j hj
      simp [linesAt, List.getElem?_append_left hj, List.getElem?_eq_getElem hj]
    · intro j h1 h2
      obtain ⟨i, rfl⟩ : ∃ i, j = xs.length + (i + 1) := ⟨j - xs.length - 1, by omega⟩
      have e1 : xs.length + (i + 1) + 1 = xs.length + (i + 2) := by omega
      simp only [linesAt, e1, List.getElem?_append_right (Nat.le_add_right _ _), Nat.add_sub_cancel_left,
        List.getElem?_cons_succ]
    · have : linesAt ⟨xs ++ t :: y :: ys, r⟩ (xs.length + 1) = y.comments.preceding := by
        simp [linesAt]
      rw [this, ht1, raw_without ⟨xs ++ t :: y :: ys, r⟩, raw_without]
      simp only
      have e1 : tagLinesWithout [] 0 (xs ++ t :: y :: ys) ++ r = tagLinesWithout [] 0 (xs ++ [t]) ++
          (y.comments.preceding ++ (ownLines y ++ ((ys.map tagRaw).flatten ++ r))) := by
        simp [without_nil, tagRaw_eq]
      rw [e1, drop_two]
      simp [without_nil, tagRaw_eq, ownLines, tagLines]

theorem delItem_raw {m : Tags} {k : Nat} {t : Tag} (h : m.data[k]? = some t) :
    nonEmpty (raw (delItem m k).1) = nonEmpty (tagLinesWithout [k] 0 m.data ++ m.remainder) ∧
    (delItem m k).1.data.take k = m.data.take k ∧ (delItem m k).1.data.length = m.data.length - 1 := by
  obtain ⟨m', out, h1, h2, h3, h4, h5, _, _, h6⟩ := delItem_nat h
  rw [h1]
  refine ⟨?_, h3, ?_⟩
  · simp only
    rw [h6, nonEmpty_append, nonEmpty_append, seam_nonEmpty h2]
    obtain ⟨e, hl⟩ := split_at h
    obtain ⟨hk, _⟩ := List.getElem?_eq_some_iff.1 h
    have e1 : tagLinesWithout [k] 0 (m.data.take k) = tagLinesWithout [] 0 (m.data.take k) := by
      rw [without_none (by simp; omega), without_nil]
    have e2 : ∀ i, k < i → ∀ ts, tagLinesWithout [k] i ts = tagLinesWithout [] i ts := by
      intro i hi ts
      rw [without_none (by simp; omega), without_nil]
    have e3 : tagLinesWithout [k] 0 m.data = tagLinesWithout [] 0 (m.data.take k) ++ (t.comments.preceding ++
        tagLinesWithout [] (k + 1) (m.data.drop (k + 1))) := by
      conv => lhs; rw [e]
      rw [without_append, e1, hl]
      simp only [tagLinesWithout, Nat.zero_add, List.mem_singleton, if_true, List.append_nil]
      rw [e2 _ (by omega)]
    have e4 : raw m = tagLinesWithout [] 0 (m.data.take (k + 1)) ++
        (tagLinesWithout [] (k + 1) (m.data.drop (k + 1)) ++ m.remainder) := by
      rw [raw_without]
      conv => lhs; rw [← List.take_append_drop (k + 1) m.data]
      rw [without_append, List.length_take, Nat.min_eq_left (by omega), Nat.zero_add, List.append_assoc]
    have e5 : ∃ z, tagLinesWithout [] (k + 1) (m.data.drop (k + 1)) ++ m.remainder = linesAt m (k + 1) ++ z := by
      unfold linesAt
      cases hd : m.data[k + 1]? with
      | none =>
        have : m.data.drop (k + 1) = [] := by
          rw [List.drop_eq_nil_iff]
          exact List.getElem?_eq_none_iff.1 hd
        rw [this]
        exact ⟨[], by simp [tagLinesWithout]⟩
      | some y =>
        obtain ⟨ey, _⟩ := List.getElem?_eq_some_iff.1 hd
        rw [List.drop_eq_getElem_cons ey]
        simp only [tagLinesWithout]
        rw [List.getElem?_eq_getElem ey] at hd
        cases hd
        simp only [List.append_assoc]
        exact ⟨_, rfl⟩
    obtain ⟨z, hz⟩ := e5
    have e6 : (raw m).drop ((tagLinesWithout [] 0 (m.data.take (k + 1))).length + (linesAt m (k + 1)).length) = z := by
      rw [e4, hz, ← List.append_assoc, ← List.length_append, List.drop_left]
    rw [e6, e3]
    simp only [List.append_assoc]
    rw [hz]
    simp only [nonEmpty_append]
  · have := congrArg List.length h5
    simp only [List.length_map] at this
    obtain ⟨hk, _⟩ := List.getElem?_eq_some_iff.1 h
    rw [this, List.length_eraseIdx, if_pos hk]

theorem without_cons_lt {i : Nat} {is : List Nat} {a : Nat} {ts : List Tag} (h : a + ts.length ≤ i) :
    tagLinesWithout (i :: is) a ts = tagLinesWithout is a ts := by
  induction ts generalizing a with
  | nil => rfl
  | cons t ts ih =>
    simp only [List.length_cons] at h
    simp only [tagLinesWithout, List.mem_cons, ih (a := a + 1) (by omega)]
    have : ¬ a = i := by omega
    simp [this]

theorem delAll_spec (is : List Nat) : ∀ {m : Tags} {n : Nat}, n ≤ m.data.length →
    List.Pairwise (· > ·) is → (∀ i ∈ is, i < n) →
    (delAll m is).2 = none ∧
    nonEmpty (raw (delAll m is).1) = nonEmpty (tagLinesWithout is 0 m.data ++ m.remainder) := by
  induction is with
  | nil => intro m n _ _ _; exact ⟨rfl, by rw [← raw_without]; rfl⟩
  | cons i is ih =>
    intro m n hn hp hi
    have him : i < m.data.length := by have := hi i (by simp); omega
    have hd := List.getElem?_eq_getElem him
    obtain ⟨e2, t1, t2⟩ := delItem_raw hd
    obtain ⟨_, _, e1, _⟩ := delItem_nat hd
    rw [List.pairwise_cons] at hp
    unfold delAll
    cases h : delItem m i with
    | mk m' e =>
      rw [h] at e1 e2 t1 t2
      simp only [Prod.mk.injEq] at e1 e2 t1 t2
      obtain ⟨_, rfl⟩ := e1
      simp only
      obtain ⟨r1, r2⟩ := ih (m := m') (n := i) (by rw [t2]; omega) hp.2 hp.1
      refine ⟨r1, ?_⟩
      rw [r2]
      have hsplit' : m'.data = m.data.take i ++ m'.data.drop i := by
        rw [← t1, List.take_append_drop]
      have hlt : (m.data.take i).length = i := by simp; omega
      have h1 : tagLinesWithout is 0 m'.data = tagLinesWithout is 0 (m.data.take i) ++
          tagLinesWithout [] i (m'.data.drop i) := by
        conv => lhs; rw [hsplit']
        rw [without_append, hlt, Nat.zero_add]
        congr 1
        rw [without_none (fun k hk => by have := hp.1 k hk; omega), without_nil]
      have h2 : tagLinesWithout (i :: is) 0 m.data = tagLinesWithout is 0 (m.data.take i) ++
          tagLinesWithout [i] i (m.data.drop i) := by
        conv => lhs; rw [← List.take_append_drop i m.data]
        rw [without_append, hlt, Nat.zero_add, without_cons_lt (by omega)]
        congr 1
        rw [List.drop_eq_getElem_cons him]
        simp only [tagLinesWithout, List.mem_cons, true_or, if_true, List.not_mem_nil, or_false]
        rw [without_none (fun k hk => by
          simp only [List.mem_cons] at hk
          rcases hk with rfl | hk
          · omega
          · have := hp.1 k hk; omega), without_none (by simp; omega)]
      have h3 : raw m' = tagLinesWithout [] 0 (m.data.take i) ++
          (tagLinesWithout [] i (m'.data.drop i) ++ m'.remainder) := by
        rw [raw_without]
        conv => lhs; rw [hsplit']
        rw [without_append, hlt, Nat.zero_add, List.append_assoc]
      have h4 : tagLinesWithout [i] 0 m.data = tagLinesWithout [] 0 (m.data.take i) ++
          tagLinesWithout [i] i (m.data.drop i) := by
        conv => lhs; rw [← List.take_append_drop i m.data]
        rw [without_append, hlt, Nat.zero_add, without_cons_lt (by omega)]
      rw [h3, h4] at e2
      simp only [List.append_assoc, nonEmpty_append] at e2
      have e2 := List.append_cancel_left e2
      rw [h1, h2]
      simp only [List.append_assoc, nonEmpty_append]
      rw [e2]

/-! ### insertion -/

theorem splitEndif_spec (ls : List Str) : (splitEndif ls).1 ++ (splitEndif ls).2 = ls ∧
    (((splitEndif ls).1 = [] ∧ ∀ l ∈ ls, ¬ s% "%endif" <+: l) ∨
     ∃ g e, (splitEndif ls).1 = g ++ [e] ∧ s% "%endif" <+: e ∧ ∀ l ∈ g, ¬ s% "%endif" <+: l) := by
  unfold splitEndif
  cases h : ls.findIdx? (fun l => startsWith l (s% "%endif")) with
  | none =>
    refine ⟨rfl, .inl ⟨rfl, ?_⟩⟩
    intro l hl
    have := List.findIdx?_eq_none_iff.1 h l hl
    intro hp
    rw [starts_iff.2 hp] at this
    simp at this
  | some k =>
    obtain ⟨d, hd, h1, h2⟩ := (Find.findIdx_iff _ _ _).1 h
    refine ⟨List.take_append_drop _ _, .inr ⟨ls.take k, d, ?_, ?_, ?_⟩⟩
    · obtain ⟨hk, rfl⟩ := List.getElem?_eq_some_iff.1 hd
      simp only [List.take_append_getElem]
    · exact starts_iff.1 h1
    · intro l hl hp
      obtain ⟨j, hj⟩ := List.getElem?_of_mem hl
      rw [List.getElem?_take] at hj
      split at hj
      · rename_i hlt
        have := h2 j l hlt hj
        rw [starts_iff.2 hp] at this
        simp at this
      · simp at hj

theorem prependTo_raw (t : Tag) (ls : List Str) : tagRaw (prependTo t ls) = ls ++ tagRaw t := by
  simp [tagRaw, prependTo, Comments.raw, tagText]

theorem prependTo_bare (t : Tag) (ls : List Str) : bare (prependTo t ls) = bare t := rfl

theorem insert_nat {m : Tags} {i : Int} {item : Tag} (h : -(m.data.length : Int) ≤ i) :
    ∃ k, k = insertPos m.data.length i ∧ (insert m i item).2 = none ∧
      (insert m i item).1.data.map bare = (m.data.take k ++ item :: m.data.drop k).map bare ∧
      raw (insert m i item).1 = tagLinesWithout [] 0 (m.data.take k) ++ (splitEndif (linesAt m k)).1 ++ tagRaw item ++
        (splitEndif (linesAt m k)).2 ++ (raw m).drop ((tagLinesWithout [] 0 (m.data.take k)).length + (linesAt m k).length) := by
  refine ⟨_, rfl, ?_⟩
  obtain ⟨data, r⟩ := m
  simp only at h
  unfold insert
  simp only
  by_cases hi : i < data.length
  · rw [if_pos hi]
    have hp : pyIndex data.length i = some (insertPos data.length i) ∧ insertPos data.length i < data.length := by
      unfold pyIndex insertPos
      split
      · rw [if_pos (by omega)]
        refine ⟨?_, by omega⟩
        congr 1; omega
      · rw [if_pos (by omega)]
        exact ⟨rfl, by omega⟩
    rw [hp.1]
    generalize insertPos data.length i = k at hp
    have hd := List.getElem?_eq_getElem hp.2
    obtain ⟨e, hl⟩ := split_at hd
    have hla : linesAt ⟨data, r⟩ k = data[k].comments.preceding := by simp [linesAt, hd]
    simp only [hd, Option.map_some, Option.getD_some]
    refine ⟨trivial, ?_, ?_⟩
    · simp only [List.map_append, List.map_cons, prependTo_bare]
      congr 2
      rw [List.drop_eq_getElem_cons hp.2]
      rfl
    · rw [hla, raw_without, raw_without ⟨data, r⟩]
      simp only
      have e1 : tagLinesWithout [] 0 data = tagLinesWithout [] 0 (data.take k) ++ (data[k].comments.preceding ++
          (ownLines data[k] ++ tagLinesWithout [] 0 (data.drop (k + 1)))) := by
        conv => lhs; rw [e]
        rw [without_append]
        simp [tagLinesWithout, without_nil]
      rw [e1]
      have e2 : tagLinesWithout [] 0 (data.take k) ++ (data[k].comments.preceding ++
          (ownLines data[k] ++ tagLinesWithout [] 0 (data.drop (k + 1)))) ++ r = tagLinesWithout [] 0 (data.take k) ++
          (data[k].comments.preceding ++ (ownLines data[k] ++ tagLinesWithout [] 0 (data.drop (k + 1)) ++ r)) := by simp
      rw [e2, drop_two, without_append, List.drop_eq_getElem_cons hp.2]
      simp only [without_nil, List.map_cons, List.modify_zero_cons, List.flatten_cons, tagRaw_eq,
        List.append_assoc]
      simp [prependTo, ownLines, tagLines]
  · rw [if_neg hi]
    have hk : insertPos data.length i = data.length := by
      unfold insertPos
      rw [if_pos (by omega)]
      omega
    rw [hk]
    have hla : linesAt ⟨data, r⟩ data.length = r := by simp [linesAt]
    refine ⟨rfl, ?_, ?_⟩
    · simp [prependTo_bare]
    · simp only [hla, raw_without]
      rw [List.take_length, ← List.length_append, List.drop_length, without_append]
      simp [without_nil, prependTo_raw]

/-! ### lookup -/

theorem findLoop_eq [Uni] (name : Str) (i : Nat) (first : Option Nat) (l : List Tag) :
    findLoop name i first l =
      Find.loop (fun t => Uni.capitalize t.name == Uni.capitalize name) (·.valid) i first l := by
  induction l generalizing i first with
  | nil => rfl
  | cons x xs ih => simp [findLoop, Find.loop, ih]

theorem findPosLoop_eq [Uni] (m : Tags) (name : Str) (p i : Nat) (l : List Tag) :
    findPosLoop m name p i l =
      Find.posLoop (fun t => Uni.capitalize t.name == Uni.capitalize name) m.position p i l := by
  induction l generalizing i with
  | nil => rfl
  | cons x xs ih =>
    unfold findPosLoop Find.posLoop
    rw [ih]
    split
    · cases m.position x <;> rfl
    · rfl

theorem eqv_iff (a b : Tag) : eqv a b = true ↔
    { a with valid := b.valid, comments := { a.comments with preceding := b.comments.preceding } } = b := by
  obtain ⟨n, v, s, ⟨c, p⟩, va, px, sx⟩ := a
  obtain ⟨n', v', s', ⟨c', p'⟩, va', px', sx'⟩ := b
  simp only [eqv, Comments.eqv, Bool.and_eq_true, beq_iff_eq, Tag.mk.injEq, Comments.mk.injEq]
  constructor
  · rintro ⟨⟨⟨⟨⟨h1, h2⟩, h3⟩, h4⟩, h5⟩, h6⟩
    exact ⟨h1, h2, h3, ⟨h4, trivial⟩, trivial, h5, h6⟩
  · rintro ⟨h1, h2, h3, ⟨h4, _⟩, _, h5, h6⟩
    exact ⟨⟨⟨⟨⟨h1, h2⟩, h3⟩, h4⟩, h5⟩, h6⟩

theorem position_spec {m : Tags} (hm : DistinctTags m) {k : Nat} {t : Tag} (h : m.data[k]? = some t) :
    position m t = .ok (((m.data.take k).map (fun y => y.comments.raw.length + 1)).sum + t.comments.raw.length) := by
  have : index m.data t = some k := by
    unfold index
    rw [Find.findIdx_iff]
    refine ⟨t, h, (eqv_iff t t).2 rfl, ?_⟩
    intro j x hj hx
    have := hm j k x t hj hx h
    rw [← Bool.not_eq_true, eqv_iff]
    exact this
  simp [position, this]

theorem sum_single {ts : List Tag} (h : ∀ t ∈ ts, '\n' ∉ tagText t) (i : Nat) :
    (ts.map (fun y => y.comments.raw.length + 1)).sum = (tagLinesWithout [] i ts).length := by
  rw [without_nil]
  induction ts with
  | nil => rfl
  | cons t ts ih =>
    simp only [List.map_cons, List.sum_cons, List.flatten_cons, List.length_append]
    rw [ih (fun x hx => h x (by simp [hx])), tagRaw, splitC_of_not_mem (h t (by simp))]
    simp

end Specfile.Tags
