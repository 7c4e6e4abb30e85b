import Verif.Proof.Slices
import Verif.Props.ListMethods
/-
C95: slices, sums, products and copies of containers.
-/
namespace Specfile.Props
open Py Spec ListMethods Slices

/-- C95: what the constructors and slices of the containers keep. -/
theorem C95_containers [Uni] : BuiltFrom changelogLayout ∧ BuiltFrom definitionsLayout ∧ BuiltFrom prepLayout ∧
    BuiltFrom sectionsLayout ∧ BuiltFrom sourcelistLayout ∧ BuiltFrom tagsLayout ∧ BuiltFrom commentsLayout := by
  refine ⟨?_, ?_, ?_, ?_, ?_, ?_, ?_⟩ <;>
    exact ⟨fun _ => rfl, fun _ => rfl, fun _ => rfl, fun _ _ => rfl, fun _ _ => ⟨rfl, rfl⟩⟩

/-- C95: which positions a slice denotes, for every length, all bounds and every step; only the step 0 is an error. -/
theorem C95_positions (n : Nat) (start stop step : Option Int) :
    (∀ ks, sliceIndices n start stop step = .ok ks ↔ Denotes n start stop step ks) ∧
    (step.getD 1 ≠ 0 → ∃ ks, Denotes n start stop step ks ∧ ks.Nodup ∧ ∀ k ∈ ks, k < n) ∧
    (step.getD 1 = 0 → sliceIndices n start stop step = .error .valueError) := by
  refine ⟨fun ks => sliceIndices_ok_iff, fun h => ?_, sliceIndices_zero⟩
  obtain ⟨ks, -, h2⟩ := sliceIndices_denotes n start stop step h
  exact ⟨ks, h2, denotes_lt h2⟩

section
variable {C α : Type} [Buildable C α] {L : Layout C α} {raw : C → List Str}

/-- C95: a slice of a container has the elements at the positions it denotes, in that order, and the lines above and below
all elements of the whole container. -/
theorem C95_slice (h : Fits L raw) (hb : BuiltFrom L) (c : C) (start stop step : Option Int) :
    (∀ ks, Denotes (L.elements c).length start stop step ks → ∃ d, getSlice c start stop step = .ok d ∧
      ElementsAt (L.elements c) ks (L.elements d) ∧ RestKept L c d ∧
      raw d = L.above c ++ L.linesOf (L.elements d) ++ L.below c) ∧
    (step.getD 1 = 0 → getSlice c start stop step = .error .valueError) := by
  constructor
  · intro ks hk
    refine ⟨Buildable.sliced c (pick (L.elements c) ks), ?_, ?_, hb.kept _ _, ?_⟩
    · simp only [getSlice, h.data, sliceIndices_ok_iff.2 hk]
    · rw [hb.slice]; exact pick_elementsAt _ _ (denotes_lt hk).2
    · rw [h.written, (hb.kept _ _).1, (hb.kept _ _).2]
  · intro h0
    simp only [getSlice, sliceIndices_zero h0]

/-- C95: `c[:]` and `c.copy()` have the same elements and are written the same way. -/
theorem C95_copy (h : Fits L raw) (hb : BuiltFrom L) (c : C) :
    (∃ d, getSlice c none none none = .ok d ∧ L.elements d = L.elements c ∧ RestKept L c d ∧ raw d = raw c) ∧
    L.elements (copy c) = L.elements c ∧ RestKept L c (copy c) ∧ raw (copy c) = raw c := by
  constructor
  · obtain ⟨ks, -, hk⟩ := sliceIndices_denotes (L.elements c).length none none none (by simp)
    obtain ⟨d, h1, h2, h3, h4⟩ := (C95_slice h hb c none none none).1 ks hk
    have e : L.elements d = L.elements c := by
      refine elementsAt_unique h2 ?_
      rcases hk with ⟨-, hs, lo, hi, hl, hh, hm⟩ | ⟨hn, -⟩
      · have hl : lo = 0 := hl
        have hh : hi = (L.elements c).length := hh
        subst hl hh
        have := elementsAt_range (a := []) (m := L.elements c) (b := []) (ks := ks) hs (fun k => by rw [hm]; simp)
        simpa using this
      · simp at hn
    exact ⟨d, h1, e, h3, by rw [h4, h.written c, e]⟩
  · have e : L.elements (copy c) = L.elements c := by rw [copy, h.elements, h.data]
    exact ⟨e, restKept h _ _, by rw [h.written, h.written c, e, copy, h.above, h.below]⟩

/-- what is written of a container made from elements -/
theorem raw_make (h : Fits L raw) (hb : BuiltFrom L) (l : List α) : raw (Buildable.make l : C) = L.linesOf l := by
  rw [h.written, hb.elements, hb.above, hb.below]; simp

/-- C95: a sum has the elements of the first operand followed by those of the second one. Missing: the lines above and
below all elements, see `C95_sum_violation`. -/
theorem C95_sum_partial (h : Fits L raw) (hb : BuiltFrom L) (c d : C) (l : List α) :
    L.elements (add c d) = L.elements c ++ L.elements d ∧
    L.elements (addList c l) = L.elements c ++ l ∧
    L.elements (raddList l c) = l ++ L.elements c ∧
    raw (add c d) = (if L.upwards then L.linesOf (L.elements d) ++ L.linesOf (L.elements c)
      else L.linesOf (L.elements c) ++ L.linesOf (L.elements d)) ∧
    raw (addList c l) = (if L.upwards then L.linesOf l ++ L.linesOf (L.elements c) else L.linesOf (L.elements c) ++ L.linesOf l) ∧
    raw (raddList l c) = (if L.upwards then L.linesOf (L.elements c) ++ L.linesOf l else L.linesOf l ++ L.linesOf (L.elements c)) := by
  refine ⟨?_, ?_, ?_, ?_, ?_, ?_⟩
  · rw [add, hb.elements, h.data, h.data]
  · rw [addList, hb.elements, h.data]
  · rw [raddList, hb.elements, h.data]
  · rw [add, raw_make h hb, h.data, h.data, linesOf_append]
  · rw [addList, raw_make h hb, h.data, linesOf_append]
  · rw [raddList, raw_make h hb, h.data, linesOf_append]

/-- C95: adding nothing to a container does not change what is written only if there are no lines above or below all
elements: they are lost. `+=` keeps them, see `C90_extend`. -/
theorem C95_sum_violation (h : Fits L raw) (hb : BuiltFrom L) (c : C) :
    raw (addList c []) = raw c ↔ L.above c = [] ∧ L.below c = [] := by
  rw [addList, raw_make h hb, List.append_nil, h.data, h.written]
  constructor
  · intro e
    have := congrArg List.length e
    simp only [List.length_append] at this
    exact ⟨List.length_eq_zero_iff.1 (by omega), List.length_eq_zero_iff.1 (by omega)⟩
  · rintro ⟨h1, h2⟩; rw [h1, h2]; simp

theorem replicate_flatten_comm {β : Type} (x : List β) : ∀ n : Nat,
    (List.replicate n x).flatten ++ x = x ++ (List.replicate n x).flatten
  | 0 => by simp
  | n + 1 => by
    rw [List.replicate_succ, List.flatten_cons, List.append_assoc, replicate_flatten_comm x n]

omit [Buildable C α] in
theorem linesOf_times (L : Layout C α) (l : List α) (n : Nat) :
    L.linesOf (List.replicate n l).flatten = (List.replicate n (L.linesOf l)).flatten := by
  induction n with
  | zero => simp [Layout.linesOf]
  | succ n ih =>
    rw [List.replicate_succ, List.flatten_cons, linesOf_append, ih, List.replicate_succ, List.flatten_cons]
    split
    · exact replicate_flatten_comm _ _
    · rfl

/-- C95: `c * n` is written as the lines of the elements of `c`, `n` times, nothing if `n` is negative; `c *= n` in
addition keeps the lines above and below all elements. Missing: `*` does not keep them. -/
theorem C95_product_partial (h : Fits L raw) (hb : BuiltFrom L) (c : C) (n : Nat) (m : Int) (hm : m ≤ 0) :
    (L.elements (mul c n)).length = n * (L.elements c).length ∧
    (∀ k x, L.elements c ≠ [] → k < n * (L.elements c).length →
      ((L.elements (mul c n))[k]? = some x ↔ (L.elements c)[k % (L.elements c).length]? = some x)) ∧
    raw (mul c n) = (List.replicate n (L.linesOf (L.elements c))).flatten ∧
    L.elements (imul c n) = L.elements (mul c n) ∧ RestKept L c (imul c n) ∧
    raw (imul c n) = L.above c ++ (List.replicate n (L.linesOf (L.elements c))).flatten ++ L.below c ∧
    L.elements (mul c m) = [] ∧ raw (mul c m) = [] ∧ raw (imul c m) = L.above c ++ L.below c := by
  have e : ∀ m : Int, L.elements (mul c m) = times (L.elements c) m := fun m => by rw [mul, hb.elements, h.data]
  have e' : ∀ m : Int, L.elements (imul c m) = times (L.elements c) m := fun m => by rw [imul, h.elements, h.data]
  have z : m.toNat = 0 := by omega
  have w : ∀ m : Int, raw (imul c m) = L.above c ++ (List.replicate m.toNat (L.linesOf (L.elements c))).flatten ++ L.below c := by
    intro m
    rw [h.written, e', times, linesOf_times, imul, h.above, h.below]
  refine ⟨by simp [e, times], ?_, ?_, by rw [e, e'], restKept h _ _, ?_, ?_, ?_, ?_⟩
  · intro k x hne hk
    rw [e, times, Int.toNat_natCast]
    rw [replicate_getElem? _ _ _ hk]
  · rw [mul, raw_make h hb, times, linesOf_times, h.data, Int.toNat_natCast]
  · rw [w, Int.toNat_natCast]
  · rw [e, times, z]; rfl
  · rw [mul, raw_make h hb, times, z]; simp [Layout.linesOf]
  · rw [w, z]; simp

/-- C95: with the step 1 the elements in between are replaced by any number of others; everything else is kept. -/
theorem C95_set_slice (h : Fits L raw) (c : C) (start stop step : Option Int) (hs : step.getD 1 = 1) (xs : List α) :
    ∃ ks a m b, Denotes (L.elements c).length start stop step ks ∧ L.elements c = a ++ m ++ b ∧
      BoundUp (L.elements c).length 0 start a.length ∧ ElementsAt (L.elements c) ks m ∧
      (setSlice c start stop step xs).2 = none ∧
      L.elements (setSlice c start stop step xs).1 = a ++ xs ++ b ∧ RestKept L c (setSlice c start stop step xs).1 ∧
      raw c = L.around c a (L.linesOf m) b ∧ raw (setSlice c start stop step xs).1 = L.around c a (L.linesOf xs) b := by
  obtain ⟨ks, -, hk⟩ := sliceIndices_denotes (L.elements c).length start stop step (by omega)
  have hl := boundUp_clamp (L.elements c).length 0 start
  have hh := boundUp_clamp (L.elements c).length (L.elements c).length stop
  have hl' := boundUp_le (Nat.zero_le _) hl
  have hh' := boundUp_le (Nat.le_refl _) hh
  have hset : setSlice c start stop step xs = (Listed.withData c ((L.elements c).take ((start.map (clampBound (L.elements c).length)).getD 0)
      ++ xs ++ (L.elements c).drop (max ((start.map (clampBound (L.elements c).length)).getD 0)
        ((stop.map (clampBound (L.elements c).length)).getD (L.elements c).length))), none) := by
    simp only [setSlice, assignSlice, h.data]
    rw [if_pos hs]
  generalize hlo : (start.map (clampBound (L.elements c).length)).getD 0 = lo at *
  generalize hhi : (stop.map (clampBound (L.elements c).length)).getD (L.elements c).length = hi at *
  have split : L.elements c = (L.elements c).take lo ++ ((L.elements c).take (max lo hi)).drop lo ++ (L.elements c).drop (max lo hi) := by
    have h1 : (L.elements c).take lo = ((L.elements c).take (max lo hi)).take lo := by
      rw [List.take_take]; congr 1; omega
    rw [h1, List.take_append_drop, List.take_append_drop]
  refine ⟨ks, _, _, _, hk, split, ?_, ?_, by rw [hset], by rw [hset]; exact h.elements _ _, by rw [hset]; exact restKept h _ _,
    raw_around h split, by rw [hset]; exact raw_withData h c _ _ _⟩
  · rw [List.length_take, Nat.min_eq_left hl']; exact hl
  · rcases hk with ⟨-, hp, lo', hi', g1, g2, g3⟩ | ⟨hn, -⟩
    · obtain rfl := boundUp_unique hl g1
      obtain rfl := boundUp_unique hh g2
      have := elementsAt_range (a := (L.elements c).take lo) (m := ((L.elements c).take (max lo hi)).drop lo)
        (b := (L.elements c).drop (max lo hi)) hp (fun k => by rw [g3, hs]; simp; omega)
      rwa [← split] at this
    · omega

/-- C95: with another step there must be as many elements as positions; each one gets its position, all others and
everything else are kept. -/
theorem C95_set_extended (h : Fits L raw) (c : C) (start stop step : Option Int) (hs : step.getD 1 ≠ 1) (xs : List α) :
    (∀ ks, Denotes (L.elements c).length start stop step ks → ks.length = xs.length →
      (setSlice c start stop step xs).2 = none ∧ RestKept L c (setSlice c start stop step xs).1 ∧
      (L.elements (setSlice c start stop step xs).1).length = (L.elements c).length ∧
      ElementsAt (L.elements (setSlice c start stop step xs).1) ks xs ∧
      ∀ i, i ∉ ks → (L.elements (setSlice c start stop step xs).1)[i]? = (L.elements c)[i]?) ∧
    (∀ ks, Denotes (L.elements c).length start stop step ks → ks.length ≠ xs.length →
      setSlice c start stop step xs = (c, some .valueError)) ∧
    (step.getD 1 = 0 → setSlice c start stop step xs = (c, some .valueError)) := by
  refine ⟨fun ks hk hl => ?_, fun ks hk hl => ?_, fun h0 => ?_⟩
  · have e : setSlice c start stop step xs = (Listed.withData c (setAll (L.elements c) ks xs), none) := by
      simp only [setSlice, assignSlice, h.data]
      rw [if_neg hs, sliceIndices_ok_iff.2 hk]
      simp only
      rw [if_pos hl]
    rw [e]
    refine ⟨rfl, restKept h _ _, ?_, ?_, fun i hi => ?_⟩
    · rw [h.elements, setAll_length]
    · rw [h.elements]; exact setAll_at _ _ _ (denotes_lt hk).1 (denotes_lt hk).2 hl
    · rw [h.elements, setAll_other _ _ _ hi]
  · simp only [setSlice, assignSlice, h.data]
    rw [if_neg hs, sliceIndices_ok_iff.2 hk]
    simp only
    rw [if_neg hl]
  · simp only [setSlice, assignSlice, h.data]
    rw [if_neg hs, sliceIndices_zero h0]

/-- C95: deleting a slice where the inherited method is used (sections, listed sources, comments): exactly the elements at
the positions are removed, the others keep their order, the lines above and below all elements are kept. Missing: the lines
between the elements and their neighbours should be kept, see `C95_delete_violation`. -/
theorem C95_delete_partial (h : Fits L raw) (c : C) (start stop step : Option Int) :
    (∀ ks, Denotes (L.elements c).length start stop step ks → ∃ rest : List Nat, rest.Pairwise (· < ·) ∧
      (∀ k, k ∈ rest ↔ k < (L.elements c).length ∧ k ∉ ks) ∧ (Slices.delSlice c start stop step).2 = none ∧
      ElementsAt (L.elements c) rest (L.elements (Slices.delSlice c start stop step).1) ∧
      RestKept L c (Slices.delSlice c start stop step).1) ∧
    (step.getD 1 = 0 → Slices.delSlice c start stop step = (c, some .valueError)) := by
  refine ⟨fun ks hk => ?_, fun h0 => ?_⟩
  · have e : Slices.delSlice c start stop step = (Listed.withData c (dropAll ks 0 (L.elements c)), none) := by
      simp only [Slices.delSlice, h.data, sliceIndices_ok_iff.2 hk]
    have d := dropAll_eq ks (L.elements c) []
    simp only [List.length_nil, List.nil_append] at d
    have hm : ∀ k, k ∈ (List.range' 0 (L.elements c).length).filter (fun k => !ks.contains k) ↔
        k < (L.elements c).length ∧ k ∉ ks := by
      intro k; simp [List.mem_filter, List.mem_range']
    refine ⟨_, List.Pairwise.filter _ ?_, hm, by rw [e], ?_, by rw [e]; exact restKept h _ _⟩
    · exact List.pairwise_lt_range'
    · rw [e, h.elements, d]
      exact pick_elementsAt _ _ (fun k hk => ((hm k).1 hk).1)
  · simp only [Slices.delSlice, sliceIndices_zero h0]

/-- C95: the same for an index. -/
theorem C95_delete_item_partial (h : Fits L raw) (c : C) (i : Int) :
    (∀ k, DenotesAt (L.elements c).length i k → ∃ a x b, L.elements c = a ++ x :: b ∧ a.length = k ∧
      (Slices.delItem c i).2 = none ∧ L.elements (Slices.delItem c i).1 = a ++ b ∧ RestKept L c (Slices.delItem c i).1 ∧
      raw c = L.around c a (L.lines x) b ∧ raw (Slices.delItem c i).1 = L.around c a [] b) ∧
    ((∀ k, ¬ DenotesAt (L.elements c).length i k) → Slices.delItem c i = (c, some .indexError)) := by
  constructor
  · intro k hk
    obtain ⟨a, x, b, h1, h2, h3, h4, -⟩ := split_at hk.1
    have hp : Slices.delItem c i = (Listed.withData c (a ++ b), none) := by
      simp only [Slices.delItem, h.data, denotesAt_iff.2 hk, h4]
    refine ⟨a, x, b, h1, h2, by rw [hp], by rw [hp]; exact h.elements _ _, by rw [hp]; exact restKept h _ _, ?_, ?_⟩
    · rw [← linesOf_one L x]
      exact raw_around h (by simpa using h1)
    · rw [hp]
      have := raw_withData h c a [] b
      simpa [Layout.linesOf] using this
  · intro hk
    simp only [Slices.delItem, h.data, denotesAt_none.2 hk]

end

/-! ### comments -/

/-- C95: assigning to a slice of comments with at least as many items as positions: each position gets its text, with the
prefix kept, or its comment; all other comments and the lines above are kept. Missing: further items are ignored, and too
few are an error half-way, see the violations. -/
theorem C95_comments_partial (c : Comments) (start stop step : Option Int) (xs : List Item) (ks : List Nat)
    (hk : Denotes c.data.length start stop step ks) (hl : ks.length ≤ xs.length) :
    (setComments c start stop step xs).2 = none ∧ (setComments c start stop step xs).1.preceding = c.preceding ∧
    (setComments c start stop step xs).1.data.length = c.data.length ∧
    (∀ i, i ∉ ks → (setComments c start stop step xs).1.data[i]? = c.data[i]?) ∧
    AssignedAt ks xs c.data (setComments c start stop step xs).1.data := by
  have e : setComments c start stop step xs = ({ c with data := (putAll ks xs c.data).1 }, (putAll ks xs c.data).2) := by
    simp only [setComments, sliceIndices_ok_iff.2 hk]
  rw [e]
  exact ⟨by rw [putAll_error, if_neg (by omega)], rfl, putAll_length _ _ _, fun i hi => putAll_other _ _ _ hi,
    putAll_assigned ks xs c.data (denotes_lt hk).1 (denotes_lt hk).2⟩

/-- C95: with too few items the first ones are assigned before the `IndexError`. -/
theorem C95_comments_violation (c : Comments) (start stop step : Option Int) (xs : List Item) (ks : List Nat)
    (hk : Denotes c.data.length start stop step ks) (hl : xs.length < ks.length) :
    (setComments c start stop step xs).2 = some .indexError ∧
    AssignedAt ks xs c.data (setComments c start stop step xs).1.data := by
  have e : setComments c start stop step xs = ({ c with data := (putAll ks xs c.data).1 }, (putAll ks xs c.data).2) := by
    simp only [setComments, sliceIndices_ok_iff.2 hk]
  rw [e]
  exact ⟨by rw [putAll_error, if_pos hl], putAll_assigned ks xs c.data (denotes_lt hk).1 (denotes_lt hk).2⟩

/-! ### lines of a section -/

/-- C95: a slice of a section with a valid name has the same name, options, delimiter and separator, and the lines at the
positions. -/
theorem C95_section_slice [Uni] (s : Section) (hn : Uni.lower s.name ∈ Constants.sectionNames)
    (start stop step : Option Int) (ks : List Nat) (hk : Denotes s.data.length start stop step ks) :
    ∃ m, ElementsAt s.data ks m ∧ sectionSlice s start stop step = .ok { s with data := m } := by
  refine ⟨pick s.data ks, pick_elementsAt _ _ (denotes_lt hk).2, ?_⟩
  simp only [sectionSlice, sliceIndices_ok_iff.2 hk, Sections.mkSection]
  rw [if_neg (by simpa using hn)]
  rfl

/-- C95: `section + […]` and `section * n` always raise `AttributeError`, although `section += […]` appends the lines. -/
theorem C95_section_violation [Uni] (s : Section) (l : List Str) (n : Int) :
    sectionAdd s l = .error .attributeError ∧ sectionMul s n = .error .attributeError ∧
    (sectionExtend s l).data = s.data ++ l := ⟨rfl, rfl, rfl⟩

/-! ### examples -/

/-- listed sources, the second one in a condition -/
def exListed : Sourcelist := ⟨[⟨s% "a.tar", ⟨[], []⟩, true⟩, ⟨s% "b.tar", ⟨[⟨s% "why", s% "# "⟩], [s% "%if 0"]⟩, false⟩,
  ⟨s% "c.tar", ⟨[], [s% "%endif"]⟩, true⟩], [[]]⟩

/-- entries of a changelog below a line that belongs to none of them, the newest one last -/
def exEntries : Changelog := ⟨[⟨s% "* old", [s% "- x"], [[]]⟩, ⟨s% "* new", [s% "- y"], [[]]⟩], [s% "#"]⟩

/-- three comments below a line that belongs to none of them -/
def exComments : Comments := ⟨[⟨s% "a", s% "# "⟩, ⟨s% "b", s% "#"⟩, ⟨s% "c", s% "# "⟩], [s% "%if 1"]⟩

example : Denotes 5 (some (-4)) none (some 2) [1, 3] ∧ Denotes 5 none (some (-9)) (some (-3)) [4, 1] ∧
    Denotes 5 (some 7) (some 2) none [] := by
  refine ⟨((C95_positions _ _ _ _).1 _).1 ?_, ((C95_positions _ _ _ _).1 _).1 ?_, ((C95_positions _ _ _ _).1 _).1 ?_⟩ <;>
    decide +kernel

example : (getSlice exEntries (some 1) none none).toOption.map Changelog.raw =
      some [s% "#", s% "* new", s% "- y", []] ∧
    (getSlice exListed none none (some (-2))).toOption.map Sourcelist.raw =
      some [s% "%endif", s% "c.tar", s% "a.tar", []] := by decide +kernel

example : Changelog.raw (copy exEntries) = [s% "#", s% "* new", s% "- y", [], s% "* old", s% "- x", []] := by decide +kernel

example : Changelog.raw (add exEntries exEntries) = [s% "* new", s% "- y", [], s% "* old", s% "- x", [], s% "* new", s% "- y", [],
    s% "* old", s% "- x", []] := by decide +kernel

/-- the condition that ends after the last tag is not closed in the sum -/
example : Tags.raw ⟨[⟨s% "Name", s% "a", s% ": ", ⟨[], [s% "%if 1"]⟩, true, [], []⟩], [s% "%endif"]⟩ =
      [s% "%if 1", s% "Name: a", s% "%endif"] ∧
    Tags.raw (addList ⟨[⟨s% "Name", s% "a", s% ": ", ⟨[], [s% "%if 1"]⟩, true, [], []⟩], [s% "%endif"]⟩ []) =
      [s% "%if 1", s% "Name: a"] := by decide +kernel

example : Comments.raw (mul exComments 2) = [s% "# a", s% "#b", s% "# c", s% "# a", s% "#b", s% "# c"] ∧
    Comments.raw (imul exComments 1) = [s% "%if 1", s% "# a", s% "#b", s% "# c"] ∧
    Comments.raw (imul exComments (-1)) = [s% "%if 1"] := by decide +kernel

example : Sourcelist.raw (setSlice exListed (some 2) (some 1) none [⟨s% "d.tar", ⟨[], []⟩, true⟩]).1 =
      [s% "a.tar", s% "%if 0", s% "# why", s% "b.tar", s% "d.tar", s% "%endif", s% "c.tar", []] ∧
    Sourcelist.raw (setSlice exListed none none (some 2) [⟨s% "d.tar", ⟨[], []⟩, true⟩, ⟨s% "e.tar", ⟨[], []⟩, true⟩]).1 =
      [s% "d.tar", s% "%if 0", s% "# why", s% "b.tar", s% "e.tar", []] ∧
    (setSlice exListed none none (some 2) [⟨s% "d.tar", ⟨[], []⟩, true⟩]).2 = some .valueError := by decide +kernel

/-- C95: deleting a listed source from a source list deletes the beginning of the condition it is in; `%endif` stays. -/
theorem C95_delete_violation : Sourcelist.raw exListed =
      [s% "a.tar", s% "%if 0", s% "# why", s% "b.tar", s% "%endif", s% "c.tar", []] ∧
    Sourcelist.raw (Slices.delItem exListed 1).1 = [s% "a.tar", s% "%endif", s% "c.tar", []] ∧
    Sourcelist.raw (Slices.delSlice exListed (some 1) (some 2) none).1 = [s% "a.tar", s% "%endif", s% "c.tar", []] := by
  decide +kernel

example : ((setComments exComments (some 1) none none [.text (s% "x"), .comment ⟨s% "y", s% "## "⟩]).1.raw,
      (setComments exComments (some 1) none none [.text (s% "x"), .comment ⟨s% "y", s% "## "⟩]).2) =
    ([s% "%if 1", s% "# a", s% "#x", s% "## y"], none) := by decide +kernel

/-- C95: items that are too many are ignored, unlike in a list. -/
theorem C95_comments_extra_violation : ((setComments exComments (some 2) none none [.text (s% "x"), .text (s% "y")]).1.raw,
      (setComments exComments (some 2) none none [.text (s% "x"), .text (s% "y")]).2) =
    ([s% "%if 1", s% "# a", s% "#b", s% "# x"], none) := by decide +kernel

/-- two positions, one item -/
example : Denotes exComments.data.length (some 1) none none [1, 2] := by
  refine ((C95_positions _ _ _ _).1 _).1 ?_
  decide +kernel

section
attribute [local instance] asciiUni

example : Uni.lower (s% "Build") ∈ Constants.sectionNames ∧
    (sectionSlice ⟨s% "Build", ⟨[], [], []⟩, [], s% "\n", [s% "a", s% "b", s% "c"]⟩ (some (-2)) none none).toOption.map (·.data) =
      some [s% "b", s% "c"] := by decide +kernel

end

end Specfile.Props
