import Verif.Proof.ListMethods
import Verif.Props.Equality
import Verif.Props.Tags
/-
C90: list methods of containers.
-/
namespace Specfile.Props
open Py Spec ListMethods

/-- C90: the containers consist of their elements and of lines above and below all of them. -/
theorem C90_containers [Uni] : Fits changelogLayout Changelog.raw ∧ Fits definitionsLayout MacroDefinitions.raw ∧
    Fits prepLayout Prep.raw ∧ Fits sectionsLayout Sections.raw ∧ Fits sourcelistLayout Sourcelist.raw ∧
    Fits tagsLayout Tags.raw ∧ Fits commentsLayout Comments.raw := by
  refine ⟨⟨fun c => ?_, fun _ => rfl, fun _ _ => rfl, fun _ _ => rfl, fun _ _ => rfl⟩,
    ⟨fun c => ?_, fun _ => rfl, fun _ _ => rfl, fun _ _ => rfl, fun _ _ => rfl⟩,
    ⟨fun c => ?_, fun _ => rfl, fun _ _ => rfl, fun _ _ => rfl, fun _ _ => rfl⟩,
    ⟨fun c => ?_, fun _ => rfl, fun _ _ => rfl, fun _ _ => rfl, fun _ _ => rfl⟩,
    ⟨fun c => ?_, fun _ => rfl, fun _ _ => rfl, fun _ _ => rfl, fun _ _ => rfl⟩,
    ⟨fun c => ?_, fun _ => rfl, fun _ _ => rfl, fun _ _ => rfl, fun _ _ => rfl⟩,
    ⟨fun c => ?_, fun _ => rfl, fun _ _ => rfl, fun _ _ => rfl, fun _ _ => rfl⟩⟩
  · simp [Layout.linesOf, changelogLayout, Changelog.raw]; rfl
  · simp [Layout.linesOf, definitionsLayout, MacroDefinitions.raw]
  · simp [Layout.linesOf, prepLayout, Prep.raw]
  · simp [Layout.linesOf, sectionsLayout, Sections.raw]
  · simp [Layout.linesOf, sourcelistLayout, Sourcelist.raw, Comments.raw, Comment.str]
  · simp only [Layout.linesOf, tagsLayout, Tags.raw]
    rfl
  · simp only [Layout.linesOf, commentsLayout, Comments.raw, List.append_nil, Bool.false_eq_true, if_false]
    rw [← List.flatMap_def]
    induction c.data with
    | nil => rfl
    | cons x l ih => simpa [Comment.str] using ih

section
variable {C α : Type} [Listed C α] {L : Layout C α} {raw : C → List Str}

/-- C90: `pop` returns the element at the index and removes it, its lines and the lines between it and its neighbour, and
nothing else. Missing: the lines between it and its neighbour should be kept, as they are by `del`. -/
theorem C90_pop_partial (h : Fits L raw) (c : C) (i : Int) :
    (∀ k, DenotesAt (L.elements c).length i k → ∃ a x b, L.elements c = a ++ x :: b ∧ a.length = k ∧
      (pop c i).2 = .ok x ∧ L.elements (pop c i).1 = a ++ b ∧ RestKept L c (pop c i).1 ∧
      raw c = L.around c a (L.lines x) b ∧ raw (pop c i).1 = L.around c a [] b) ∧
    ((∀ k, ¬ DenotesAt (L.elements c).length i k) → pop c i = (c, .error .indexError)) := by
  constructor
  · intro k hk
    obtain ⟨a, x, b, h1, h2, h3, h4, -⟩ := split_at hk.1
    have hp : pop c i = (Listed.withData c (a ++ b), .ok x) := by
      simp only [pop, h.data, denotesAt_iff.2 hk, h3, h4]
    refine ⟨a, x, b, h1, h2, by rw [hp], by rw [hp]; exact h.elements _ _, by rw [hp]; exact restKept h _ _, ?_, ?_⟩
    · rw [← linesOf_one L x]
      exact raw_around h (by simpa using h1)
    · rw [hp]
      have := raw_withData h c a [] b
      simpa [Layout.linesOf] using this
  · intro hk
    simp only [pop, h.data, denotesAt_none.2 hk]

/-- C90: `remove` removes the first element that is equal to the given one, with its lines and those between it and its
neighbour, and nothing else; it raises `ValueError` if there is none. Missing: as for `pop`; and what is removed is not
always the given element, see the violations. -/
theorem C90_remove_partial (h : Fits L raw) (c : C) (x : α) :
    (∀ a y b, FirstEqual (Listed.eq C) x (L.elements c) a y b → (remove c x).2 = none ∧
      L.elements (remove c x).1 = a ++ b ∧ RestKept L c (remove c x).1 ∧
      raw c = L.around c a (L.lines y) b ∧ raw (remove c x).1 = L.around c a [] b) ∧
    ((∀ y ∈ L.elements c, Listed.eq C y x = .ok false) → remove c x = (c, some .valueError)) ∧
    (∀ e, (remove c x).2 = some e → (remove c x).1 = c) ∧
    ((remove c x).2 = none → ∃ a y b, FirstEqual (Listed.eq C) x (L.elements c) a y b) := by
  refine ⟨?_, ?_, ?_, ?_⟩
  · rintro a y b ⟨h1, h2, h3⟩
    have hs : search (fun y => Listed.eq C y x) 0 (L.elements c) = .ok (some a.length) :=
      search_some.2 ⟨a, y, b, h1, by simp, h2, h3⟩
    have hp : remove c x = (Listed.withData c (a ++ b), none) := by
      have he : (L.elements c).eraseIdx a.length = a ++ b := by
        rw [h1, List.eraseIdx_append_of_length_le (Nat.le_refl _)]; simp
      simp only [remove, h.data, hs, he]
    refine ⟨by rw [hp], by rw [hp]; exact h.elements _ _, by rw [hp]; exact restKept h _ _, ?_, ?_⟩
    · rw [← linesOf_one L y]
      exact raw_around h (by simpa using h1)
    · rw [hp]
      have := raw_withData h c a [] b
      simpa [Layout.linesOf] using this
  · intro hn
    have hs := (search_none (same := fun y => Listed.eq C y x) (n := 0)).2 hn
    simp only [remove, h.data, hs]
  · intro e
    unfold remove
    split <;> simp
  · intro hn
    unfold remove at hn
    split at hn
    · simp at hn
    · simp at hn
    next k hk =>
      rw [h.data] at hk
      obtain ⟨a, y, b, h1, -, h2, h3⟩ := search_some.1 hk
      exact ⟨a, y, b, h1, h2, h3⟩

/-- C90: `index` gives the position of the first element that is equal to the given one, and raises `ValueError` if there
is none. -/
theorem C90_index (h : Fits L raw) (c : C) (x : α) :
    (∀ k, index c x = .ok k ↔ ∃ a y b, FirstEqual (Listed.eq C) x (L.elements c) a y b ∧ a.length = k) ∧
    ((∀ y ∈ L.elements c, Listed.eq C y x = .ok false) → index c x = .error .valueError) := by
  constructor
  · intro k
    unfold index
    rw [h.data]
    split
    next e he =>
      simp only [reduceCtorEq, false_iff]
      rintro ⟨a, y, b, ⟨h1, h2, h3⟩, -⟩
      rw [(search_some (n := 0)).2 ⟨a, y, b, h1, rfl, h2, h3⟩] at he
      cases he
    next he =>
      simp only [reduceCtorEq, false_iff]
      rintro ⟨a, y, b, ⟨h1, h2, h3⟩, -⟩
      rw [(search_some (n := 0)).2 ⟨a, y, b, h1, rfl, h2, h3⟩] at he
      cases he
    next j he =>
      constructor
      · intro hj
        obtain ⟨a, y, b, h1, h4, h2, h3⟩ := search_some.1 he
        exact ⟨a, y, b, ⟨h1, h2, h3⟩, by simp at hj; omega⟩
      · rintro ⟨a, y, b, ⟨h1, h2, h3⟩, h4⟩
        rw [(search_some (n := 0)).2 ⟨a, y, b, h1, rfl, h2, h3⟩] at he
        simp at he
        simp [← he, h4]
  · intro hn
    have hs := (search_none (same := fun y => Listed.eq C y x) (n := 0)).2 hn
    simp only [index, h.data, hs]

/-- C90: `count` is the number of elements equal to the given one. -/
theorem C90_count (h : Fits L raw) (c : C) (x : α) (same : α → Bool)
    (hs : ∀ y ∈ L.elements c, Listed.eq C y x = .ok (same y)) : count c x = .ok ((L.elements c).filter same).length := by
  unfold count
  rw [h.data, countLoop_ok hs, List.countP_eq_length_filter]

/-- C90: `clear` removes all elements and keeps what is above and below all of them. Missing: the lines between elements
should be kept, as they are by `del`. -/
theorem C90_clear_partial (h : Fits L raw) (c : C) : L.elements (clear c) = [] ∧ RestKept L c (clear c) ∧
    raw (clear c) = L.above c ++ L.below c := by
  refine ⟨h.elements _ _, restKept h _ _, ?_⟩
  rw [h.written, clear, h.elements, h.above, h.below]
  simp [Layout.linesOf]

/-- C90: `extend` and `+=` put the elements in order behind all others and keep all lines. -/
theorem C90_extend (h : Fits L raw) (c : C) (xs : List α) : L.elements (extend c xs) = L.elements c ++ xs ∧
    RestKept L c (extend c xs) ∧ raw c = L.around c (L.elements c) [] [] ∧
    raw (extend c xs) = L.around c (L.elements c) (L.linesOf xs) [] := by
  unfold extend
  rw [h.data]
  refine ⟨h.elements _ _, restKept h _ _, ?_, ?_⟩
  · have := raw_around h (c := c) (a := L.elements c) (m := []) (b := []) (by simp)
    simpa [Layout.linesOf] using this
  · have := raw_withData h c (L.elements c) xs []
    simpa using this

/-- C90: `append` puts the element behind all others and keeps all lines. -/
theorem C90_append (h : Fits L raw) (c : C) (x : α) : L.elements (append c x) = L.elements c ++ [x] ∧
    RestKept L c (append c x) ∧ raw (append c x) = L.around c (L.elements c) (L.lines x) [] := by
  have := C90_extend h c [x]
  rw [linesOf_one] at this
  exact ⟨this.1, this.2.1, this.2.2.2⟩

/-- C90: `insert` puts the element at the index, counted from the end if negative and moved to the nearest end if out of
range, and keeps all lines. Tags are inserted otherwise, see C18. -/
theorem C90_insert (h : Fits L raw) (c : C) (i : Int) (x : α) : ∃ a b, L.elements c = a ++ b ∧
    InsertsAt (L.elements c).length i a.length ∧ L.elements (ListMethods.insert c i x) = a ++ x :: b ∧
    RestKept L c (ListMethods.insert c i x) ∧ raw c = L.around c a [] b ∧
    raw (ListMethods.insert c i x) = L.around c a (L.lines x) b := by
  have hk := insertsAt_insertPos (L.elements c).length i
  have hle := insertsAt_le hk
  unfold ListMethods.insert
  rw [h.data]
  generalize insertPos (L.elements c).length i = k at hk hle
  refine ⟨(L.elements c).take k, (L.elements c).drop k, (List.take_append_drop ..).symm, ?_, h.elements _ _,
    restKept h _ _, ?_, ?_⟩
  · rw [List.length_take, Nat.min_eq_left hle]; exact hk
  · have := raw_around h (c := c) (a := (L.elements c).take k) (m := []) (b := (L.elements c).drop k) (by simp)
    simpa [Layout.linesOf] using this
  · have := raw_withData h c ((L.elements c).take k) [x] ((L.elements c).drop k)
    rw [linesOf_one] at this
    simpa using this

/-- C90: assigning to an index replaces the element there and its lines, and nothing else. -/
theorem C90_set_item (h : Fits L raw) (c : C) (i : Int) (y : α) :
    (∀ k, DenotesAt (L.elements c).length i k → ∃ a x b, L.elements c = a ++ x :: b ∧ a.length = k ∧
      (setItem c i y).2 = none ∧ L.elements (setItem c i y).1 = a ++ y :: b ∧ RestKept L c (setItem c i y).1 ∧
      raw c = L.around c a (L.lines x) b ∧ raw (setItem c i y).1 = L.around c a (L.lines y) b) ∧
    ((∀ k, ¬ DenotesAt (L.elements c).length i k) → setItem c i y = (c, some .indexError)) := by
  constructor
  · intro k hk
    obtain ⟨a, x, b, h1, h2, -, -, h4⟩ := split_at hk.1
    have hp : setItem c i y = (Listed.withData c (a ++ [y] ++ b), none) := by
      simp [setItem, h.data, denotesAt_iff.2 hk, h4]
    refine ⟨a, x, b, h1, h2, by rw [hp], by rw [hp]; simpa using h.elements _ _, by rw [hp]; exact restKept h _ _, ?_, ?_⟩
    · rw [← linesOf_one L x]
      exact raw_around h (by simpa using h1)
    · rw [hp, ← linesOf_one L y]
      exact raw_withData h c a [y] b
  · intro hk
    simp only [setItem, h.data, denotesAt_none.2 hk]

/-- C90: `reverse` reverses the elements, each with its own lines; what is above and below all of them is kept. -/
theorem C90_reverse (h : Fits L raw) (c : C) : L.elements (reverse c) = (L.elements c).reverse ∧
    RestKept L c (reverse c) ∧ raw (reverse c) = L.above c ++ L.linesOf (L.elements c).reverse ++ L.below c ∧
    L.elements (reverse (reverse c)) = L.elements c ∧ raw (reverse (reverse c)) = raw c := by
  unfold reverse
  rw [h.data]
  refine ⟨h.elements _ _, restKept h _ _, ?_, ?_, ?_⟩
  · rw [h.written, h.elements, h.above, h.below]
  · rw [h.data, h.elements, h.elements, List.reverse_reverse]
  · rw [h.written, h.written c, h.data, h.elements, h.elements, h.above, h.above, h.below, h.below, List.reverse_reverse]
end

/-- C90: removing an entry, a definition or a comment removes exactly the lines that the given one has; if it is in the
container it is always found. Missing: the other containers, see the violations. -/
theorem C90_remove_lines_partial :
    (∀ (c : Changelog) (x : ChangelogEntry), (x ∈ c.data → (remove c x).2 = none) ∧ ((remove c x).2 = none →
      ∃ a b, Changelog.raw c = a ++ ([x.header] ++ x.content ++ x.following) ++ b ∧
        Changelog.raw (remove c x).1 = a ++ b)) ∧
    (∀ (c : MacroDefinitions) (x : MacroDefinition), (x ∈ c.data → (remove c x).2 = none) ∧ ((remove c x).2 = none →
      ∃ a b, MacroDefinitions.raw c = a ++ x.raw ++ b ∧ MacroDefinitions.raw (remove c x).1 = a ++ b)) ∧
    (∀ (c : Comments) (x : Comment), (x ∈ c.data → (remove c x).2 = none) ∧ ((remove c x).2 = none →
      ∃ a b, Comments.raw c = a ++ [x.pfx ++ x.text] ++ b ∧ Comments.raw (remove c x).1 = a ++ b)) := by
  have key : ∀ {C α : Type} [Listed C α] {L : Layout C α} {raw : C → List Str}, Fits L raw → ∀ eq : α → α → Bool,
      (∀ y x : α, Listed.eq C y x = .ok (eq y x)) → (∀ x, eq x x = true) → SameWritten eq L.lines →
      ∀ (c : C) (x : α), (x ∈ L.elements c → (remove c x).2 = none) ∧ ((remove c x).2 = none →
        ∃ a b, raw c = a ++ L.lines x ++ b ∧ raw (remove c x).1 = a ++ b) := by
    intro C α _ L raw h eq heq hr hw c x
    constructor
    · intro hx
      cases hn : (remove c x).2 with
      | none => rfl
      | some e =>
        exfalso
        unfold remove at hn
        rw [h.data] at hn
        split at hn
        next e' he =>
          obtain ⟨a, y, b, -, h2, -⟩ := search_error.1 he
          rw [heq] at h2; cases h2
        next he =>
          have := search_none.1 he x hx
          rw [heq, hr] at this; cases this
        · cases hn
    · intro hn
      obtain ⟨p, -, -, q⟩ := C90_remove_partial h c x
      obtain ⟨a, y, b, hf⟩ := q hn
      obtain ⟨-, -, -, h1, h2⟩ := p a y b hf
      have hy : L.lines y = L.lines x := hw y x (by have := hf.2.1; rw [heq] at this; simpa using this)
      rw [hy] at h1
      unfold Layout.around at h1 h2
      split at h1
      next u => rw [if_pos u] at h2; exact ⟨_, _, by rw [h1, List.append_assoc (_ ++ _)], by rw [h2]; simp⟩
      next u => rw [if_neg u] at h2; exact ⟨_, _, by rw [h1, List.append_assoc (_ ++ _)], by rw [h2]; simp⟩
  have d := @C90_containers asciiUni
  refine ⟨key d.1 Equality.entryEq (fun _ _ => rfl) C88_equivalence.1.refl ?_,
    key d.2.1 MacroDefinition.eqv (fun _ _ => rfl) C88_equivalence.2.2.2.2.2.2.1.refl C88_same_text.2.2.2.2.1,
    key d.2.2.2.2.2.2 Equality.commentEq (fun _ _ => rfl) C88_equivalence.2.2.1.refl ?_⟩
  · intro a b hab
    have e : a = b := C88_same_text.2.1 a b hab
    rw [e]
  · intro a b hab
    have e : a = b := C88_same_text.2.2.2.1 a b hab
    rw [e]

/-- C90: `remove` and `index` of a tag, a listed source or a section that is in the container always find one: the first
that has the same comments and the same text, for sections the same lines below the header. Missing: it is not always
the given one, as the lines above it and the header of a section are not compared. -/
theorem C90_remove_same_partial :
    (∀ (c : Tags) (x : Tag), x ∈ c.data → ∃ a y b, c.data = a ++ y :: b ∧ remove c x = ({ c with data := a ++ b }, none) ∧
      index c x = .ok a.length ∧ tagParts y = tagParts x ∧ ∀ z ∈ a, tagParts z ≠ tagParts x) ∧
    (∀ (c : Sourcelist) (x : SourcelistEntry), x ∈ c.data → ∃ a y b, c.data = a ++ y :: b ∧
      remove c x = ({ c with data := a ++ b }, none) ∧ index c x = .ok a.length ∧
      (y.location, y.comments.data) = (x.location, x.comments.data) ∧
      ∀ z ∈ a, (z.location, z.comments.data) ≠ (x.location, x.comments.data)) ∧
    (∀ (c : Sections) (x : Section), x ∈ c → ∃ a y b, c = a ++ y :: b ∧ remove c x = (a ++ b, none) ∧
      index c x = .ok a.length ∧ y.data = x.data ∧ ∀ z ∈ a, z.data ≠ x.data) := by
  have key : ∀ {C α ρ : Type} [Listed C α] (part : α → ρ),
      (∀ y x : α, ∃ b, Listed.eq C y x = .ok b ∧ (b = true ↔ part y = part x)) →
      ∀ (c : C) (x : α), x ∈ Listed.data c → ∃ (a : List α) (y : α) (b : List α), Listed.data c = a ++ y :: b ∧
        remove c x = (Listed.withData c (a ++ b), none) ∧ index c x = .ok a.length ∧ part y = part x ∧
        ∀ z ∈ a, part z ≠ part x := by
    intro C α ρ _ part he c x hx
    have hs : ∃ k, search (fun y => Listed.eq C y x) 0 (Listed.data c) = .ok (some k) := by
      cases hq : search (fun y => Listed.eq C y x) 0 (Listed.data c) with
      | error e =>
        obtain ⟨a, y, b, -, h2, -⟩ := search_error.1 hq
        obtain ⟨v, hv, -⟩ := he y x
        rw [hv] at h2; cases h2
      | ok r =>
        cases r with
        | some k => exact ⟨k, rfl⟩
        | none =>
          have hn := search_none.1 hq x hx
          obtain ⟨v, hv, hw⟩ := he x x
          rw [hv] at hn
          rw [hw.2 rfl] at hn; cases hn
    obtain ⟨k, hk⟩ := hs
    obtain ⟨a, y, b, h1, h2, h3, h4⟩ := search_some.1 hk
    simp only [Nat.zero_add] at h2
    subst h2
    have hd : (Listed.data c).eraseIdx a.length = a ++ b := by
      rw [h1, List.eraseIdx_append_of_length_le (Nat.le_refl _)]; simp
    refine ⟨a, y, b, h1, by simp only [remove, hk, hd], by simp only [index, hk], ?_, ?_⟩
    · obtain ⟨v, hv, hw⟩ := he y x
      rw [hv] at h3
      exact hw.1 (by simpa using h3)
    · intro z hz hp
      obtain ⟨v, hv, hw⟩ := he z x
      have := h4 z hz
      rw [hv, hw.2 hp] at this
      cases this
  refine ⟨key tagParts ?_, key (fun e : SourcelistEntry => (e.location, e.comments.data)) ?_,
    key (fun s : Section => s.data) ?_⟩
  · intro y x
    refine ⟨_, rfl, ?_⟩
    simp [Tags.eqv, Comments.eqv, tagParts]
    constructor
    · rintro ⟨⟨⟨⟨⟨a, b⟩, c⟩, d⟩, e⟩, f⟩; simp [*]
    · rintro ⟨a, b, c, d, e, f⟩; simp [*]
  · intro y x
    refine ⟨_, rfl, ?_⟩
    unfold Equality.sourcelistEntryEq
    rw [Bool.and_eq_true, beq_iff_eq, Prod.mk.injEq]
    unfold Equality.commentsEq
    rw [Equality.listEq_eq (fun _ _ => Equality.commentEq_iff)]
  · intro y x
    exact ⟨_, rfl, by simp [Equality.sectionEq]⟩

/-- C90: `index` of a text among comments is the position of the first comment that has it. -/
theorem C90_comment_index (c : Comments) (t : Str) :
    (∀ k, indexText c t = .ok k ↔ ∃ a x b, c.data = a ++ x :: b ∧ a.length = k ∧ x.text = t ∧ ∀ y ∈ a, y.text ≠ t) ∧
    ((∀ x ∈ c.data, x.text ≠ t) → indexText c t = .error .valueError) := by
  have hf : indexText c t = match c.data.findIdx? (fun x => x.text == t) with
      | none => .error .valueError
      | some k => .ok k := by
    unfold indexText Comments.texts
    rw [List.findIdx?_map]
    rfl
  constructor
  · intro k
    have he : indexText c t = .ok k ↔ c.data.findIdx? (fun x => x.text == t) = some k := by
      rw [hf]
      cases c.data.findIdx? (fun x => x.text == t) <;> simp
    rw [he, List.findIdx?_eq_some_iff_getElem]
    constructor
    · rintro ⟨h, h1, h2⟩
      obtain ⟨a, x, b, e1, e2, e3, -, -⟩ := split_at h
      refine ⟨a, x, b, e1, e2, ?_, ?_⟩
      · rw [List.getElem?_eq_getElem h] at e3
        simp at e3 h1
        rw [← e3, h1]
      · intro y hy
        obtain ⟨j, hj, hjy⟩ := List.getElem_of_mem hy
        have hlt : j < k := by omega
        have := h2 j hlt
        simp only [e1, List.getElem_append_left hj, hjy] at this
        simpa using this
    · rintro ⟨a, x, b, e1, rfl, e3, e4⟩
      refine ⟨by simp [e1], ?_, ?_⟩
      · simp [e1, e3]
      · intro j hj
        simp only [e1, List.getElem_append_left hj]
        simpa using e4 _ (List.getElem_mem hj)
  · intro hn
    have : c.data.findIdx? (fun x => x.text == t) = none := by
      rw [List.findIdx?_eq_none_iff]
      intro x hx
      simpa using hn x hx
    rw [hf, this]

theorem modify_prepend_nil {l : List MacroDefinition} (j : Nat) :
    l.modify j (fun x => { x with preceding := [] ++ x.preceding }) = l := by
  have : (fun x : MacroDefinition => { x with preceding := [] ++ x.preceding }) = id := by funext x; rfl
  rw [this, List.modify_id]

/-- C90: for an element without lines above it, below it for a changelog, `pop` does to the container what `del` does: for
definitions, macros in %prep and entries of a changelog, and for tags if the next lines do not begin with an empty one.
Missing: elements with such lines, see the violations. -/
theorem C90_pop_del_partial [Uni] (k : Nat) :
    (∀ (c : MacroDefinitions) x, c.data[k]? = some x → x.preceding = [] → ((pop c k).1, none) = c.delItem k) ∧
    (∀ (c : Prep) x, c.data[k]? = some x → x.preceding = [] → ((pop c k).1, none) = c.delItem k) ∧
    (∀ (c : Changelog) x, c.data[k]? = some x → x.following.length ≤ 1 → ((pop c k).1, none) = c.delete k) ∧
    (∀ (c : Tags) x, c.data[k]? = some x → x.comments.preceding = [] →
      (∀ y, c.data[k + 1]? = some y → ∀ l, y.comments.preceding.head? = some l → l ≠ []) →
      (c.data.length = k + 1 → ∀ l, c.remainder.head? = some l → l ≠ []) → ((pop c k).1, none) = c.delItem k) := by
  have pos : ∀ {α : Type} {l : List α} {x : α}, l[k]? = some x → k < l.length := by
    intro α l x h
    exact (List.getElem?_eq_some_iff.1 h).1
  have len : ∀ {α : Type} {l : List α} {x : α}, l[k]? = some x → (l.eraseIdx k).length = l.length - 1 := by
    intro α l x h
    rw [List.length_eraseIdx, if_pos (pos h)]
  refine ⟨?_, ?_, ?_, ?_⟩
  · intro c x hx hp
    have hk := pyIndex_ofNat (pos hx)
    simp only [pop, Listed.data, Listed.withData, MacroDefinitions.delItem, hk, hx, Option.map_some, Option.getD_some, hp]
    split
    next hlt =>
      rw [pyIndex_ofNat (by omega)]
      simp only [modify_prepend_nil]
    · rfl
  · intro c x hx hp
    have hk := pyIndex_ofNat (pos hx)
    have hid : Prep.prepend [] = id := by funext x; rfl
    simp only [pop, Listed.data, Listed.withData, Prep.delItem, hk, hx, Option.map_some, Option.getD_some, hp]
    split
    next hlt =>
      rw [pyIndex_ofNat (by omega)]
      simp only [hid, List.modify_id]
    · rfl
  · intro c x hx hp
    have hk := pyIndex_ofNat (pos hx)
    have hd : x.following.drop 1 = [] := List.drop_eq_nil_of_le hp
    have hid : (fun e : ChangelogEntry => { e with following := e.following ++ [] }) = id := by funext x; simp
    simp only [pop, Listed.data, Listed.withData, Changelog.delete, hk, hx, Option.map_some, Option.getD_some, hd]
    split
    next hlt =>
      rw [pyIndex_ofNat (by omega)]
      simp only [hid, List.modify_id]
    · simp
  · intro c x hx hp hn hr
    have hk := pyIndex_ofNat (pos hx)
    have hc : ∀ ls : List Str, (∀ l, ls.head? = some l → l ≠ []) → Tags.compress [] ls = ls := by
      intro ls hls
      cases ls with
      | nil => rfl
      | cons l ls =>
        have : l ≠ [] := hls l rfl
        cases l with
        | nil => exact absurd rfl this
        | cons a l => simp [Tags.compress]
    simp only [pop, Listed.data, Listed.withData, Tags.delItem, hk, hx, Option.map_some, Option.getD_some, hp]
    split
    next hlt =>
      have hlt' : k < (c.data.eraseIdx k).length := by omega
      rw [pyIndex_ofNat hlt']
      simp only [Prod.mk.injEq, and_true]
      congr 1
      apply List.ext_getElem?
      intro j
      rw [List.getElem?_modify]
      split
      next hj =>
        subst hj
        rw [List.getElem?_eraseIdx_of_ge (Nat.le_refl _)]
        cases hy : c.data[k + 1]? with
        | none => rfl
        | some y => simp [hc _ (hn y hy)]
      · simp
    next hge =>
      have := len hx
      have := pos hx
      rw [hc _ (hr (by omega))]

section
attribute [local instance] asciiUni

/-- C90 fails for `pop` and `clear` of tags: the line that begins a condition is lost, the one that ends it is not; `del`
keeps it. -/
theorem C90_violation_tags_pop : ∃ c, Tags.parse Constants.tagNames noExpansion
      [s% "Name: x", s% "%if 1", s% "Epoch: 1", s% "%endif"] = .ok c ∧
    Tags.raw (pop c (-1)).1 = [s% "Name: x", s% "%endif"] ∧ Tags.raw (clear c) = [s% "%endif"] ∧
    Tags.raw (c.delItem 1).1 = [s% "Name: x", s% "%if 1", s% "%endif"] :=
  ⟨_, rfl, by decide +kernel, by decide +kernel, by decide +kernel⟩

/-- C90 fails for `pop` of macro definitions: everything above the definition is lost. -/
theorem C90_violation_definitions_pop :
    let c := MacroDefinitions.parseLines [s% "Name: x", s% "%if 1", s% "%global a 1", s% "%endif"]
    MacroDefinitions.raw (pop c 0).1 = [s% "%endif"] ∧
    MacroDefinitions.raw (c.delItem 0).1 = [s% "Name: x", s% "%if 1", s% "%endif"] := by decide +kernel

/-- C90 fails for `pop` of macros in %prep: everything above the macro is lost. -/
theorem C90_violation_prep_pop : ∃ c, Prep.parse [s% "rm -rf x", s% "%setup -q", s% "make x"] = .ok c ∧
    Prep.raw (pop c 0).1 = [s% "make x"] ∧ Prep.raw (c.delItem 0).1 = [s% "rm -rf x", s% "make x"] :=
  ⟨_, rfl, by decide +kernel, by decide +kernel⟩

/-- C90 fails for `append` to tags: a tag appended after a condition ends up in it, in contrast to one that is inserted at
the end. -/
theorem C90_violation_append : ∃ c t, Tags.parse Constants.tagNames noExpansion [s% "%if 0", s% "Epoch: 1", s% "%endif"] = .ok c ∧
    Tags.mkTag ⟨s% "URL", s% "x", s% ": ", ⟨[], []⟩, true, [], []⟩ = .ok t ∧
    Tags.raw (append c t) = [s% "%if 0", s% "Epoch: 1", s% "URL: x", s% "%endif"] ∧
    Tags.raw (c.insert 1 t).1 = [s% "%if 0", s% "Epoch: 1", s% "%endif", s% "URL: x"] :=
  ⟨_, _, rfl, rfl, by decide +kernel, by decide +kernel⟩

/-- C90 fails for `remove` and `index` of sections: another section with the same lines is removed. -/
theorem C90_violation_sections : ∃ c x, Sections.parse noExpansion [s% "%build", s% "make", s% "%install", s% "make"] = .ok c ∧
    c[2]? = some x ∧ Sections.rawSection x = [s% "%install", s% "make"] ∧ index c x = .ok 1 ∧ (remove c x).2 = none ∧
    Sections.raw (remove c x).1 = [s% "%install", s% "make"] :=
  ⟨_, _, rfl, rfl, by decide +kernel, by decide +kernel, by decide +kernel, by decide +kernel⟩

/-- C90 fails for `remove` of tags: the tag in another branch of the condition is removed, with the beginning of it. -/
theorem C90_violation_tags_remove : ∃ c x, Tags.parse Constants.tagNames noExpansion
      [s% "%if 1", s% "Epoch: 1", s% "%else", s% "Epoch: 1", s% "%endif"] = .ok c ∧
    c.data[1]? = some x ∧ (remove c x).2 = none ∧
    Tags.raw (remove c x).1 = [s% "%else", s% "Epoch: 1", s% "%endif"] :=
  ⟨_, _, rfl, rfl, by decide +kernel, by decide +kernel⟩

/-- C90 fails for comments given by their text: the text is found among them, but is neither counted nor removed. -/
theorem C90_violation_comments (c : Comments) (t : Str) (h : ∃ x ∈ c.data, x.text = t) : Comments.contains c t = true ∧
    (∃ k, indexText c t = .ok k) ∧ countText c t = .ok 0 ∧ removeText c t = (c, some .valueError) := by
  obtain ⟨x, hx, ht⟩ := h
  have hm : t ∈ c.texts := List.mem_map.2 ⟨x, hx, ht⟩
  have h0 : ∀ l : List Comment, countLoop (fun y => commentEqText y t) l = .ok 0 := by
    intro l
    induction l with
    | nil => rfl
    | cons y l ih =>
      rw [countLoop, ih]
      rfl
  refine ⟨by simpa [Comments.contains] using hm, ?_, h0 _, ?_⟩
  · unfold indexText
    split
    next hn =>
      have := List.findIdx?_eq_none_iff.1 hn t hm
      simp at this
    · exact ⟨_, rfl⟩
  · have := (search_none (same := fun y => commentEqText y t) (n := 0) (l := c.data)).2 (fun _ _ => rfl)
    simp only [removeText, this]

/-- a case for the theorems about containers: three definitions, two of them equal -/
example :
    let c := MacroDefinitions.parseLines [s% "%global a 1", s% "%global b 2", s% "%global a 1", s% "Name: x"]
    ∃ x, c.data[2]? = some x ∧ count c x = .ok 2 ∧ index c x = .ok 0 ∧
      MacroDefinitions.raw (remove c x).1 = [s% "%global b 2", s% "%global a 1", s% "Name: x"] ∧
      MacroDefinitions.raw (reverse c) = [s% "%global a 1", s% "%global b 2", s% "%global a 1", s% "Name: x"] ∧
      DenotesAt 3 (-1) 2 ∧ InsertsAt 3 (-1) 2 ∧ InsertsAt 3 7 3 ∧
      MacroDefinitions.raw (ListMethods.insert (pop c (-1)).1 1 x) =
        [s% "%global a 1", s% "%global a 1", s% "%global b 2", s% "Name: x"] :=
  ⟨_, rfl, by decide +kernel, by decide +kernel, by decide +kernel, by decide +kernel, by unfold DenotesAt; decide,
    by unfold InsertsAt; decide, by unfold InsertsAt; decide, by decide +kernel⟩

/-- a changelog is written upwards: the entry that is appended is on top -/
example :
    let c := Changelog.parse [s% "* Mon Jan 01 2024 A <a@b> - 1-1", s% "- first"]
    Changelog.raw (append c ⟨s% "* Tue Jan 02 2024 A <a@b> - 1-2", [s% "- second"], [[]]⟩) =
      [s% "* Tue Jan 02 2024 A <a@b> - 1-2", s% "- second", [], s% "* Mon Jan 01 2024 A <a@b> - 1-1", s% "- first"] := by
  decide +kernel

end

end Specfile.Props
