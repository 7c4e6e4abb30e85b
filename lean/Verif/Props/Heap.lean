import Verif.Proof.Heap4
/-
C83: editing one container never changes another.
-/
namespace Specfile.Props
open Py Spec Heap

/-- memory without any objects -/
def noObjects : Heap where
  lines _ := []
  comment _ := ⟨[], []⟩
  comments _ := ⟨[], 0⟩
  tag _ := ⟨[], [], [], 0, false, [], []⟩
  tags _ := ⟨[], 0⟩
  next := 0

/-- Programs that parse sections, make deep copies and edit them in any order, going on after exceptions: at the end
every container contains what it would contain if containers were values, and the same exceptions were raised. Missing:
other copies, see the violations. -/
theorem C83_programs_partial (program : List Command) :
    (executeAll (noObjects, []) program).1.2.map (readTags (executeAll (noObjects, []) program).1.1) =
      (evaluateAll [] program).1 ∧
    (executeAll (noObjects, []) program).2 = (evaluateAll [] program).2 :=
  (executeAll_ok program (s := (noObjects, []))
    ⟨fun _ h => (List.not_mem_nil h).elim, .nil, fun _ h => (List.not_mem_nil h).elim⟩).2

/-- Containers that have no object in common: after edits in any order each one is as if only it had been edited, and
they still have no object in common. -/
theorem C83_separate (h : Heap) (rs : List Nat) (l : List (Nat × Op)) (own : ∀ r ∈ rs, Own h r)
    (apart : ∀ r ∈ rs, ∀ r' ∈ rs, r ≠ r' → Apart h r r') (hl : ∀ x ∈ l, x.1 ∈ rs) :
    (∀ r ∈ rs, readTags (runAll h l) r = effectOfAll (readTags h r) (opsOn r l)) ∧
    (∀ r ∈ rs, Own (runAll h l) r) ∧ (∀ r ∈ rs, ∀ r' ∈ rs, r ≠ r' → Apart (runAll h l) r r') :=
  runAll_reads rs l h own apart hl

/-- A deep copy is equal to the original and has no object in common with any other container. -/
theorem C83_deepcopy (h : Heap) (r : Nat) (own : Own h r) :
    readTags (deepcopy h r).1 (deepcopy h r).2 = readTags h r ∧
    Own (deepcopy h r).1 (deepcopy h r).2 ∧
    ∀ r', Own h r' → Apart (deepcopy h r).1 (deepcopy h r).2 r' ∧ readTags (deepcopy h r).1 r' = readTags h r' :=
  ⟨(deepcopy_ok own).1, (deepcopy_ok own).2.1, fun r' o => ⟨(deepcopy_ok own).2.2 r' o,
    ((deepcopy_grows h r).untouched o).read⟩⟩

/-- Parsing makes a container that has no object in common with any other container. -/
theorem C83_parse (h : Heap) (m : Tags) : readTags (build h m).1 (build h m).2 = m ∧
    Own (build h m).1 (build h m).2 ∧
    ∀ r', Own h r' → Apart (build h m).1 (build h m).2 r' ∧ readTags (build h m).1 r' = readTags h r' :=
  have b := build_own h m
  ⟨b.2.1, b.2.2.1, fun r' o => ⟨b.2.2.2 r' o, (b.1.untouched o).read⟩⟩

/-! ### example -/

def heapTag (name : Str) (preceding : List Str) : Tag :=
  ⟨name, s% "v", s% ": ", ⟨[⟨s% "about", s% "# "⟩], preceding⟩, true, [], []⟩

/-- two tags, the second one in a condition that is followed by an empty line -/
def heapTags : Tags := ⟨[heapTag (s% "Name") [s% "%global a 1"], heapTag (s% "Version") [s% "%if 1"]], [s% "%endif", []]⟩

/-- parse, copy, delete in the copy, insert before `%endif` in the original, edit comments in both, delete out of range -/
def heapProgram : List Command :=
  [.parse heapTags, .deepcopy 0, .edit 1 (.del 0), .edit 0 (.insert 2 (heapTag (s% "URL") [])),
   .edit 0 (.setText 1 0 (s% "x")), .edit 1 (.append 0 (s% "y")), .edit 1 (.del 7),
   .edit 0 (.delSlice (some 0) none (some 2))]

example : (executeAll (noObjects, []) heapProgram).1.2.map (fun r =>
      (readTags (executeAll (noObjects, []) heapProgram).1.1 r).raw) =
    [[s% "%global a 1", s% "%if 1", s% "# x", s% "Version: v", s% "%endif", []],
     [s% "%global a 1", s% "%if 1", s% "# about", s% "# y", s% "Version: v", s% "%endif", []]] ∧
    (executeAll (noObjects, []) heapProgram).2 =
      [none, none, none, none, none, none, some .indexError, none] := by decide +kernel

/-- two containers that have been made by parsing -/
example : ∃ h r r', Own h r ∧ Own h r' ∧ Apart h r' r ∧ (readTags h r).data.length = 2 ∧ readTags h r' = readTags h r := by
  have b := C83_parse noObjects heapTags
  have d := C83_deepcopy _ _ b.2.1
  have e := (d.2.2 _ b.2.1).2
  refine ⟨_, _, _, (deepcopy_grows _ _).untouched b.2.1 |>.own (deepcopy_grows _ _).grow b.2.1, d.2.1, (d.2.2 _ b.2.1).1, ?_, ?_⟩
  · rw [e, b.1]; rfl
  · rw [d.1, e]

/-! ### violations -/

/-- the memory after parsing, and the container -/
def heapStart : Heap × Nat := build noObjects heapTags

/-- After deleting the last tag in `tags.copy()` the original has got the lines before that tag a second time, because
both have the same list of remaining lines. -/
theorem C83_violation_copy :
    (readTags heapStart.1 heapStart.2).raw = [s% "%global a 1", s% "# about", s% "Name: v", s% "%if 1", s% "# about",
      s% "Version: v", s% "%endif", []] ∧
    (readTags (delItem (copyTags heapStart.1 heapStart.2).1 (copyTags heapStart.1 heapStart.2).2 1).1 heapStart.2).raw =
      [s% "%global a 1", s% "# about", s% "Name: v", s% "%if 1", s% "# about", s% "Version: v", s% "%if 1", s% "%endif",
       []] := by decide +kernel

/-- After deleting the first tag in `tags[:]` the original has got the lines before that tag a second time. -/
theorem C83_violation_slice :
    (readTags (delItem (sliceAll heapStart.1 heapStart.2).1 (sliceAll heapStart.1 heapStart.2).2 0).1 heapStart.2).raw =
      [s% "%global a 1", s% "# about", s% "Name: v", s% "%global a 1", s% "%if 1", s% "# about", s% "Version: v",
       s% "%endif", []] := by decide +kernel

/-- `tags.insert(2, Tag("URL", "v", ": ", tags[0].comments))` also puts `%endif` before the first tag, because both tags
have the same list of preceding lines. -/
theorem C83_violation_comments :
    let h := heapStart.1
    let r := heapStart.2
    let t := newTag h ⟨s% "URL", s% "v", s% ": ", (h.tag ((h.tags r).data[0]?.getD 0)).comments, true, [], []⟩
    (readTags (insert t.1 r 2 t.2).1 r).raw =
      [s% "%endif", s% "%global a 1", s% "# about", s% "Name: v", s% "%if 1", s% "# about", s% "Version: v",
       s% "%endif", s% "%global a 1", s% "# about", s% "URL: v", []] := by decide +kernel

end Specfile.Props
