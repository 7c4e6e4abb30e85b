import Verif.Proof.Sharing3
import Verif.Props.Slices
/-
C96: containers that share their elements.
-/
namespace Specfile.Props
open Py ListMethods Slices Sharing Spec SharingProof
open Heap (upd)

/-- The five kinds of containers: changelogs, macro definitions, macros in %prep, sections and listed sources. -/
theorem C96_containers [Uni] : Sound Changelog ∧ Sound MacroDefinitions ∧ Sound Prep ∧ Sound Sections ∧ Sound Sourcelist :=
  ⟨changelog_sound, definitions_sound, prep_sound, sections_sound, sourcelist_sound⟩

section
variable {C α : Type} [Deleting C α]

/-- Programs that make any number of containers by parsing, `copy()`, slices and deep copies, edit them in any order and
insert elements of one into another, going on after exceptions: at the end every container contains what it would contain
if containers were values, and the same exceptions were raised. Missing: programs that delete elements from, or change
elements of, a container that was copied with `copy()` or a slice, see the violations. -/
theorem C96_programs_partial (S : Sound C) (h : Mem α) (program : List (Statement C α))
    (careful : Careful ⟨0, [], []⟩ program) :
    (performAll (h, []) program).1.2.map (contents C (performAll (h, []) program).1.1) = (calculateAll [] program).1 ∧
    (performAll (h, []) program).2 = (calculateAll [] program).2 :=
  performAll_ok S program (marked_nothing h) careful

/-- statements after which containers may have objects in common -/
def Shares : Statement C α → Prop
  | .copy _ | .slice .. | .put .. => True
  | _ => False

/-- Programs without `copy()`, slices and elements in two containers are careful, and so are programs that do not edit in
place. -/
theorem C96_careful (program : List (Statement C α))
    (H : (∀ s ∈ program, ¬ Shares s) ∨ (∀ x e, .edit x e ∈ program → ¬ InPlace C e)) :
    Careful ⟨0, [], []⟩ program := by
  rcases H with H | H
  · have : ∀ (l : List (Statement C α)) (n : Nat), (∀ s ∈ l, ¬ Shares s) → Careful ⟨n, [], []⟩ l := by
      intro l
      induction l with
      | nil => intros; trivial
      | cons s l ih =>
        intro n hl
        have hs := hl s (by simp)
        have hl' : ∀ s ∈ l, ¬ Shares s := fun t ht => hl t (by simp [ht])
        cases s with
        | parse c => exact ih (n + 1) hl'
        | deepcopy x =>
          simp only [Careful, Marks.after]
          split
          · simpa using ih (n + 1) hl'
          · exact ih n hl'
        | edit x e => exact ⟨fun _ => List.not_mem_nil, ih n hl'⟩
        | copy x => exact absurd trivial hs
        | slice => exact absurd trivial hs
        | put => exact absurd trivial hs
    exact this program 0 H
  · have : ∀ (l : List (Statement C α)) (m : Marks), (∀ x e, .edit x e ∈ l → ¬ InPlace C e) → Careful m l := by
      intro l
      induction l with
      | nil => intros; trivial
      | cons s l ih =>
        intro m hl
        have hl' : ∀ x e, .edit x e ∈ l → ¬ InPlace C e := fun x e ht => hl x e (by simp [ht])
        cases s with
        | edit x e => exact ⟨fun p => absurd p (hl x e (by simp)), ih m hl'⟩
        | parse c => exact ih _ hl'
        | deepcopy x => exact ih _ hl'
        | copy x => exact ih _ hl'
        | slice x _ _ _ => exact ih _ hl'
        | put x _ y _ => exact ih _ hl'
    exact this program _ H

/-- Whatever was copied before: inserting, appending, assigning, popping, clearing and reversing in one container never
changes another one. -/
theorem C96_list_edits (S : Sound C) (h : Mem α) (program : List (Statement C α)) (x y : Nat) (ne : x ≠ y) (r r' : Nat)
    (hx : (performAll (h, []) program).1.2[x]? = some r) (hy : (performAll (h, []) program).1.2[y]? = some r')
    (e : Edit α) (he : ¬ InPlace C e) :
    contents C (e.run C (performAll (h, []) program).1.1 r).1 r' = contents C (performAll (h, []) program).1.1 r' := by
  have k := performAll_marked S program (marked_nothing h)
  refine edit_other (frame_edit _ r e (k.exist r (List.mem_of_getElem? hx))) ?_ (k.exist r' (List.mem_of_getElem? hy))
    (fun p => absurd p he)
  rintro rfl
  have a := List.getElem?_eq_some_iff.1 hx
  have b := List.getElem?_eq_some_iff.1 hy
  exact ne ((List.getElem_inj k.distinct).1 (a.2.trans b.2.symm))

/-- All containers that a program can make exist: the condition of the following theorems. -/
theorem C96_reachable (S : Sound C) (h : Mem α) (program : List (Statement C α)) :
    ∀ r ∈ (performAll (h, []) program).1.2, Exists (performAll (h, []) program).1.1 r :=
  (performAll_marked S program (marked_nothing h)).exist

theorem getElem?_eraseIdx_last {β : Type} {l : List β} {k : Nat} (hk : k < l.length) :
    ((k : Int) < ((l.eraseIdx k).length : Int)) ↔ k + 1 ≠ l.length := by
  rw [List.length_eraseIdx_of_lt hk]
  omega

/-- after deleting from a container `r'` with the elements of `r`, the latter is unchanged only under these conditions -/
theorem delete_shared (S : Sound C) (p : Passing.passes C = true) {h : Mem α} {r r' : Nat} (ne : r ≠ r') (w : Exists h r)
    (hd : (h.obj r').data = (h.obj r).data) {k a : Nat} (hk : (h.obj r).data[k]? = some a) :
    contents C (Sharing.delItem C h r' k).1 r = contents C h r ↔
      Passing.lines C (h.item a) = [] ∨
        (k + 1 = (h.obj r).data.length ∧ (Passing.inPlace C = false ∨ (h.obj r).rest ≠ (h.obj r').rest)) := by
  have lt := (List.getElem?_eq_some_iff.1 hk).1
  unfold Sharing.delItem
  rw [hd, pyIndex_ofNat lt]
  simp only [p, if_true, hk, Option.map_some, Option.getD_some]
  have inj : ∀ {l l' : List α} {s s' : List Str}, (Passing.build l s : C) = Passing.build l' s' → l = l' ∧ s = s' := by
    intro l l' s s' e
    refine ⟨?_, ?_⟩
    · rw [← S.data (C := C) l s, e, S.data]
    · rw [← S.rest (C := C) p l s, e, S.rest p]
  by_cases hl : k + 1 = (h.obj r).data.length
  · rw [if_neg (fun q => (getElem?_eraseIdx_last lt).1 q hl)]
    by_cases ip : Passing.inPlace C = true
    · simp only [ip, if_true, hl, true_and, Bool.true_eq_false, false_or]
      by_cases er : (h.obj r).rest = (h.obj r').rest
      · simp only [contents, withData, upd, if_neg ne, er, if_true, ne_eq, not_true, or_false]
        constructor
        · intro e
          exact (S.below p _ _).1 (inj e).2
        · intro e
          rw [(S.below p _ _).2 e]
      · simp only [contents, withData, upd, if_neg ne, ne_eq, er, if_false, not_false_eq_true, or_true]
    · simp only [ip, Bool.false_eq_true, if_false, hl, true_and]
      have nr : (h.obj r).rest ≠ h.next := Nat.ne_of_lt w.rest
      simp [contents, withData, upd, ne, nr]
  · rw [if_pos ((getElem?_eraseIdx_last lt).2 hl)]
    have lt' : k < ((h.obj r).data.eraseIdx k).length := by
      rw [List.length_eraseIdx_of_lt lt]; omega
    rw [pyIndex_ofNat lt']
    simp only [hl, false_and, or_false]
    obtain ⟨b, hb⟩ : ∃ b, ((h.obj r).data.eraseIdx k)[k]? = some b := ⟨_, List.getElem?_eq_getElem lt'⟩
    simp only [hb]
    have mb : b ∈ (h.obj r).data := (List.eraseIdx_sublist _ k).subset (List.mem_of_getElem? hb)
    simp only [contents, withData, upd, if_neg ne]
    constructor
    · intro e
      have e1 := List.map_eq_map_iff.1 (inj e).1 b mb
      simp only [upd, if_true] at e1
      exact (S.pass p _ _).1 e1
    · intro e
      congr 1
      refine List.map_congr_left fun c _ => ?_
      by_cases q : c = b
      · subst q; simp only [upd, if_true]; exact (S.pass p _ _).2 e
      · simp only [upd, if_neg q]

/-- After `y = x.copy()`, a change of an element of `y` is a change of the same element of `x`. -/
theorem C96_copy_changes (S : Sound C) (h : Mem α) (r : Nat) (w : Exists h r) (n : (h.obj r).data.Nodup) (i : Int)
    (f : α → α) :
    contents C ((Edit.change i f).run C (copyOf h r).1 (copyOf h r).2).1 r = (editValue (contents C h r) (.change i f)).1 := by
  have ne : r ≠ h.next := Nat.ne_of_lt w.self
  have o : (copyOf h r).1.obj (copyOf h r).2 = h.obj r := by simp [copyOf, upd]
  have e := (edit_self S h r w (.change i f) (fun _ => n)).1
  rw [← e]
  simp only [Edit.run, o]
  cases pyIndex (h.obj r).data.length i with
  | none => simp [contents, copyOf, upd, ne]
  | some k =>
    simp only
    cases (h.obj r).data[k]? with
    | none => simp [contents, copyOf, upd, ne]
    | some a =>
      have q : (copyOf h r).1.obj r = h.obj r := by simp [copyOf, upd, ne]
      simp only [contents, q]
      rfl

/-- After `y = x.copy()`, deleting an element of `y` leaves `x` alone exactly if no lines are passed on, or if the element
is the last one and the other lines are not changed in place: the next element, which gets the lines, is shared. -/
theorem C96_copy_violation (S : Sound C) (p : Passing.passes C = true) (h : Mem α) (r : Nat) (w : Exists h r) (k : Nat) (x : α)
    (hk : (Listed.data (contents C h r))[k]? = some x) :
    contents C (Sharing.delItem C (copyOf h r).1 (copyOf h r).2 k).1 r = contents C h r ↔
      Passing.lines C x = [] ∨ (k + 1 = (Listed.data (contents C h r)).length ∧ Passing.inPlace C = false) := by
  have ne : r ≠ h.next := Nat.ne_of_lt w.self
  have o : (copyOf h r).1.obj r = h.obj r := by simp [copyOf, upd, ne]
  have o' : (copyOf h r).1.obj (copyOf h r).2 = h.obj r := by simp [copyOf, upd]
  rw [data_read S, List.getElem?_map] at hk
  obtain ⟨a, ha, rfl⟩ := Option.map_eq_some_iff.1 hk
  have c : contents C (copyOf h r).1 r = contents C h r := by simp only [contents, o]; rfl
  have d := delete_shared S p (h := (copyOf h r).1) (r := r) (r' := (copyOf h r).2) ne
    ⟨Nat.lt_succ_of_lt w.self, by rw [o]; exact fun a ha => Nat.lt_succ_of_lt (w.data a ha),
      by rw [o]; exact Nat.lt_succ_of_lt w.rest⟩ (by rw [o, o']) (k := k) (a := a) (by rw [o]; exact ha)
  rw [c, o, o'] at d
  rw [d, data_read S, List.length_map]
  simp [copyOf]

theorem rangeUp_one {n : Nat} : ∀ (fuel k : Nat), k + fuel = n → rangeUp 1 n fuel k = List.range' k fuel
  | 0, k, _ => rfl
  | fuel + 1, k, e => by
    rw [rangeUp, if_pos (by omega), rangeUp_one fuel (k + 1) (by omega)]
    rfl

theorem pick_all {β : Type} : ∀ (l pre : List β), pick (pre ++ l) (List.range' pre.length l.length) = l
  | [], pre => by simp [pick]
  | x :: l, pre => by
    have ih := pick_all l (pre ++ [x])
    rw [List.append_assoc, List.singleton_append, List.length_append, List.length_singleton] at ih
    rw [List.length_cons, List.range'_succ]
    simp only [pick, List.filterMap_cons] at ih ⊢
    simp [ih]

/-- After `y = x[:]`, deleting an element of `y` leaves `x` alone exactly if no lines are passed on or the element is the
last one. -/
theorem C96_slice_violation (S : Sound C) (p : Passing.passes C = true) (h h' : Mem α) (r r' : Nat) (w : Exists h r)
    (hs : sliceOf h r none none none = .ok (h', r')) (k : Nat) (x : α)
    (hk : (Listed.data (contents C h r))[k]? = some x) :
    contents C h' r' = contents C h r ∧
    (contents C (Sharing.delItem C h' r' k).1 r = contents C h r ↔
      Passing.lines C x = [] ∨ k + 1 = (Listed.data (contents C h r)).length) := by
  have e : sliceIndices (h.obj r).data.length none none none = .ok (List.range' 0 (h.obj r).data.length) := by
    rw [← rangeUp_one _ 0 (Nat.zero_add _)]
    simp [sliceIndices]
  have pk : pick (h.obj r).data (List.range' 0 (h.obj r).data.length) = (h.obj r).data := by
    simpa using pick_all (h.obj r).data []
  rw [sliceOf, e] at hs
  simp only [pk, Except.ok.injEq] at hs
  have ne : r ≠ h.next := Nat.ne_of_lt w.self
  obtain rfl : h' = (newObj h (h.obj r).data (h.lines (h.obj r).rest)).1 := by rw [hs]
  obtain rfl : r' = h.next := by
    have := congrArg Prod.snd hs
    exact this.symm
  have o : (newObj h (h.obj r).data (h.lines (h.obj r).rest)).1.obj r = h.obj r := by simp [newObj, upd, ne]
  have o' : (newObj h (h.obj r).data (h.lines (h.obj r).rest)).1.obj h.next = ⟨(h.obj r).data, h.next⟩ := by
    simp [newObj, upd]
  have nr : (h.obj r).rest ≠ h.next := Nat.ne_of_lt w.rest
  rw [data_read S, List.getElem?_map] at hk
  obtain ⟨a, ha, rfl⟩ := Option.map_eq_some_iff.1 hk
  have c : contents C (newObj h (h.obj r).data (h.lines (h.obj r).rest)).1 r = contents C h r := by
    simp only [contents, o]
    simp [newObj, upd, nr]
  refine ⟨by simp only [contents, o']; simp [newObj, upd], ?_⟩
  have d := delete_shared S p (h := (newObj h (h.obj r).data (h.lines (h.obj r).rest)).1) (r := r) (r' := h.next) ne
    ⟨Nat.lt_succ_of_lt w.self, by rw [o]; exact fun a ha => Nat.lt_succ_of_lt (w.data a ha),
      by rw [o]; exact Nat.lt_succ_of_lt w.rest⟩ (by rw [o, o']) (k := k) (a := a) (by rw [o]; exact ha)
  rw [c, o, o'] at d
  rw [d, data_read S, List.length_map]
  simp [nr, newObj]

end

/-! ### example -/

def sharedEntry (header : Str) (following : List Str) : ChangelogEntry := ⟨header, [s% "- change"], following⟩

/-- two entries, the older one with two empty lines after it -/
def sharedChangelog : Changelog := ⟨[sharedEntry (s% "* one") [[], []], sharedEntry (s% "* two") [[]]], []⟩

/-- parse, copy, insert in the original, take a deep copy of the copy, delete and change there, move an element -/
def sharingProgram : List (Statement Changelog ChangelogEntry) :=
  [.parse sharedChangelog, .copy 0, .edit 0 (.insert 2 (sharedEntry (s% "* three") [[]])), .edit 1 .reverse, .deepcopy 1,
   .edit 2 (.del 1), .edit 2 (.change 0 (fun e => { e with content := [s% "- other"] })), .slice 0 (some 1) none none,
   .put 3 0 2 0, .edit 3 (.pop 7), .edit 3 (.pop (-1))]

example : Careful ⟨0, [], []⟩ sharingProgram := by
  simp [sharingProgram, Careful, Marks.after, InPlace]

/-- memory without objects -/
def noEntries : Mem ChangelogEntry := ⟨fun _ => ⟨[], [], []⟩, fun _ => [], fun _ => ⟨[], 0⟩, 0⟩

example : (calculateAll [] sharingProgram).1.map Changelog.raw =
    [[s% "* three", s% "- change", [], s% "* two", s% "- change", [], s% "* one", s% "- change", [], []],
     [s% "* one", s% "- change", [], [], s% "* two", s% "- change", []],
     [[], s% "* two", s% "- other", []],
     [s% "* two", s% "- change", [], s% "* two", s% "- other", []]] ∧
    (calculateAll [] sharingProgram).2 =
      [none, none, none, none, none, none, none, none, none, some .indexError, none] := by decide +kernel

/-- a memory with the changelog -/
def sharedStart : Mem ChangelogEntry × Nat := parsed noEntries sharedChangelog

/-- After deleting the older entry from `changelog.copy()`, an empty line was added to the changelog that was copied. -/
example : (contents Changelog sharedStart.1 sharedStart.2).raw =
      [s% "* two", s% "- change", [], s% "* one", s% "- change", [], []] ∧
    (contents Changelog (Sharing.delItem Changelog (copyOf sharedStart.1 sharedStart.2).1
        (copyOf sharedStart.1 sharedStart.2).2 0).1 sharedStart.2).raw =
      [s% "* two", s% "- change", [], [], s% "* one", s% "- change", [], []] := by
  decide +kernel

/-- the same after deleting the newer entry, if it has two empty lines after it: they are added above the changelog -/
example :
    let s := parsed noEntries (⟨[sharedEntry (s% "* one") [[]], sharedEntry (s% "* two") [[], []]], []⟩ : Changelog)
    (contents Changelog (Sharing.delItem Changelog (copyOf s.1 s.2).1 (copyOf s.1 s.2).2 1).1 s.2).raw =
      [[], s% "* two", s% "- change", [], [], s% "* one", s% "- change", []] := by
  decide +kernel

end Specfile.Props
