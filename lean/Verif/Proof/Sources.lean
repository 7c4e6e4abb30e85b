import Verif.Proof.Tags5
import Verif.Proof.MacroDefinitions4
import Verif.Py.Num
import Verif.Spec.Sources
/-
Sources: numbers and positions.
-/
namespace Specfile.Sources
open Py Regex Spec

variable [Uni]

theorem trailing_append (name : Str) : ∃ a, name = a ++ trailingDigits name ∧
    (∀ c ∈ a.getLast?, Uni.isDecimal c = false) ∧ (trailingDigits name).all Uni.isDecimal = true := by
  refine ⟨(name.reverse.dropWhile Uni.isDecimal).reverse, ?_, ?_, ?_⟩
  · unfold trailingDigits
    rw [← List.reverse_append, List.takeWhile_append_dropWhile, List.reverse_reverse]
  · intro c hc
    rw [List.getLast?_reverse] at hc
    have := List.head?_dropWhile_not Uni.isDecimal name.reverse
    rw [hc] at this
    simpa using this
  · unfold trailingDigits
    rw [List.all_reverse]
    exact List.all_takeWhile

theorem run_number_inv {s t : St Nat} (h : t ∈ run numberRe s) (hn : '\n' ∉ s.rest) :
    s.rest.all Uni.isDecimal = true ∧ s.rest ≠ [] := by
  unfold numberRe plus at h
  rw [mem_cat] at h
  obtain ⟨u, hu, h⟩ := h
  rw [mem_grp_rep] at hu
  obtain ⟨w, r, h1, h2, h3, rfl⟩ := hu
  rw [mem_eos] at h
  obtain ⟨-, h | h⟩ := h
  · simp only at h
    subst h
    rw [List.append_nil] at h1
    rw [h1]
    exact ⟨h2, by intro e; rw [e] at h3; simp at h3⟩
  · simp only at h
    exact absurd (by rw [h1, h]; simp) hn

theorem extractNumber_eq {name : Str} (hn : '\n' ∉ name) :
    extractNumber name = if trailingDigits name = [] then none else some (trailingDigits name) := by
  obtain ⟨a, e, ha, hd⟩ := trailing_append name
  generalize hq : trailingDigits name = d at *
  have hno : ∀ x y, a = x ++ y → y ≠ [] → run numberRe ⟨x.reverse ++ [], y ++ d, []⟩ = [] := by
    intro x y hxy hy
    rw [List.eq_nil_iff_forall_not_mem]
    intro t ht
    have := (run_number_inv ht (by
      intro h; apply hn; rw [e, hxy]; simp only [List.mem_append] at h ⊢
      rcases h with h | h
      · exact .inl (.inr h)
      · exact .inr h)).1
    have hl : ∃ c, y.getLast? = some c := by
      cases h : y.getLast? with
      | none => exact absurd (List.getLast?_eq_none_iff.1 h) hy
      | some c => exact ⟨c, rfl⟩
    obtain ⟨c, hc⟩ := hl
    have h1 := ha c (by rw [hxy, List.getLast?_append, hc]; simp)
    rw [List.all_append, Bool.and_eq_true, List.all_eq_true] at this
    rw [this.1 c (List.mem_of_getLast? hc)] at h1
    cases h1
  unfold extractNumber search
  by_cases hd0 : d = []
  · rw [if_pos hd0]
    subst hd0
    rw [MacroDefinitions.searchFrom_none]
    intro x y hxy
    by_cases hy : y = []
    · subst hy
      rw [List.eq_nil_iff_forall_not_mem]
      intro t ht
      exact (run_number_inv ht (by simp)).2 rfl
    · have := hno x y (by rw [List.append_nil] at e; rw [← e]; exact hxy) hy
      simpa using this
  · rw [if_neg hd0, e]
    rw [MacroDefinitions.searchFrom_first (w := a) (rest := d) (t := ⟨d.reverse ++ (a.reverse ++ []), [], [(1, d)]⟩) hno]
    · simp [St.get]
    · unfold numberRe plus
      apply head_grp_greedy (w := d) (r' := []) (by simp) hd
      · cases d with
        | nil => exact absurd rfl hd0
        | cons c cs => simp
      · intro c hc; cases hc
      · rfl

/-! ### tags as entries -/

/-- the entry of a tag as the code sees it -/
def entryM (kind : Str) (t : Tag) : Option (Option Nat) :=
  if Tags.normalizedName t = kind then some none
  else if (rmatch (numberedRe kind) (Tags.normalizedName t)).isSome then some (some (number ⟨0, t, none⟩))
  else none

theorem numbered_iff {kind n : Str} : (rmatch (numberedRe kind) n).isSome =
    (kind.isPrefixOf n && ((n.drop kind.length).head?).any Uni.isDecimal) := by
  rw [Bool.eq_iff_iff]
  constructor
  · intro h
    obtain ⟨t, ht⟩ := Option.isSome_iff_exists.1 h
    have ht := List.mem_of_head? ht
    unfold numberedRe at ht
    rw [mem_cat] at ht
    obtain ⟨u, hu, ht⟩ := ht
    rw [mem_lit] at hu
    obtain ⟨r, hr, rfl⟩ := hu
    unfold plus at ht
    rw [mem_rep'] at ht
    obtain ⟨w, r', h1, h2, h3, rfl⟩ := ht
    simp only [init] at hr
    simp only at h1
    subst hr h1
    cases w with
    | nil => simp at h3
    | cons c w =>
      simp only [List.all_cons, Bool.and_eq_true] at h2
      simp [List.isPrefixOf_iff_prefix, h2.1]
  · intro h
    rw [Bool.and_eq_true, List.isPrefixOf_iff_prefix] at h
    obtain ⟨⟨r, rfl⟩, h⟩ := h
    rw [List.drop_left] at h
    cases r with
    | nil => simp at h
    | cons c r =>
      simp only [List.head?_cons, Option.any_some] at h
      cases hm : rmatch (numberedRe kind) (kind ++ c :: r) with
      | some t => rfl
      | none =>
        exfalso
        rw [rmatch_none] at hm
        refine hm ⟨[c] ++ (kind.reverse ++ []), r, []⟩ ?_
        unfold numberedRe
        rw [mem_cat]
        refine ⟨⟨kind.reverse ++ [], c :: r, []⟩, mem_lit.2 ⟨c :: r, rfl, rfl⟩, ?_⟩
        unfold plus
        rw [mem_rep']
        exact ⟨[c], r, rfl, by simpa using h, by simp, rfl⟩

theorem entryM_isSome (kind : Str) (t : Tag) : (entryM kind t).isSome = (sourceEntry kind t).isSome := by
  unfold entryM sourceEntry
  rw [numbered_iff]
  unfold Tags.normalizedName
  split
  · rfl
  · split <;> rfl

theorem entryM_none (kind : Str) (t : Tag) : entryM kind t = some none ↔ sourceEntry kind t = some none := by
  unfold entryM sourceEntry
  rw [numbered_iff]
  unfold Tags.normalizedName
  split
  · simp
  · split <;> simp

theorem entryM_eq {kind : Str} {t : Tag} (hn : '\n' ∉ t.name) : entryM kind t = sourceEntry kind t := by
  unfold entryM sourceEntry
  rw [numbered_iff]
  unfold Tags.normalizedName
  split
  · rfl
  · split
    · unfold number
      simp only [extractNumber_eq hn]
      split
      · rename_i h
        split at h
        · rename_i h2; rw [h2]; simp [decVal]
        · cases h
      · rename_i h
        split at h
        · cases h
        · simp only [Option.some.injEq] at h; rw [h]
    · rfl

/-- entries as the code sees them -/
def ents (kind : Str) (ts : List Tag) : List (Option Nat) := ts.filterMap (entryM kind)

/-- locations of source tags -/
def vals (kind : Str) (ts : List Tag) : List Str := (ts.filter (fun t => (entryM kind t).isSome)).map (·.value)

theorem vals_eq (kind : Str) (ts : List Tag) : vals kind ts = (Spec.sourceTags kind ts).map (·.2) := by
  induction ts with
  | nil => rfl
  | cons t ts ih =>
    unfold vals Spec.sourceTags at *
    rw [List.filter_cons, List.filterMap_cons, entryM_isSome]
    cases h : sourceEntry kind t with
    | none => simpa using ih
    | some e => simpa using ih

theorem ents_eq {kind : Str} {ts : List Tag} (hn : ∀ t ∈ ts, '\n' ∉ t.name) :
    ents kind ts = (Spec.sourceTags kind ts).map (·.1) := by
  induction ts with
  | nil => rfl
  | cons t ts ih =>
    have ih := ih (fun t ht => hn t (.tail _ ht))
    unfold ents Spec.sourceTags at *
    rw [List.filterMap_cons, List.filterMap_cons, entryM_eq (hn t (.head _))]
    cases h : sourceEntry kind t with
    | none => simpa using ih
    | some e => simpa using ih

theorem ents_length (kind : Str) (ts : List Tag) : (ents kind ts).length = (vals kind ts).length := by
  induction ts with
  | nil => rfl
  | cons t ts ih =>
    unfold ents vals at *
    rw [List.filter_cons, List.filterMap_cons]
    cases h : entryM kind t with
    | none => simpa using ih
    | some e => simpa using ih

theorem ents_append (kind : Str) (a b : List Tag) : ents kind (a ++ b) = ents kind a ++ ents kind b := by
  simp [ents]

theorem vals_append (kind : Str) (a b : List Tag) : vals kind (a ++ b) = vals kind a ++ vals kind b := by
  simp [vals]

theorem ents_cons_none {kind : Str} {t : Tag} {ts : List Tag} (h : entryM kind t = none) :
    ents kind (t :: ts) = ents kind ts := by simp [ents, h]

theorem ents_cons_some {kind : Str} {t : Tag} {ts : List Tag} {e : Option Nat} (h : entryM kind t = some e) :
    ents kind (t :: ts) = e :: ents kind ts := by simp [ents, h]

theorem vals_cons_none {kind : Str} {t : Tag} {ts : List Tag} (h : entryM kind t = none) :
    vals kind (t :: ts) = vals kind ts := by simp [vals, h]

theorem vals_cons_some {kind : Str} {t : Tag} {ts : List Tag} {e : Option Nat} (h : entryM kind t = some e) :
    vals kind (t :: ts) = t.value :: vals kind ts := by simp [vals, h]

theorem entryM_bare (kind : Str) (t : Tag) : entryM kind (bare t) = entryM kind t := rfl

theorem ents_bare (kind : Str) (ts : List Tag) : ents kind (ts.map bare) = ents kind ts := by
  simp only [ents, List.filterMap_map]
  rfl

theorem vals_bare (kind : Str) (ts : List Tag) : vals kind (ts.map bare) = vals kind ts := by
  simp only [vals, List.filter_map, List.map_map]
  rfl

theorem ents_of_bare {kind : Str} {a b : List Tag} (h : a.map bare = b.map bare) : ents kind a = ents kind b := by
  rw [← ents_bare, h, ents_bare]

theorem vals_of_bare {kind : Str} {a b : List Tag} (h : a.map bare = b.map bare) : vals kind a = vals kind b := by
  rw [← vals_bare, h, vals_bare]

/-- the number after the last one -/
def nextOf : Nat → List (Option Nat) → Nat
  | next, [] => next
  | next, none :: es => nextOf (next + 1) es
  | _, some n :: es => nextOf (n + 1) es

omit [Uni] in
theorem nextOf_append (next : Nat) (a b : List (Option Nat)) : nextOf next (a ++ b) = nextOf (nextOf next a) b := by
  induction a generalizing next with
  | nil => rfl
  | cons e es ih => cases e <;> simp [nextOf, ih]

omit [Uni] in
theorem numberEntries_append (next : Nat) (a b : List (Option Nat)) :
    numberEntries next (a ++ b) = numberEntries next a ++ numberEntries (nextOf next a) b := by
  induction a generalizing next with
  | nil => rfl
  | cons e es ih => cases e <;> simp [numberEntries, nextOf, ih]

omit [Uni] in
theorem numberEntries_length (next : Nat) (a : List (Option Nat)) : (numberEntries next a).length = a.length := by
  induction a generalizing next with
  | nil => rfl
  | cons e es ih => cases e <;> simp [numberEntries, ih]

omit [Uni] in
theorem numberEntries_last (next : Nat) (a : List (Option Nat)) :
    (match (numberEntries next a).getLast? with
     | none => next
     | some n => n + 1) = nextOf next a := by
  induction a generalizing next with
  | nil => rfl
  | cons e es ih =>
    cases e with
    | none =>
      simp only [numberEntries, nextOf, List.getLast?_cons]
      rw [← ih (next + 1)]
      cases (numberEntries (next + 1) es).getLast? <;> rfl
    | some n =>
      simp only [numberEntries, nextOf, List.getLast?_cons]
      rw [← ih (n + 1)]
      cases (numberEntries (n + 1) es).getLast? <;> rfl

theorem number_idx (i j : Nat) (t : Tag) : number ⟨i, t, none⟩ = number ⟨j, t, none⟩ := rfl

/-- the source of a tag -/
def srcOf (i next : Nat) (t : Tag) (e : Option Nat) : TagSource :=
  ⟨i, t, match e with
    | none => some next
    | some _ => none⟩

theorem tagLoop_cons_none {kind : Str} {t : Tag} (h : entryM kind t = none) (next i : Nat) (ts : List Tag) :
    tagLoop kind next i (t :: ts) = tagLoop kind next (i + 1) ts := by
  unfold entryM at h
  rw [tagLoop]
  split at h
  · cases h
  · split at h
    · cases h
    · rename_i h1 h2; rw [if_neg h1, if_neg h2]

theorem tagLoop_cons_some {kind : Str} {t : Tag} {e : Option Nat} (h : entryM kind t = some e) (next i : Nat)
    (ts : List Tag) :
    tagLoop kind next i (t :: ts) = srcOf i next t e :: tagLoop kind (nextOf next [e]) (i + 1) ts := by
  unfold entryM at h
  rw [tagLoop]
  split at h
  · rename_i h1
    rw [if_pos h1]
    cases h
    rfl
  · rename_i h1
    split at h
    · rename_i h2
      rw [if_neg h1, if_pos h2]
      cases h
      rfl
    · cases h

theorem number_srcOf {kind : Str} {t : Tag} {e : Option Nat} (h : entryM kind t = some e) (i next : Nat) :
    number (srcOf i next t e) = (match e with
      | none => next
      | some n => n) := by
  cases e with
  | none => rfl
  | some n =>
    unfold entryM at h
    split at h
    · cases h
    · split at h
      · cases h; rfl
      · cases h

theorem tagLoop_numbers (kind : Str) (next i : Nat) (ts : List Tag) :
    (tagLoop kind next i ts).map number = numberEntries next (ents kind ts) ∧
    (tagLoop kind next i ts).map (·.tag.value) = vals kind ts := by
  induction ts generalizing next i with
  | nil => exact ⟨rfl, rfl⟩
  | cons t ts ih =>
    cases h : entryM kind t with
    | none =>
      rw [tagLoop_cons_none h, ents_cons_none h, vals_cons_none h]
      exact ih _ _
    | some e =>
      rw [tagLoop_cons_some h, ents_cons_some h, vals_cons_some h, List.map_cons, List.map_cons, (ih _ _).1, (ih _ _).2,
        number_srcOf h]
      cases e <;> exact ⟨rfl, rfl⟩

theorem tagLoop_append (kind : Str) (next i : Nat) (a b : List Tag) :
    tagLoop kind next i (a ++ b) = tagLoop kind next i a ++ tagLoop kind (nextOf next (ents kind a)) (i + a.length) b := by
  induction a generalizing next i with
  | nil => simp [tagLoop, ents, nextOf]
  | cons t ts ih =>
    rw [List.cons_append]
    cases h : entryM kind t with
    | none =>
      rw [tagLoop_cons_none h, tagLoop_cons_none h, ents_cons_none h, ih, List.length_cons,
        show i + 1 + ts.length = i + (ts.length + 1) by omega]
    | some e =>
      rw [tagLoop_cons_some h, tagLoop_cons_some h, ents_cons_some h, ih, List.length_cons,
        show i + 1 + ts.length = i + (ts.length + 1) by omega, List.cons_append,
        show nextOf next (e :: ents kind ts) = nextOf (nextOf next [e]) (ents kind ts) by cases e <;> rfl]

/-- where a listed tag is -/
theorem tagLoop_get {kind : Str} {next i : Nat} {ts : List Tag} {k : Nat} {x : TagSource}
    (h : (tagLoop kind next i ts)[k]? = some x) :
    ∃ a t b e, ts = a ++ t :: b ∧ entryM kind t = some e ∧ (vals kind a).length = k ∧
      x = srcOf (i + a.length) (nextOf next (ents kind a)) t e := by
  induction ts generalizing next i k with
  | nil => simp [tagLoop] at h
  | cons t ts ih =>
    cases he : entryM kind t with
    | none =>
      rw [tagLoop_cons_none he] at h
      obtain ⟨a, t', b, e, h1, h2, h3, h4⟩ := ih h
      refine ⟨t :: a, t', b, e, by simp [h1], h2, by rw [vals_cons_none he]; exact h3, ?_⟩
      rw [h4, ents_cons_none he, List.length_cons, show i + 1 + a.length = i + (a.length + 1) by omega]
    | some e =>
      rw [tagLoop_cons_some he] at h
      cases k with
      | zero =>
        simp only [List.getElem?_cons_zero, Option.some.injEq] at h
        exact ⟨[], t, ts, e, rfl, he, rfl, h.symm⟩
      | succ k =>
        rw [List.getElem?_cons_succ] at h
        obtain ⟨a, t', b, e', h1, h2, h3, h4⟩ := ih h
        refine ⟨t :: a, t', b, e', by simp [h1], h2, by rw [vals_cons_some he, List.length_cons, h3], ?_⟩
        rw [h4, ents_cons_some he, List.length_cons, show i + 1 + a.length = i + (a.length + 1) by omega]
        cases e <;> rfl

/-! ### lists -/

omit [Uni] in
theorem listItems_location (first k i : Nat) (es : List SourcelistEntry) :
    (listItems first k i es).map location = es.map (·.location) := by
  induction es generalizing i with
  | nil => rfl
  | cons e es ih => simp [listItems, location, ih]

theorem listItems_number (first k i : Nat) (es : List SourcelistEntry) :
    (listItems first k i es).map itemNumber = (List.range es.length).map (fun j => first + i + j) := by
  induction es generalizing i with
  | nil => rfl
  | cons e es ih =>
    rw [listItems, List.map_cons, ih, List.length_cons, List.range_succ_eq_map]
    simp only [List.map_cons, List.map_map, itemNumber]
    congr 1
    apply List.map_congr_left
    intro j _
    simp only [Function.comp]
    omega

omit [Uni] in
theorem allListItems_location (first k : Nat) (ls : List Sourcelist) :
    (allListItems first k ls).map location = listLocations ls := by
  induction ls generalizing k with
  | nil => rfl
  | cons l ls ih => simp [allListItems, listItems_location, ih, listLocations]

theorem allListItems_number (first k : Nat) (ls : List Sourcelist) :
    (allListItems first k ls).map itemNumber =
      ls.flatMap (fun l => (List.range l.data.length).map (fun i => first + i)) := by
  induction ls generalizing k with
  | nil => rfl
  | cons l ls ih => simp [allListItems, listItems_number, ih]

omit [Uni] in
theorem listItems_get {first k i j : Nat} {es : List SourcelistEntry} {x : SourceItem}
    (h : (listItems first k i es)[j]? = some x) :
    ∃ a e b, es = a ++ e :: b ∧ a.length = j ∧ x = .entry e (first + (i + j)) k (i + j) := by
  induction es generalizing i j with
  | nil => simp [listItems] at h
  | cons e es ih =>
    cases j with
    | zero =>
      simp only [listItems, List.getElem?_cons_zero, Option.some.injEq] at h
      exact ⟨[], e, es, rfl, rfl, h.symm⟩
    | succ j =>
      rw [listItems, List.getElem?_cons_succ] at h
      obtain ⟨a, e', b, h1, h2, h3⟩ := ih h
      refine ⟨e :: a, e', b, by simp [h1], by simp [h2], ?_⟩
      rw [h3]
      congr 1 <;> omega

omit [Uni] in
theorem listItems_length (first k i : Nat) (es : List SourcelistEntry) : (listItems first k i es).length = es.length := by
  have := congrArg List.length (listItems_location first k i es)
  simpa using this

omit [Uni] in
/-- where an entry of a list is -/
theorem allListItems_get {first k j : Nat} {ls : List Sourcelist} {x : SourceItem}
    (h : (allListItems first k ls)[j]? = some x) :
    ∃ la l lb a e b, ls = la ++ l :: lb ∧ l.data = a ++ e :: b ∧ (listLocations la).length + a.length = j ∧
      x = .entry e (first + a.length) (k + la.length) a.length := by
  induction ls generalizing k j with
  | nil => simp [allListItems] at h
  | cons l ls ih =>
    rw [allListItems, List.getElem?_append] at h
    split at h
    · obtain ⟨a, e, b, h1, h2, h3⟩ := listItems_get h
      refine ⟨[], l, ls, a, e, b, rfl, h1, by simp [listLocations, h2], ?_⟩
      rw [h3, ← h2]
      simp
    · rename_i hlt
      rw [listItems_length] at h hlt
      obtain ⟨la, l', lb, a, e, b, h1, h2, h3, h4⟩ := ih h
      refine ⟨l :: la, l', lb, a, e, b, by simp [h1], h2, ?_, ?_⟩
      · simp only [listLocations, List.flatMap_cons, List.length_append, List.length_map] at h3 ⊢
        omega
      · rw [h4]
        congr 1
        simp; omega

/-! ### all sources -/

theorem getTags_length (s : Sources) : s.getTags.length = (vals s.kind s.tags.data).length := by
  have := congrArg List.length (tagLoop_numbers s.kind 0 0 s.tags.data).2
  simpa [getTags] using this

theorem locations_eq (s : Sources) : s.locations = vals s.kind s.tags.data ++ listLocations s.lists := by
  unfold locations items
  rw [List.map_append, allListItems_location, List.map_map]
  congr 1
  exact (tagLoop_numbers s.kind 0 0 s.tags.data).2

theorem locations_spec (s : Sources) : s.locations = allLocations s.kind s := by
  rw [locations_eq, vals_eq]; rfl

theorem firstListNumber_eq (s : Sources) : s.firstListNumber = nextOf 0 (ents s.kind s.tags.data) := by
  have h := (tagLoop_numbers s.kind 0 0 s.tags.data).1
  have h2 := numberEntries_last 0 (ents s.kind s.tags.data)
  rw [← h, List.getLast?_map] at h2
  unfold firstListNumber getTags
  rw [← h2]
  cases (tagLoop s.kind 0 0 s.tags.data).getLast? <;> rfl

theorem numbers_spec {s : Sources} (hn : ∀ t ∈ s.tags.data, '\n' ∉ t.name) :
    s.items.map itemNumber = allNumbers s.kind s := by
  unfold items allNumbers tagNumbers
  rw [← ents_eq hn]
  rw [List.map_append, allListItems_number, List.map_map]
  congr 1
  · exact (tagLoop_numbers s.kind 0 0 s.tags.data).1
  · rw [firstListNumber_eq, ← numberEntries_last]
    rfl

theorem items_length (s : Sources) : s.items.length = s.locations.length := by simp [locations]

theorem items_get_tag {s : Sources} {k : Nat} {x : SourceItem} (h : s.items[k]? = some x)
    (hk : k < (vals s.kind s.tags.data).length) :
    ∃ a t b e, s.tags.data = a ++ t :: b ∧ entryM s.kind t = some e ∧ (vals s.kind a).length = k ∧
      x = .tag (srcOf a.length (nextOf 0 (ents s.kind a)) t e) := by
  unfold items at h
  rw [List.getElem?_append_left (by rw [List.length_map, getTags_length]; exact hk), List.getElem?_map,
    Option.map_eq_some_iff] at h
  obtain ⟨ts, h, rfl⟩ := h
  obtain ⟨a, t, b, e, h1, h2, h3, h4⟩ := tagLoop_get h
  exact ⟨a, t, b, e, h1, h2, h3, by rw [h4]; simp⟩

theorem items_get_entry {s : Sources} {k : Nat} {x : SourceItem} (h : s.items[k]? = some x)
    (hk : (vals s.kind s.tags.data).length ≤ k) :
    ∃ la l lb a e b, s.lists = la ++ l :: lb ∧ l.data = a ++ e :: b ∧
      (vals s.kind s.tags.data).length + (listLocations la).length + a.length = k ∧
      x = .entry e (s.firstListNumber + a.length) la.length a.length := by
  unfold items at h
  rw [List.getElem?_append_right (by rw [List.length_map, getTags_length]; exact hk), List.length_map,
    getTags_length] at h
  obtain ⟨la, l, lb, a, e, b, h1, h2, h3, h4⟩ := allListItems_get h
  exact ⟨la, l, lb, a, e, b, h1, h2, by omega, by rw [h4]; simp⟩

end Specfile.Sources
