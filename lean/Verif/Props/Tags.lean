import Verif.Proof.Tags5
import Verif.Props.Conditions
/-
Properties of comments and tags (C04, C08, C14, C15, C18, C21, C22, C52, C56, C57).
-/
namespace Specfile.Props
open Py Regex Spec Tags

/-! ### C04 -/

/-- C04: tags that are not modified are written back as the lines they were read from. What is missing:
lines with the constructs excluded by `CleanTagLines`, see the violations below. -/
theorem C04_tags_noop_partial [Uni] (names : List Str) (hN : IsTagNames names) (ex : Conditions.Oracle)
    (lines : List Str) (hc : CleanTagLines lines) (tags : Tags) (h : Tags.parse names ex lines = .ok tags) :
    raw tags = lines := by
  unfold Tags.parse at h
  split at h
  · cases h
  · rename_i ls hls
    have hl := C11_lines_kept _ _ _ _ hls
    have := parseLoop_raw hN ls [] tags (by simp) (by rw [hl]; exact hc) h
    rw [this, hl]; rfl

/-- C04: in any case no character is lost, added or moved, apart from whitespace. -/
theorem C04_tags_mod_whitespace [Uni] (names : List Str) (hN : IsTagNames names) (ex : Conditions.Oracle)
    (lines : List Str) (hn : ∀ l ∈ lines, '\n' ∉ l) (tags : Tags) (h : Tags.parse names ex lines = .ok tags) :
    MacroDefinitions.inked (raw tags) = MacroDefinitions.inked lines := by
  unfold Tags.parse at h
  split at h
  · cases h
  · rename_i ls hls
    have hl := C11_lines_kept _ _ _ _ hls
    have := parseLoop_inked hN ls [] tags (by simp) (by
      intro l hm
      exact hn _ (by rw [← hl]; exact List.mem_map_of_mem hm)) h
    rw [this, hl]; rfl

/-- C04: what is read is what the lines mean: the tags with their names, separators, values and
comments, in order, and whether they are valid. -/
theorem C04_meaning_partial [Uni] (names : List Str) (hN : IsTagNames names) (ex : Conditions.Oracle)
    (lines : List Str) (hc : CleanTagLines lines) (hb : NoBlankValue lines) (tags : Tags) :
    Tags.parse names ex lines = .ok tags ↔
      ∃ ls, Conditions.processConditions ex (MacroDefinitions.parseLines lines).excluded lines = .ok ls ∧
        ReadTags [] ls tags := by
  unfold Tags.parse Tags.parse.parseLines
  cases hls : Conditions.processConditions ex (MacroDefinitions.parseLines lines).excluded lines with
  | error e => simp
  | ok ls =>
    have hl := C11_lines_kept _ _ _ _ hls
    simp only [Except.ok.injEq, exists_eq_left']
    constructor
    · intro h
      exact parseLoop_reads hN ls [] tags (by simp) (by rw [hl]; exact hc) (by rw [hl]; exact hb) h
    · intro h
      exact reads_parseLoop hN h (by simp) (by rw [hl]; exact hc)

section
attribute [local instance] asciiUni

/-- no expansions -/
def noExpansion : Conditions.Oracle := fun _ e => .ok e

/-- a preamble with a comment, a wrapped tag and a value that spans lines -/
def samplePreamble : List Str :=
  [s% "Name: x ", s% "", s% "# why", s% "%{?a:Epoch: 1}", s% "URL: %{b", s% "}", s% "%description"]

example : Tags.parse Constants.tagNames noExpansion samplePreamble = .ok
    ⟨[⟨s% "Name", s% "x", s% ": ", ⟨[], []⟩, true, [], s% " "⟩,
      ⟨s% "Epoch", s% "1", s% ": ", ⟨[⟨s% "why", s% "# "⟩], [[]]⟩, true, s% "%{?a:", s% "}"⟩,
      ⟨s% "URL", s% "%{b\n}", s% ": ", ⟨[], []⟩, true, [], []⟩], [s% "%description"]⟩ := by decide +kernel

/-- a preamble without multi-line values -/
def smallPreamble : List Str := [s% "Name: x ", s% "", s% "# why", s% "Epoch: 1"]

theorem small_clean : CleanTagLines smallPreamble where
  noNl := by decide +kernel
  singleSpaced := by
    intro l hl a b c h
    have hm : '%' ∈ l := by rw [h]; simp
    have : ∀ l ∈ smallPreamble, '%' ∉ l := by decide +kernel
    exact absurd hm (this l hl)
  noStale := by
    intro pre b mid z post h hb ho
    rw [← open_iff] at ho
    have hlen : pre.length + mid.length ≤ 2 := by
      have := congrArg List.length h
      simp [smallPreamble] at this
      omega
    have hb' : b :: mid = (smallPreamble.drop pre.length).take (mid.length + 1) := by
      rw [h, List.drop_left, show b :: (mid ++ z :: post) = (b :: mid) ++ z :: post by simp,
        show mid.length + 1 = (b :: mid).length by simp, List.take_left]
    rw [hb'] at ho
    have hall : ∀ i ≤ 2, ∀ j ≤ 2, open_ (joinC '\n' ((smallPreamble.drop i).take (j + 1))) = false := by decide +kernel
    rw [hall _ (by omega) _ (by omega)] at ho
    cases ho

/-- what `smallPreamble` is read as -/
def smallTags : Tags :=
  ⟨[⟨s% "Name", s% "x", s% ": ", ⟨[], []⟩, true, [], s% " "⟩,
    ⟨s% "Epoch", s% "1", s% ": ", ⟨[⟨s% "why", s% "# "⟩], [[]]⟩, true, [], []⟩], []⟩

theorem small_parse : Tags.parse Constants.tagNames noExpansion smallPreamble = .ok smallTags := by decide +kernel

example : raw smallTags = smallPreamble :=
  C04_tags_noop_partial Constants.tagNames (fun _ => Iff.rfl) _ _ small_clean _ small_parse

/-- C04 fails: while a value spans lines, trailing whitespace of a line is repeated after a later line
that has none. -/
theorem C04_violation_whitespace : ∃ tags,
    Tags.parse Constants.tagNames noExpansion [s% "URL: %{b ", s% "c", s% "}"] = .ok tags ∧
    raw tags = [s% "URL: %{b ", s% "c ", s% "} "] := ⟨_, rfl, by decide +kernel⟩

/-- C04 fails: repeated spaces in a macro reference inside a conditional expansion are collapsed, even
on lines that are no tags. -/
theorem C04_violation_spaces : ∃ tags,
    Tags.parse Constants.tagNames noExpansion [s% "%{?x:%{a  b}}"] = .ok tags ∧
    raw tags = [s% "%{?x:%{a b}}"] := ⟨_, rfl, by decide +kernel⟩

/-- C04 fails: a comment that contains an empty macro reference makes reading fail. -/
theorem C04_violation_empty_reference :
    Tags.parse Constants.tagNames noExpansion [s% "Name: x", s% "# use %{} here"] = .error .valueError := by
  decide +kernel

end

/-! ### C08 -/

/-- C08: comments are written back as the lines they were read from. -/
theorem C08_comments_noop (lines : List Str) (hn : ∀ l ∈ lines, '\n' ∉ l) : (Comments.parse lines).raw = lines :=
  comments_raw hn

/-- C08: the comments of a tag are the maximal run of comment lines at the end of the given lines, each
split into the hash sign with the whitespace around it and the text. -/
theorem C08_meaning (lines : List Str) (hn : ∀ l ∈ lines, '\n' ∉ l) (c : Comments) :
    Comments.parse lines = c ↔ CommentsOf lines c := by
  constructor
  · rintro rfl; exact commentsOf_parse hn
  · exact parse_commentsOf hn

example : Comments.parse [s% "# a", s% "", s% "#b", s% "  #  c"] =
    ⟨[⟨s% "b", s% "#"⟩, ⟨s% "c", s% "  #  "⟩], [s% "# a", s% ""]⟩ := by decide +kernel

/-! ### C14 -/

/-- the lines of a tag in the section -/
theorem C14_tag_lines (m : Tags) (k : Nat) (t : Tag) (h : m.data[k]? = some t) :
    ∃ above below, raw m = above ++ tagLines t ++ below ∧
      above = ((m.data.take k).map tagRaw).flatten ++ t.comments.raw := by
  refine ⟨_, ((m.data.drop (k + 1)).map tagRaw).flatten ++ m.remainder, ?_, rfl⟩
  unfold raw
  rw [MacroDefinitions.flatten_split m.data tagRaw h]
  simp [tagRaw, tagLines, tagText]

/-- C14: setting the value of a tag rewrites the lines of that tag and no others. -/
theorem C14_set_value_is_local (m : Tags) (k : Nat) (t : Tag) (v : Str) (h : m.data[k]? = some t) :
    ∃ above below, raw m = above ++ tagLines t ++ below ∧
      raw (setValueAt m k v) = above ++ tagLines { t with value := v } ++ below ∧
      (setValueAt m k v).data[k]? = some { t with value := v } ∧
      (∀ j, j ≠ k → (setValueAt m k v).data[j]? = m.data[j]?) ∧
      (setValueAt m k v).remainder = m.remainder := by
  refine ⟨((m.data.take k).map tagRaw).flatten ++ t.comments.raw,
    ((m.data.drop (k + 1)).map tagRaw).flatten ++ m.remainder, ?_, ?_, ?_, ?_, rfl⟩
  · unfold raw
    rw [MacroDefinitions.flatten_split m.data tagRaw h]
    simp [tagRaw, tagLines, tagText]
  · unfold raw setValueAt
    rw [MacroDefinitions.flatten_modify m.data tagRaw _ h]
    simp [tagRaw, tagLines, tagText]
  · simp [setValueAt, h]
  · intro j hj
    simp [setValueAt, Ne.symm hj]

/-- C14: setting a tag by its name sets the tag that lookup finds; it fails only if lookup does. If there is no such tag,
nothing changes and nothing is raised. -/
theorem C14_set_by_name [Uni] (m : Tags) (name v : Str) :
    (m.contains name = true → (∀ m', setValue m name v = .ok m' ↔ ∃ k, m.find name none = .ok k ∧ m' = setValueAt m k v) ∧
      ((∃ e, setValue m name v = .error e) ↔ ∃ e, m.find name none = .error e)) ∧
    (m.contains name = false → setValue m name v = .ok m) := by
  unfold setValue
  cases m.contains name with
  | false => simp
  | true =>
    cases m.find name none with
    | error e => simp
    | ok k => simp [eq_comm]

attribute [local instance] asciiUni in
example : ∃ m', setValue smallTags (s% "EPOCH") (s% "2") = .ok m' ∧
    raw m' = [s% "Name: x ", s% "", s% "# why", s% "Epoch: 2"] := ⟨_, rfl, by decide +kernel⟩

/-! ### C15 -/

/-- C15: deleting a tag by a non-negative index removes its lines and its comments; the lines above and
below meet, with at most one empty line where they meet. Everything else stays. What is missing: negative
indices and deletion by name, see the violations below. -/
theorem C15_delete_partial (m : Tags) (k : Nat) (t : Tag) (h : m.data[k]? = some t) :
    ∃ m' above gap below, delItem m k = (m', none) ∧
      raw m = above ++ t.comments.preceding ++ ownLines t ++ linesAt m (k + 1) ++ below ∧
      raw m' = above ++ gap ++ below ∧ Seam t.comments.preceding (linesAt m (k + 1)) gap ∧
      m'.data.map bare = (m.data.eraseIdx k).map bare ∧ linesAt m' k = gap ∧
      (∀ j < k, linesAt m' j = linesAt m j) ∧
      (∀ j, k < j → j < m.data.length → linesAt m' j = linesAt m (j + 1)) := by
  obtain ⟨m', gap, h1, h2, _, h4, h5, h6, h7, h8⟩ := delItem_nat h
  refine ⟨m', _, gap, _, h1, ?_, h8, h2, h5, h4, h6, h7⟩
  obtain ⟨hk, _⟩ := List.getElem?_eq_some_iff.1 h
  obtain ⟨e, _⟩ := split_at h
  have e1 : m.data.take (k + 1) = m.data.take k ++ [t] := by
    rw [List.take_add_one, h]; rfl
  have e2 : ∃ z, raw m = tagLinesWithout [] 0 (m.data.take (k + 1)) ++ (linesAt m (k + 1) ++ z) := by
    rw [raw_without]
    conv => arg 1; ext; lhs; rw [← List.take_append_drop (k + 1) m.data]
    simp only [without_append, List.append_assoc]
    unfold linesAt
    cases hd : m.data[k + 1]? with
    | none =>
      have : m.data.drop (k + 1) = [] := by
        rw [List.drop_eq_nil_iff]; exact List.getElem?_eq_none_iff.1 hd
      rw [this]
      exact ⟨[], by simp [tagLinesWithout]⟩
    | some y =>
      obtain ⟨ey, rfl⟩ := List.getElem?_eq_some_iff.1 hd
      rw [List.drop_eq_getElem_cons ey]
      simp only [tagLinesWithout, List.append_assoc]
      exact ⟨_, rfl⟩
  obtain ⟨z, hz⟩ := e2
  rw [hz, drop_two, e1, without_append]
  simp [tagLinesWithout]

/-- C15: an index out of range is refused and nothing is changed. -/
theorem C15_out_of_range (m : Tags) (i : Int) (h : m.data.length ≤ i ∨ i < -m.data.length) :
    delItem m i = (m, some .indexError) := by
  unfold delItem
  have : pyIndex m.data.length i = none := by
    unfold pyIndex
    split
    · rw [if_neg (by omega)]
    · rw [if_neg (by omega)]
  rw [this]

theorem without_congr {is js : List Nat} (h : ∀ k, k ∈ is ↔ k ∈ js) (i : Nat) (ts : List Tag) :
    tagLinesWithout is i ts = tagLinesWithout js i ts := by
  induction ts generalizing i with
  | nil => rfl
  | cons t ts ih => simp [tagLinesWithout, ih, h]

/-- C15: deleting a slice with a positive step removes the lines and comments of its tags, and nothing
else but empty lines. -/
theorem C15_delete_slice_partial (m : Tags) (start stop step : Option Int) (l : List Nat)
    (hs : 0 < step.getD 1) (hl : sliceIndices m.data.length start stop step = .ok l) :
    (delSlice m start stop step).2 = none ∧
    nonEmpty (raw (delSlice m start stop step).1) = nonEmpty (tagLinesWithout l 0 m.data ++ m.remainder) := by
  obtain ⟨hp, hb⟩ := MacroDefinitions.increasing_pairwise (sliceIndices_increasing hs hl)
  unfold delSlice
  rw [hl]
  have := Tags.delAll_spec l.reverse (m := m) (n := m.data.length) (Nat.le_refl _)
    (by rw [List.pairwise_reverse]; exact hp) (by simpa using hb)
  refine ⟨this.1, ?_⟩
  have h2 := this.2
  rw [without_congr (js := l) (by simp)] at h2
  exact h2

/-- C15: deletion by name removes the tag that lookup by name finds; its lines and its comments are
removed and no others if no other lines precede it (they would be lost, see `C15_violation_by_name`). -/
theorem C15_delete_by_name_partial [Uni] (m : Tags) (name : Str) (k : Nat) (t : Tag)
    (hc : m.contains name = true) (hk : m.find name none = .ok k) (hd : m.data[k]? = some t)
    (hp : t.comments.preceding = []) :
    (delAttr m name).2 = none ∧
    raw (delAttr m name).1 = tagLinesWithout [k] 0 m.data ++ m.remainder ∧
    (delAttr m name).1.data = m.data.eraseIdx k := by
  refine ⟨by simp [delAttr, hc, hk], ?_, by simp [delAttr, hc, hk]⟩
  obtain ⟨e, hl⟩ := split_at hd
  simp only [delAttr, hc, hk, Bool.not_true, Bool.false_eq_true, if_false]
  rw [raw_without]
  simp only
  congr 1
  conv => rhs; rw [e]
  rw [without_append, hl]
  simp only [tagLinesWithout, Nat.zero_add, List.mem_singleton, if_true, hp, List.nil_append]
  rw [without_none (ts := m.data.take k) (by simp; omega), without_none (ts := m.data.drop (k + 1)) (by simp; omega),
    without_nil, List.eraseIdx_eq_take_drop_succ]
  simp

section
attribute [local instance] asciiUni

example : raw (delItem smallTags 0).1 = [s% "", s% "# why", s% "Epoch: 1"] := by decide +kernel
example : raw (delItem smallTags 1).1 = [s% "Name: x ", s% ""] := by decide +kernel
example : raw (delAttr smallTags (s% "name")).1 = [s% "", s% "# why", s% "Epoch: 1"] := by decide +kernel
example : raw (delSlice smallTags none none none).1 = [s% ""] := by decide +kernel

/-- C15 fails for negative indices: the lines above the deleted tag move up. -/
theorem C15_violation_negative :
    delItem smallTags (-1) = (⟨(smallTags.data.take 1).map
      (fun t => { t with comments := ⟨[], [[]]⟩ }), []⟩, none) ∧
    raw (delItem smallTags (-1)).1 = [s% "", s% "Name: x "] := by
  constructor <;> decide +kernel

/-- C15 fails for the lowest index: the tag is deleted, and an exception is raised nevertheless. -/
theorem C15_violation_lowest : (delItem smallTags (-2)).2 = some .indexError ∧
    raw (delItem smallTags (-2)).1 = [s% "", s% "# why", s% "Epoch: 1"] := by
  constructor <;> decide +kernel

/-- C15 fails for a negative step. -/
theorem C15_violation_negative_step :
    (delSlice smallTags none none (some (-1))).2 = some .indexError := by decide +kernel

/-- C15 fails for deletion by name: other lines above the tag, here `%if`, are lost. -/
theorem C15_violation_by_name : ∃ tags,
    Tags.parse Constants.tagNames (fun _ _ => .ok (s% "1")) [s% "Name: x", s% "%if 1", s% "Epoch: 1", s% "%endif"] = .ok tags ∧
    raw (delAttr tags (s% "epoch")).1 = [s% "Name: x", s% "%endif"] := ⟨_, rfl, by decide +kernel⟩

end

/-! ### C18 -/

/-- C18: inserting a tag adds its lines, its comments and the lines it brings along, and changes nothing
else. They are put between the tags with index `k - 1` and `k`, after the first line that starts with
`%endif` if there is one in between, else before all lines in between. An index beyond the end means the end. -/
theorem C18_insert (m : Tags) (i : Int) (item : Tag) (hi : -(m.data.length : Int) ≤ i) :
    ∃ k m' above gap gap' below, k = insertPos m.data.length i ∧ k ≤ m.data.length ∧ insert m i item = (m', none) ∧
      linesAt m k = gap ++ gap' ∧
      raw m = above ++ gap ++ gap' ++ below ∧
      raw m' = above ++ gap ++ (item.comments.preceding ++ ownLines item) ++ gap' ++ below ∧
      m'.data.map bare = (m.data.take k ++ item :: m.data.drop k).map bare ∧
      above = ((m.data.take k).map tagRaw).flatten ∧
      ((gap = [] ∧ ∀ l ∈ gap', ¬ s% "%endif" <+: l) ∨
       ∃ g e, gap = g ++ [e] ∧ s% "%endif" <+: e ∧ ∀ l ∈ g, ¬ s% "%endif" <+: l) := by
  obtain ⟨k, hk, h1, h2, h3⟩ := insert_nat (item := item) hi
  have hkl : k ≤ m.data.length := by
    rw [hk]; unfold insertPos; split <;> omega
  obtain ⟨s1, s2⟩ := splitEndif_spec (linesAt m k)
  refine ⟨k, (insert m i item).1, _, _, _,
    (raw m).drop ((tagLinesWithout [] 0 (m.data.take k)).length + (linesAt m k).length),
    hk, hkl, ?_, s1.symm, ?_, ?_, h2, rfl, ?_⟩
  · generalize insert m i item = r at h1
    obtain ⟨a, b⟩ := r
    simp only at h1
    rw [h1]
  · rw [List.append_assoc (_ : List Str) (splitEndif _).1, s1, ← without_nil 0]
    have e2 : ∃ z, raw m = tagLinesWithout [] 0 (m.data.take k) ++ (linesAt m k ++ z) := by
      rw [raw_without]
      conv => arg 1; ext; lhs; rw [← List.take_append_drop k m.data]
      simp only [without_append, List.append_assoc]
      unfold linesAt
      cases hd : m.data[k]? with
      | none =>
        have : m.data.drop k = [] := by
          rw [List.drop_eq_nil_iff]; exact List.getElem?_eq_none_iff.1 hd
        rw [this]
        exact ⟨[], by simp [tagLinesWithout]⟩
      | some y =>
        obtain ⟨ey, rfl⟩ := List.getElem?_eq_some_iff.1 hd
        rw [List.drop_eq_getElem_cons ey]
        simp only [tagLinesWithout, List.append_assoc]
        exact ⟨_, rfl⟩
    obtain ⟨z, hz⟩ := e2
    rw [hz, drop_two, List.append_assoc]
  · rw [h3, without_nil, tagRaw_eq]
  · rcases s2 with ⟨a, b⟩ | s2
    · refine .inl ⟨a, ?_⟩
      rw [a, List.nil_append] at s1
      rw [s1]; exact b
    · exact .inr s2

/-- C18: an index below the range is refused and nothing is changed. -/
theorem C18_out_of_range (m : Tags) (i : Int) (item : Tag) (h : i < -(m.data.length : Int)) :
    insert m i item = (m, some .indexError) := by
  unfold Tags.insert
  simp only
  rw [if_pos (by omega)]
  have : pyIndex m.data.length i = none := by
    unfold pyIndex
    rw [if_neg (by omega), if_neg (by omega)]
  rw [this]

/-- `URL: u` with a comment -/
def sampleTag : Tag := ⟨s% "URL", s% "u", s% ": ", ⟨[⟨s% "c", s% "# "⟩], []⟩, true, [], []⟩

example : (Tags.insert smallTags 1 sampleTag).2 = none ∧ raw (Tags.insert smallTags 1 sampleTag).1 =
    [s% "Name: x ", s% "# c", s% "URL: u", s% "", s% "# why", s% "Epoch: 1"] := by
  constructor <;> decide +kernel

/-! ### C21 -/

/-- C21: lookup by name finds the first valid tag with that name, or the first with that name if none is
valid; it fails only if there is none. -/
theorem C21_find_tag [Uni] (m : Tags) (name : Str) :
    (∀ k, m.find name none = .ok k ↔
      Best (fun t => Uni.capitalize t.name = Uni.capitalize name) (fun t => t.valid = true) m.data k) ∧
    (m.find name none = .error .valueError ↔ ∀ t ∈ m.data, Uni.capitalize t.name ≠ Uni.capitalize name) ∧
    (∀ e, m.find name none = .error e → e = .valueError) := by
  obtain ⟨h1, h2⟩ := Find.loop_best (fun t : Tag => Uni.capitalize t.name == Uni.capitalize name) (·.valid) m.data
  simp only [beq_iff_eq, beq_eq_false_iff_ne] at h1 h2
  simp only [find, findLoop_eq]
  cases hl : Find.loop (fun t : Tag => Uni.capitalize t.name == Uni.capitalize name) (·.valid) 0 none m.data with
  | none =>
    rw [hl] at h1 h2
    refine ⟨?_, by simpa using h2, by simp [eq_comm]⟩
    intro k
    have := h1 k
    simpa using this
  | some k0 =>
    rw [hl] at h1 h2
    refine ⟨?_, by simpa using h2, by simp⟩
    intro k
    have := h1 k
    simpa using this

/-- lower-casing and capitalizing identify the same ASCII names -/
theorem C21_ascii_names [Uni] (a b : Str) (ha : a ≠ []) (hb : b ≠ []) (h1 : a.all isAscii = true)
    (h2 : b.all isAscii = true) :
    (Uni.capitalize a = Uni.capitalize b ↔ a.map asciiLowerC = b.map asciiLowerC) ∧
    (Uni.lower a = Uni.lower b ↔ a.map asciiLowerC = b.map asciiLowerC) := by
  refine ⟨?_, by rw [Uni.lower_ascii a h1, Uni.lower_ascii b h2]⟩
  cases a with
  | nil => exact absurd rfl ha
  | cons x xs =>
    cases b with
    | nil => exact absurd rfl hb
    | cons y ys =>
      simp only [List.all_cons, Bool.and_eq_true] at h1 h2
      rw [Uni.capitalize_ascii x xs h1.1 h1.2, Uni.capitalize_ascii y ys h2.1 h2.2]
      simp only [List.cons.injEq, List.map_cons]
      refine and_congr_left (fun _ => ?_)
      have key : ∀ m < 128, ∀ n < 128, ((if isAsciiLower (Char.ofNat m) then Char.ofNat ((Char.ofNat m).toNat - 32) else Char.ofNat m) =
          (if isAsciiLower (Char.ofNat n) then Char.ofNat ((Char.ofNat n).toNat - 32) else Char.ofNat n) ↔
          asciiLowerC (Char.ofNat m) = asciiLowerC (Char.ofNat n)) := by decide +kernel
      have hx : x.toNat < 128 := by simpa [isAscii] using h1.1
      have hy : y.toNat < 128 := by simpa [isAscii] using h2.1
      have := key x.toNat hx y.toNat hy
      rw [Char.ofNat_toNat, Char.ofNat_toNat] at this
      exact this

/-- C21: a tag is contained if and only if lookup by name finds one (for ASCII names). -/
theorem C21_contains_tag_partial [Uni] (m : Tags) (name : Str) (hn : name ≠ []) (ha : name.all isAscii = true)
    (hd : ∀ t ∈ m.data, t.name ≠ [] ∧ t.name.all isAscii = true) :
    m.contains name = true ↔ ∃ k, m.find name none = .ok k := by
  obtain ⟨h1, h2, h3⟩ := C21_find_tag m name
  have e : m.contains name = true ↔ ∃ t ∈ m.data, Uni.capitalize t.name = Uni.capitalize name := by
    simp only [contains, List.any_eq_true, beq_iff_eq]
    constructor
    · rintro ⟨t, ht, h⟩
      obtain ⟨q1, q2⟩ := C21_ascii_names t.name name (hd t ht).1 hn (hd t ht).2 ha
      exact ⟨t, ht, q1.2 (q2.1 h)⟩
    · rintro ⟨t, ht, h⟩
      obtain ⟨q1, q2⟩ := C21_ascii_names t.name name (hd t ht).1 hn (hd t ht).2 ha
      exact ⟨t, ht, q2.2 (q1.1 h)⟩
  rw [e]
  cases hf : m.find name none with
  | ok k =>
    simp only [Except.ok.injEq, exists_eq', iff_true]
    obtain ⟨d, hd, hp, _⟩ := (h1 k).1 hf
    exact ⟨d, List.mem_of_getElem? hd, hp⟩
  | error e =>
    have he := h3 e hf
    subst he
    simp only [reduceCtorEq, exists_false, iff_false]
    rintro ⟨t, ht, hp⟩
    exact h2.1 hf t ht hp

/-- C21: getting a tag by name gives the one that lookup finds. -/
theorem C21_get_tag [Uni] (m : Tags) (name : Str) (pos : Option Nat) (t : Tag) :
    m.get name pos = .ok t ↔ ∃ k, m.find name pos = .ok k ∧ m.data[k]? = some t := by
  unfold Tags.get
  cases m.find name pos with
  | error e => simp
  | ok k =>
    simp only [Except.ok.injEq, exists_eq_left']
    cases m.data[k]? with
    | none => simp
    | some x => simp

/-- C21: with a position, lookup finds the tag with that name that starts on that line, and fails if
there is none. What is missing: tags that occur twice, and tags whose value spans lines (see C22). -/
theorem C21_find_tag_at_partial [Uni] (m : Tags) (hm : DistinctTags m) (hs : ∀ t ∈ m.data, '\n' ∉ tagText t)
    (name : Str) (p : Nat) :
    (∀ k, m.find name (some p) = .ok k ↔ ∃ t, m.data[k]? = some t ∧ Uni.capitalize t.name = Uni.capitalize name ∧
      (((m.data.take k).map tagRaw).flatten ++ t.comments.raw).length = p) ∧
    (∀ e, m.find name (some p) = .error e → e = .valueError) := by
  let place : Nat → Nat := fun k => ((m.data.take k).map (fun y => y.comments.raw.length + 1)).sum +
    ((m.data[k]?).map (·.comments.raw.length)).getD 0
  have hsum : ∀ k, ((m.data.take k).map (fun y => y.comments.raw.length + 1)).sum =
      ((m.data.take k).map tagRaw).flatten.length := by
    intro k
    rw [sum_single (fun t ht => hs t (List.mem_of_mem_take ht)) 0, without_nil]
  have hspec := Find.posLoop_spec (fun t : Tag => Uni.capitalize t.name == Uni.capitalize name) m.position p m.data place
    (by
      intro k x hx _
      rw [position_spec hm hx]
      simp [place, hx])
    (by
      intro j k hjk hk
      have hj : j < m.data.length := by omega
      simp only [place]
      rw [List.getElem?_eq_getElem hj, List.getElem?_eq_getElem hk]
      have e : m.data.take k = m.data.take j ++ m.data[j] :: (m.data.take k).drop (j + 1) := by
        have := (split_at (l := m.data.take k) (k := j) (x := m.data[j]) (by
          rw [List.getElem?_take]; simp [hjk, hj])).1
        rw [List.take_take, Nat.min_eq_left (by omega)] at this
        exact this
      rw [e]
      simp
      omega)
  simp only [find, findPosLoop_eq]
  refine ⟨?_, hspec.2⟩
  intro k
  rw [hspec.1 k]
  simp only [beq_iff_eq]
  constructor
  · rintro ⟨d, hd, hp, hq⟩
    refine ⟨d, hd, hp, ?_⟩
    rw [List.length_append, ← hsum]
    simpa [place, hd] using hq
  · rintro ⟨d, hd, hp, hq⟩
    refine ⟨d, hd, hp, ?_⟩
    rw [List.length_append, ← hsum] at hq
    simpa [place, hd] using hq

/-! ### C22 -/

/-- C22: the position of a tag is the number of lines above it. What is missing: tags that occur twice,
and tags below one whose value spans lines. -/
theorem C22_tag_position_partial (m : Tags) (hm : DistinctTags m) (k : Nat) (t : Tag) (ht : m.data[k]? = some t)
    (hs : ∀ j x, j < k → m.data[j]? = some x → '\n' ∉ tagText x) :
    ∃ above below p, m.position t = .ok p ∧ raw m = above ++ tagLines t ++ below ∧ above.length = p ∧
      above = ((m.data.take k).map tagRaw).flatten ++ t.comments.raw := by
  obtain ⟨above, below, h1, h2⟩ := C14_tag_lines m k t ht
  refine ⟨above, below, _, position_spec hm ht, h1, ?_, h2⟩
  rw [h2, List.length_append, ← without_nil 0, sum_single _ 0]
  intro x hx
  obtain ⟨j, hj⟩ := List.getElem?_of_mem hx
  rw [List.getElem?_take] at hj
  split at hj
  · exact hs j x (by assumption) hj
  · cases hj

section
attribute [local instance] asciiUni

theorem small_distinct : DistinctTags smallTags := by
  intro j k x y hjk hx hy
  have : k < smallTags.data.length := (List.getElem?_eq_some_iff.1 hy).1
  have hl : smallTags.data.length = 2 := rfl
  obtain rfl : k = 1 := by omega
  obtain rfl : j = 0 := by omega
  intro h
  have h1 : (smallTags.data[0]?).map (·.name) ≠ (smallTags.data[1]?).map (·.name) := by decide +kernel
  rw [hx, hy] at h1
  apply h1
  rw [← h]
  rfl

example : smallTags.find (s% "EPOCH") none = .ok 1 ∧ smallTags.find (s% "epoch") (some 3) = .ok 1 ∧
    smallTags.find (s% "epoch") (some 0) = .error .valueError ∧ smallTags.contains (s% "EPOCH") = true := by
  refine ⟨?_, ?_, ?_, ?_⟩ <;> decide +kernel

example : ∃ above below p, smallTags.position ⟨s% "Epoch", s% "1", s% ": ", ⟨[⟨s% "why", s% "# "⟩], [[]]⟩, true, [], []⟩ = .ok p ∧
    raw smallTags = above ++ [s% "Epoch: 1"] ++ below ∧ above.length = p ∧ p = 3 := by
  obtain ⟨above, below, p, h1, h2, h3, h4⟩ := C22_tag_position_partial smallTags small_distinct 1 _ rfl (by
    intro j x hj hx
    obtain rfl : j = 0 := by omega
    cases hx
    decide)
  refine ⟨above, below, p, h1, h2, h3, ?_⟩
  rw [← h3, h4]
  rfl

/-- C22 fails for a tag that occurs twice, even in different branches: both report a position computed
from the first. -/
theorem C22_violation_tag_twice : ∃ tags,
    Tags.parse Constants.tagNames (fun _ _ => .ok (s% "1"))
      [s% "%if 1", s% "Epoch: 1", s% "%else", s% "Epoch: 1", s% "%endif"] = .ok tags ∧
    tags.data.map tags.position = [.ok 1, .ok 1] := ⟨_, rfl, by decide +kernel⟩

/-- C22 fails below a value that spans lines. -/
theorem C22_violation_tag_lines : ∃ tags,
    Tags.parse Constants.tagNames noExpansion [s% "URL: %{b", s% "}", s% "Epoch: 1"] = .ok tags ∧
    tags.data.map tags.position = [.ok 0, .ok 1] := ⟨_, rfl, by decide +kernel⟩

/-- C21 fails below a value that spans lines: the tag on the third line is found on the second one only. -/
theorem C21_position_violation_lines : ∃ tags,
    Tags.parse Constants.tagNames noExpansion [s% "URL: %{b", s% "}", s% "Epoch: 1"] = .ok tags ∧
    tags.find (s% "epoch") (some 1) = .ok 1 ∧ tags.find (s% "epoch") (some 2) = .error .valueError :=
  ⟨_, rfl, by decide +kernel, by decide +kernel⟩

end

/-! ### C52 -/

/-- C52: tags whose fields describe their text are read back as they are, together with the lines around
them, up to their validity. -/
theorem C52_read_back [Uni] (names : List Str) (hN : IsTagNames names) (ex : Conditions.Oracle) (m m' : Tags)
    (hm : ReadableTags m) (hc : CleanTagLines (raw m)) (h : Tags.parse names ex (raw m) = .ok m') :
    SameTags m' m := by
  obtain ⟨data, r⟩ := m
  unfold Tags.parse Tags.parse.parseLines at h
  split at h
  · cases h
  · rename_i ls hls
    have hl := C11_lines_kept _ _ _ _ hls
    obtain ⟨m'', h1, h2⟩ := readable_reads data r hm ls hl
    have := reads_parseLoop hN h1 (by simp) (by rw [hl]; exact hc)
    rw [this] at h
    cases h
    exact h2

/-- C52: reading readable tags fails only if the conditions cannot be processed. -/
theorem C52_read_back_succeeds [Uni] (names : List Str) (hN : IsTagNames names) (ex : Conditions.Oracle) (m : Tags)
    (hm : ReadableTags m) (hc : CleanTagLines (raw m)) (e : Err) :
    Tags.parse names ex (raw m) = .error e ↔
      Conditions.processConditions ex (MacroDefinitions.parseLines (raw m)).excluded (raw m) = .error e := by
  obtain ⟨data, r⟩ := m
  unfold Tags.parse Tags.parse.parseLines
  split
  · rename_i e' he
    rw [he]
    simp
  · rename_i ls hls
    rw [hls]
    have hl := C11_lines_kept _ _ _ _ hls
    obtain ⟨m'', h1, h2⟩ := readable_reads data r hm ls hl
    rw [reads_parseLoop hN h1 (by simp) (by rw [hl]; exact hc)]
    simp

/-- C52: tags that have been read are readable. -/
theorem C52_parsed_is_readable [Uni] (names : List Str) (hN : IsTagNames names) (ex : Conditions.Oracle)
    (lines : List Str) (hc : CleanTagLines lines) (hb : NoBlankValue lines) (tags : Tags)
    (h : Tags.parse names ex lines = .ok tags) : ReadableTags tags := by
  obtain ⟨ls, _, h2⟩ := (C04_meaning_partial names hN ex lines hc hb tags).1 h
  exact reads_readable h2 (by simp)

/-- C52: tags stay readable when a value is set that makes the tag a readable one, unless that opens a
macro bracket. -/
theorem C52_set_readable [Uni] (m : Tags) (hm : ReadableTags m) (k : Nat) (t : Tag) (v : Str)
    (ht : m.data[k]? = some t) (hv : PlainTag { t with value := v } ∧ ¬ OpenBracket v ∨ WrappedTag { t with value := v }) :
    ReadableTags (setValueAt m k v) := by
  have hget : ∀ j, (setValueAt m k v).data[j]? = (m.data[j]?).map (fun x => if j = k then { x with value := v } else x) := by
    intro j
    simp only [setValueAt, List.getElem?_modify]
    by_cases h : k = j
    · simp [h]
    · simp [h, Ne.symm h]
  have hmem : ∀ x ∈ (setValueAt m k v).data, x = { t with value := v } ∨ x ∈ m.data := by
    intro x hx
    obtain ⟨j, hj⟩ := List.getElem?_of_mem hx
    rw [hget] at hj
    by_cases h : j = k
    · subst h
      rw [ht] at hj
      simp at hj
      exact .inl hj.symm
    · simp [h] at hj
      exact .inr (List.mem_of_getElem? hj)
  have htm := List.mem_of_getElem? ht
  refine ⟨?_, ?_, ?_, hm.remainder, ?_⟩
  · intro x hx
    rcases hmem x hx with rfl | hx
    · rcases hv with h | h
      · exact .inl h.1
      · exact .inr h
    · exact hm.tag x hx
  · intro x hx
    rcases hmem x hx with rfl | hx
    · exact hm.above t htm
    · exact hm.above x hx
  · intro x hx
    rcases hmem x hx with rfl | hx
    · exact hm.comments t htm
    · exact hm.comments x hx
  · intro j x hx hp ho
    rw [hget] at hx
    by_cases h : j = k
    · subst h
      rw [ht] at hx
      simp at hx
      subst hx
      rcases hv with h | h
      · exact absurd ho h.2
      · exfalso
        obtain ⟨w, hw, _, hu⟩ := h.wrapped
        have hs := hp.sfx
        rw [hw] at hs
        have := (hs '}' (by simp)).1
        exact absurd this (by decide)
    · simp [h] at hx
      have := hm.closed j x hx hp ho
      simpa [setValueAt] using this

/-- C52: a value that is set, written and read again is that value, and nothing else has changed. -/
theorem C52_set_and_read_back [Uni] (names : List Str) (hN : IsTagNames names) (ex : Conditions.Oracle) (m m' : Tags)
    (hm : ReadableTags m) (k : Nat) (t : Tag) (v : Str) (ht : m.data[k]? = some t)
    (hv : PlainTag { t with value := v } ∧ ¬ OpenBracket v ∨ WrappedTag { t with value := v })
    (hc : CleanTagLines (raw (setValueAt m k v))) (h : Tags.parse names ex (raw (setValueAt m k v)) = .ok m') :
    SameTags m' (setValueAt m k v) ∧ ∃ x, m'.data[k]? = some x ∧ x.value = v ∧ x.name = t.name ∧
      x.comments = t.comments := by
  have hs := C52_read_back names hN ex _ m' (C52_set_readable m hm k t v ht hv) hc h
  refine ⟨hs, ?_⟩
  have h1 := congrArg (fun l => l[k]?) hs.1
  simp only [List.getElem?_map] at h1
  have h2 : (setValueAt m k v).data[k]? = some { t with value := v } := by simp [setValueAt, ht]
  rw [h2] at h1
  cases hx : m'.data[k]? with
  | none => rw [hx] at h1; simp at h1
  | some x =>
    rw [hx] at h1
    simp only [Option.map_some, Option.some.injEq, Tag.mk.injEq] at h1
    exact ⟨x, rfl, h1.2.1, h1.1, h1.2.2.2.1⟩

section
attribute [local instance] asciiUni

theorem small_readable : ReadableTags smallTags :=
  C52_parsed_is_readable Constants.tagNames (fun _ => Iff.rfl) noExpansion smallPreamble small_clean (by
    intro l hl a w w' h
    have hm : '}' ∈ l := by rw [h]; simp
    have : ∀ l ∈ smallPreamble, '}' ∉ l := by decide +kernel
    exact absurd hm (this l hl)) smallTags small_parse

theorem small_set : PlainTag { (⟨s% "Epoch", s% "1", s% ": ", ⟨[⟨s% "why", s% "# "⟩], [[]]⟩, true, [], []⟩ : Tag) with value := s% "2:%{b}" } where
  name := ⟨s% "epoch", by decide +kernel, s% "Epoch", [], rfl, by simp [SameLetters]; decide +kernel, by
    rw [NameExtension, if_neg (by decide +kernel), if_neg (by decide +kernel)]⟩
  sep := ⟨[], s% " ", rfl, by simp [Spaces], by simp [Spaces]; decide +kernel⟩
  oneLine := by decide +kernel
  value := by decide +kernel
  start := by decide +kernel
  pfx := rfl
  sfx := by simp [InlineSpaces]
  stop := by
    rw [not_endsInBlank (by decide +kernel)]
    decide +kernel
  lines := by
    intro x y h
    have h : s% "2:%{b}" = x ++ '\n' :: y := h
    have : '\n' ∈ s% "2:%{b}" := by rw [h]; simp
    exact absurd this (by decide +kernel)
  first := ⟨s% "Epoch: 2:%{b}", [], by decide +kernel, by simp [InlineSpaces], by
    rw [not_endsInBlank (by decide +kernel)]
    decide +kernel, by constructor <;> decide +kernel⟩

example : ReadableTags (setValueAt smallTags 1 (s% "2:%{b}")) :=
  C52_set_readable smallTags small_readable 1 _ _ rfl (.inl ⟨small_set, by rw [← open_iff]; decide +kernel⟩)

example : raw (setValueAt smallTags 1 (s% "2:%{b}")) = [s% "Name: x ", s% "", s% "# why", s% "Epoch: 2:%{b}"] := by
  decide +kernel

end

/-! ### C56 -/

/-- C56: a comment that is added, at the end or in front of the comment with a given index, is written on
its own line after a hash sign and a space, and no other line changes. -/
theorem C56_add_comment (c : Comments) (text : Str) (i : Int) :
    (c.append text).raw = c.raw ++ [s% "# " ++ text] ∧
    ∃ above below, c.raw = c.preceding ++ above ++ below ∧
      (c.insert i text).raw = c.preceding ++ above ++ [s% "# " ++ text] ++ below ∧
      above.length = insertPos c.data.length i := by
  constructor
  · simp [Comments.append, Comments.raw, Comment.ofText, Comment.str]
  · have hk : insertPos c.data.length i ≤ c.data.length := by unfold insertPos; split <;> omega
    refine ⟨(c.data.take (insertPos c.data.length i)).map (·.str), (c.data.drop (insertPos c.data.length i)).map (·.str), ?_, ?_, ?_⟩
    · rw [List.append_assoc, ← List.map_append, List.take_append_drop]; rfl
    · simp [Comments.insert, Comments.raw, Comment.ofText, Comment.str]
    · simp; omega

/-- C56: several comments are added in order. -/
theorem C56_extend_comments (c : Comments) (texts : List Str) :
    (c.extend texts).raw = c.raw ++ texts.map (s% "# " ++ ·) ∧ (c.extend texts).texts = c.texts ++ texts := by
  simp [Comments.extend, Comments.raw, Comments.texts, Comment.ofText, Comment.str, Function.comp_def]

/-- C56: the text of a comment is replaced in place; the hash sign and the whitespace around it stay. An
index out of range is refused. -/
theorem C56_set_comment (c : Comments) (i : Int) (text : Str) :
    (∀ c', c.setText i text = .ok c' ↔ ∃ k x, pyIndex c.data.length i = some k ∧ c.data[k]? = some x ∧
      c'.data = c.data.set k ⟨text, x.pfx⟩ ∧ c'.preceding = c.preceding) ∧
    (c.setText i text = .error .indexError ↔ ((c.data.length : Int) ≤ i ∨ i < -c.data.length)) := by
  unfold Comments.setText
  cases hk : pyIndex c.data.length i with
  | none =>
    refine ⟨by simp, ?_⟩
    simp only [true_iff]
    unfold pyIndex at hk
    split at hk
    · split at hk
      · cases hk
      · omega
    · split at hk
      · cases hk
      · omega
  | some k =>
    have hlt : k < c.data.length := by
      unfold pyIndex at hk
      split at hk
      · split at hk
        · cases hk; omega
        · cases hk
      · split at hk
        · cases hk; omega
        · cases hk
    have hi : ¬ ((c.data.length : Int) ≤ i ∨ i < -c.data.length) := by
      unfold pyIndex at hk
      split at hk
      · split at hk
        · omega
        · cases hk
      · split at hk
        · omega
        · cases hk
    refine ⟨?_, by simp [hi]⟩
    intro c'
    have hmod : c.data.modify k (fun x => { x with text := text }) = c.data.set k ⟨text, (c.data[k]).pfx⟩ := by
      apply List.ext_getElem?
      intro j
      rw [List.getElem?_modify, List.getElem?_set]
      by_cases h : k = j
      · subst h; simp [hlt]
      · simp [h]
    simp only [hmod]
    constructor
    · intro h
      cases h
      exact ⟨k, _, rfl, List.getElem?_eq_getElem hlt, rfl, rfl⟩
    · rintro ⟨k', x, hk', hx, h1, h2⟩
      cases hk'
      rw [List.getElem?_eq_getElem hlt] at hx
      cases hx
      obtain ⟨d, p⟩ := c'
      simp only at h1 h2
      rw [h1, h2]

/-- C56: comments with an added one are read back, if its text does not start with whitespace. -/
theorem C56_added_read_back (c : Comments) (above : List Str) (hc : CommentsOf above c) (hn : ∀ l ∈ above, '\n' ∉ l)
    (text : Str) (ht : ∀ x ∈ text.head?, isSpace x = false) (htn : '\n' ∉ text) (i : Int) :
    Comments.parse (c.append text).raw = c.append text ∧ Comments.parse (c.insert i text).raw = c.insert i text := by
  obtain ⟨h1, h2, h3⟩ := hc
  have hp : CommentParts (Comment.ofText text) := by
    refine ⟨⟨[], s% " ", rfl, by simp [Spaces], by simp [Spaces]; decide +kernel⟩, ht⟩
  have hnc : ∀ x ∈ c.data, '\n' ∉ x.str := by
    intro x hx
    exact hn _ (by rw [h1]; simp only [List.mem_append, List.mem_map]; exact .inr ⟨x, hx, rfl⟩)
  have hnt : '\n' ∉ (Comment.ofText text).str := by
    simp only [Comment.ofText, Comment.str, List.mem_append, not_or]
    exact ⟨by decide +kernel, htn⟩
  have hall : ∀ x ∈ c.data ++ [Comment.ofText text], '\n' ∉ x.str ∧ CommentParts x := by
    intro x hx
    rcases List.mem_append.1 hx with hx | hx
    · exact ⟨hnc x hx, h2 x hx⟩
    · rw [List.mem_singleton] at hx
      subst hx
      exact ⟨hnt, hp⟩
  have hsub : ∀ x ∈ (c.insert i text).data, x ∈ c.data ++ [Comment.ofText text] := by
    intro x hx
    rcases List.mem_append.1 hx with hx | hx
    · exact List.mem_append_left _ (List.mem_of_mem_take hx)
    · rcases List.mem_cons.1 hx with hx | hx
      · simp [hx]
      · exact List.mem_append_left _ (List.mem_of_mem_drop hx)
  exact ⟨Comments.parse_of_parts (fun x hx => (hall x hx).1) (fun x hx => (hall x hx).2) h3,
    Comments.parse_of_parts (fun x hx => (hall x (hsub x hx)).1) (fun x hx => (hall x (hsub x hx)).2) h3⟩

/-- C56: membership of a text means that it is the text of a comment. -/
theorem C56_contains (c : Comments) (t : Str) : c.contains t = true ↔ ∃ x ∈ c.data, x.text = t := by
  simp [Comments.contains, Comments.texts]

example : ((Comments.parse [s% "", s% "#b"]).insert (-1) (s% "new")).raw = [s% "", s% "# new", s% "#b"] := by
  decide +kernel

/-! ### C57 -/

/-- C57: a tag is created as given if its name is a tag name. What is missing: that other names are
refused; only those are that do not start with a tag name. -/
theorem C57_create_partial [Uni] (t : Tag) :
    (TagName t.name → mkTag t = .ok t) ∧
    (mkTag t = .ok t ↔ ∃ n r, t.name = n ++ r ∧ TagName n) ∧
    (mkTag t = .error .valueError ↔ ¬ ∃ n r, t.name = n ++ r ∧ TagName n) := by
  have key : (t.name.isEmpty ∨ ¬ Constants.tagNames.any (fun n => (rmatch (nameRe n : Re Nat) t.name).isSome)) ↔
      ¬ ∃ n r, t.name = n ++ r ∧ TagName n := by
    have h1 : (Constants.tagNames.any (fun n => (rmatch (nameRe n : Re Nat) t.name).isSome)) = true ↔
        ∃ n r, t.name = n ++ r ∧ TagName n := by
      simp only [List.any_eq_true]
      constructor
      · rintro ⟨a, ha, h⟩
        obtain ⟨u, hu⟩ := Option.isSome_iff_exists.1 h
        have hm := List.mem_of_mem_head? hu
        obtain ⟨w, e, r, hw, hs, he, _⟩ := mem_nameRe.1 hm
        exact ⟨w ++ e, r, hw, a, ha, w, e, rfl, hs, he⟩
      · rintro ⟨n, r, hn, a, ha, w, e, rfl, hs, he⟩
        refine ⟨a, ha, ?_⟩
        have hm : (⟨(w ++ e).reverse, r, []⟩ : St Nat) ∈ run (nameRe a : Re Nat) ⟨[], t.name, []⟩ :=
          mem_nameRe.2 ⟨w, e, r, hn, hs, he, by simp⟩
        unfold rmatch
        cases hr : run (nameRe a : Re Nat) ⟨[], t.name, []⟩ with
        | nil => rw [hr] at hm; cases hm
        | cons x xs => simp [init, hr]
    rw [h1]
    constructor
    · rintro (h | h)
      · rintro ⟨n, r, hn, a, ha, w, e, rfl, hs, he⟩
        have hw := sameLetters_ne_nil hs (tagNames_letters a ha).1
        rw [List.isEmpty_iff] at h
        rw [h] at hn
        simp at hn
        exact hw hn.1
      · exact h
    · exact .inr
  have h2 : (mkTag t = .ok t ↔ ∃ n r, t.name = n ++ r ∧ TagName n) := by
    unfold mkTag
    by_cases hc : ∃ n r, t.name = n ++ r ∧ TagName n
    · rw [if_neg (fun h => key.1 h hc)]; exact ⟨fun _ => hc, fun _ => rfl⟩
    · rw [if_pos (key.2 hc)]; exact ⟨fun h => (by cases h), fun h => absurd h hc⟩
  refine ⟨fun h => h2.2 ⟨t.name, [], by simp, h⟩, h2, ?_⟩
  rw [← h2]
  unfold mkTag
  split <;> simp

section
attribute [local instance] asciiUni

example : mkTag sampleTag = .ok sampleTag ∧ mkTag { sampleTag with name := s% "Foo" } = .error .valueError ∧
    mkTag { sampleTag with name := [] } = .error .valueError := by
  refine ⟨?_, ?_, ?_⟩ <;> decide +kernel

/-- C57 fails: a name that merely starts with a tag name is accepted, and the tag is not read back. -/
theorem C57_violation : mkTag { sampleTag with name := s% "Nameless" } = .ok { sampleTag with name := s% "Nameless" } ∧
    ∃ tags, Tags.parse Constants.tagNames noExpansion
      (raw ⟨[{ sampleTag with name := s% "Nameless" }], []⟩) = .ok tags ∧ tags.data = [] :=
  ⟨by decide +kernel, _, rfl, by decide +kernel⟩

end

end Specfile.Props
