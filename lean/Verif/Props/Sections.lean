import Verif.Proof.Sections5
import Verif.Props.Tags
/-
Properties of sections (C03, C19, C58).
-/
namespace Specfile.Props
open Py Regex Spec Sections

/-! ### C03 -/

/-- C03: what is read is what the lines mean: sections start at the header lines outside of macro
definitions, with the names, options and lines that are written there. -/
theorem C03_meaning [Uni] (ex : Conditions.Oracle) (lines : List Str) (hl : ∀ l ∈ lines, '\n' ∉ l)
    (ss : Sections) : Sections.parse ex lines = .ok ss ↔ ∃ data rest, ss = preambleOf data :: rest ∧
      SectionsOf ex (InDefinition lines) 0 lines data rest :=
  parse_iff hl

/-- C03: sections that are not modified are written back as the lines they were read from. What is
missing: header lines excluded by `CleanHeader`, see the violations below. -/
theorem C03_sections_noop_partial [Uni] (ex : Conditions.Oracle) (lines : List Str)
    (hl : ∀ l ∈ lines, OneLine l)
    (hh : ∀ (i : Nat) l, lines[i]? = some l → HeaderLine l → ∀ p, HeaderText (ex i) l p → CleanHeader p)
    (ss : Sections) (h : Sections.parse ex lines = .ok ss) :
    Sections.raw ss = lines ∧ Sections.strAll ss = unlines lines := by
  rw [parse_iff (fun l hx => oneLine_nl (hl l hx))] at h
  obtain ⟨data, rest, rfl, h⟩ := h
  have := raw_sectionsOf h hl (by
    intro j l hj hx p hp
    rw [Nat.zero_add] at hp
    have hc := hh j l hj hx p hp
    exact ⟨fun d o hd ts ht => canonical_prints (hc.options d o hd) ht, hc.notPackage⟩)
  constructor
  · simp only [Sections.raw, List.map_cons, List.flatten_cons, raw_preamble]
    exact this.1
  · simp only [Sections.strAll, List.map_cons, List.flatten_cons, str_preamble]
    exact this.2

/-- C03: sections can be read whenever the options of the headers can be split into words, header
names are known, and RPM reports no other errors than its own. -/
theorem C03_succeeds [Uni] (ex : Conditions.Oracle) (lines : List Str) (hl : ∀ l ∈ lines, '\n' ∉ l)
    (hex : ∀ i m e, ex i m = .error e → e = .rpmException)
    (hh : ∀ (i : Nat) l, lines[i]? = some l → ¬ InDefinition lines i → HeaderLine l →
      ∀ p, HeaderText (ex i) l p → Uni.lower p.name ∈ Constants.sectionNames ∧
        ∀ d o, p.options = some (d, o) → ∃ ts, Options.tokenize o = .ok ts) :
    ∃ ss, Sections.parse ex lines = .ok ss := by
  obtain ⟨data, rest, h⟩ := sectionsOf_exists (ex := ex) (inDef := InDefinition lines) lines 0 (by
    intro j l hj hd hx
    rw [Nat.zero_add] at hd ⊢
    obtain ⟨p, hp⟩ := headerText_exists (hex j) (l := l) (by
      obtain ⟨n, _, w, r, rfl, _⟩ := hx; rfl)
    exact ⟨p, hp, hh j l hj hd hx p hp⟩)
  exact ⟨preambleOf data :: rest, (parse_iff hl).mpr ⟨data, rest, rfl, h⟩⟩

section
attribute [local instance] asciiUni

def sectionSample : List Str :=
  [s% "Name: a", s% "%package -n b", s% "Summary: c", s% "%prep", s% "%setup", s% "%files  -f x.list", s% "/a"]

/-- the sample, read and written -/
example : ∃ ss, Sections.parse sampleOracle sectionSample = .ok ss ∧ ss.length = 4 ∧
    Sections.raw ss = sectionSample := by
  have h : ((match Sections.parse sampleOracle sectionSample with
    | .error _ => false
    | .ok ss => decide (ss.length = 4 ∧ Sections.raw ss = sectionSample)) = true) := by decide +kernel
  cases hp : Sections.parse sampleOracle sectionSample with
  | error e => rw [hp] at h; simp at h
  | ok ss => rw [hp] at h; exact ⟨ss, rfl, by simpa using h⟩

/-- a header with options meets the hypotheses -/
example : CleanHeader ⟨s% "files", some (s% " ", s% "-f x.list"), none⟩ := by
  refine ⟨?_, by simp⟩
  intro d o h
  simp only [Option.some.injEq, Prod.mk.injEq] at h
  obtain ⟨rfl, rfl⟩ := h
  refine ⟨singleSpacedRefs_of_check (by decide +kernel), [.lit (s% "-f x.list")], by rfl, ?_⟩
  have pl : ∀ c ∈ s% "-fx.list", Plain c := by
    unfold Plain; decide +kernel
  exact .plain (pl _ (by decide)) (.plain (pl _ (by decide)) (.space (by decide) (.plain (pl _ (by decide))
    (.plain (pl _ (by decide)) (.plain (pl _ (by decide)) (.plain (pl _ (by decide)) (.plain (pl _ (by decide))
    (.plain (pl _ (by decide)) .nil))))))))

/-- violation: `%package` without options disappears -/
theorem C03_violation_package : ∃ lines ss, Sections.parse sampleOracle lines = .ok ss ∧
    lines = [s% "a", s% "%package", s% "b"] ∧ Sections.raw ss = [s% "a", s% "b"] :=
  ⟨_, [⟨s% "package", ⟨[], s% "n:", []⟩, [], ['\n'], [s% "a"]⟩,
    ⟨s% "package", ⟨[], s% "n:", []⟩, [], ['\n'], [s% "b"]⟩], by decide +kernel, rfl, by decide +kernel⟩

/-- violation: an empty quoted argument is lost -/
theorem C03_violation_empty_argument : ∃ ss,
    Sections.parse sampleOracle [s% "%files -n \"\" x"] = .ok ss ∧ Sections.raw ss = [s% "%files -n  x"] := by
  have h : ((match Sections.parse sampleOracle [s% "%files -n \"\" x"] with
    | .error _ => false
    | .ok ss => decide (Sections.raw ss = [s% "%files -n  x"])) = true) := by decide +kernel
  cases hp : Sections.parse sampleOracle [s% "%files -n \"\" x"] with
  | error e => rw [hp] at h; simp at h
  | ok ss => rw [hp] at h; exact ⟨ss, rfl, by simpa using h⟩

/-- violation: a backslash before an ordinary character is lost -/
theorem C03_violation_backslash : ∃ ss,
    Sections.parse sampleOracle [s% "%files a\\b"] = .ok ss ∧ Sections.raw ss = [s% "%files ab"] := by
  have h : ((match Sections.parse sampleOracle [s% "%files a\\b"] with
    | .error _ => false
    | .ok ss => decide (Sections.raw ss = [s% "%files ab"])) = true) := by decide +kernel
  cases hp : Sections.parse sampleOracle [s% "%files a\\b"] with
  | error e => rw [hp] at h; simp at h
  | ok ss => rw [hp] at h; exact ⟨ss, rfl, by simpa using h⟩

end

/-- a table that also knows the long s, which `re.IGNORECASE` takes for an s and `str.lower` keeps -/
@[instance_reducible] def longSUni : Uni := { asciiUni with
  isAlnum c := asciiUni.isAlnum c || c == 'ſ'
  ieq p c := asciiUni.ieq p c || (p == 's' && c == 'ſ') || (p == 'S' && c == 'ſ')
  alnum_ascii := by
    intro c h
    have : (c == 'ſ') = false := by
      rw [beq_eq_false_iff_ne]; rintro rfl; exact absurd h (by decide)
    rw [this, Bool.or_false]; exact asciiUni.alnum_ascii c h
  numeric_alnum := by intro c h; rw [asciiUni.numeric_alnum c h]; rfl
  alnum_not_space := by
    intro c h
    rw [Bool.or_eq_true] at h
    rcases h with h | h
    · exact asciiUni.alnum_not_space c h
    · rw [beq_iff_eq] at h; subst h; decide
  ieq_ascii := by
    intro p c hp hc
    have : (c == 'ſ') = false := by
      rw [beq_eq_false_iff_ne]; rintro rfl; exact absurd hc (by decide)
    rw [this, Bool.and_false, Bool.and_false, Bool.or_false, Bool.or_false]
    exact asciiUni.ieq_ascii p c hp hc
  ieq_refl := by intro c; rw [asciiUni.ieq_refl]; rfl
  ieq_alnum := by
    intro p c hp h
    simp only [Bool.or_eq_true, Bool.and_eq_true, beq_iff_eq] at h ⊢
    rcases h with (h | h) | h
    · exact Or.inl (asciiUni.ieq_alnum p c hp h)
    · exact Or.inr h.2
    · exact Or.inr h.2
  ieq_uncased := by
    intro p c h1 h2 h
    simp only [Bool.or_eq_true, Bool.and_eq_true, beq_iff_eq] at h
    rcases h with (h | h) | h
    · exact asciiUni.ieq_uncased p c h1 h2 h
    · rw [h.1] at h2; exact absurd h2 (by decide)
    · rw [h.1] at h2; exact absurd h2 (by decide) }

attribute [local instance] longSUni in
/-- violation: a line that looks like a header but is none makes reading fail -/
theorem C03_violation_long_s : HeaderLine (s% "%fileſ") ∧
    Sections.parse sampleOracle [s% "%fileſ"] = .error .valueError := by
  refine ⟨?_, by decide +kernel⟩
  rw [← isHeader_iff (by decide)]
  decide +kernel

/-! ### C19 -/

/-- C19: lookup finds the first section with this id, ignoring the case of the argument. -/
theorem C19_find_first [Uni] (ss : Sections) (id : Str) (k : Nat) :
    Sections.find ss id = .ok k ↔ ∃ a s b, ss = a ++ s :: b ∧ a.length = k ∧
      normalizedId s = Uni.lower id ∧ ∀ x ∈ a, normalizedId x ≠ Uni.lower id := by
  unfold Sections.find
  have e : ∀ p : Section → Bool, ss.findIdx? p = some k ↔ ∃ a s b, ss = a ++ s :: b ∧ a.length = k ∧
      p s = true ∧ ∀ x ∈ a, p x = false := by
    intro p
    rw [List.findIdx?_eq_some_iff_getElem]
    constructor
    · rintro ⟨h, h1, h2⟩
      refine ⟨ss.take k, ss[k], ss.drop (k + 1), by simp, by simp; omega, h1, ?_⟩
      intro x hx
      obtain ⟨i, hi, rfl⟩ := List.mem_iff_getElem.mp hx
      simp only [List.length_take] at hi
      have := h2 i (by omega)
      simpa using this
    · rintro ⟨a, s, b, rfl, rfl, h1, h2⟩
      refine ⟨by simp, by simpa using h1, ?_⟩
      intro j hj
      rw [List.getElem_append_left hj]
      simpa using h2 _ (List.getElem_mem hj)
  have e := e (fun s => normalizedId s == Uni.lower id)
  simp only [beq_iff_eq, beq_eq_false_iff_ne] at e
  cases hf : ss.findIdx? (fun s => normalizedId s == Uni.lower id) with
  | none => rw [hf] at e; simpa using e
  | some i => rw [hf] at e; simpa using e

/-- C19: `in` tells whether lookup succeeds; otherwise lookup raises. -/
theorem C19_contains [Uni] (ss : Sections) (id : Str) :
    (Sections.contains ss id = true ↔ ∃ s ∈ ss, normalizedId s = Uni.lower id) ∧
    (Sections.contains ss id = true → ∃ k, Sections.find ss id = .ok k) ∧
    (Sections.contains ss id = false → Sections.find ss id = .error .valueError ∧
      Sections.get ss id = .error .valueError) := by
  have h1 : Sections.contains ss id = true ↔ ∃ s ∈ ss, normalizedId s = Uni.lower id := by
    simp [Sections.contains]
  refine ⟨h1, ?_, ?_⟩
  · intro h
    unfold Sections.find
    cases hf : ss.findIdx? (fun s => normalizedId s == Uni.lower id) with
    | some i => exact ⟨i, rfl⟩
    | none =>
      rw [List.findIdx?_eq_none_iff] at hf
      obtain ⟨s, hs, he⟩ := h1.mp h
      have := hf s hs
      simp [he] at this
  · intro h
    have hf : ss.findIdx? (fun s => normalizedId s == Uni.lower id) = none := by
      rw [List.findIdx?_eq_none_iff]
      intro x hx
      have : ¬ Sections.contains ss id = true := by simp [h]
      rw [h1] at this
      simp only [beq_eq_false_iff_ne]
      intro he
      exact this ⟨x, hx, he⟩
    simp [Sections.get, Sections.find, hf]

/-- C19: which sections lookup can reach: those whose options are unchanged by lower-casing and that
have no earlier section with the same id. The id to use is the section's own. -/
theorem C19_reachable [Uni] (ss : Sections) (k : Nat) (s : Section) (hs : ss[k]? = some s) :
    (∃ id, Sections.find ss id = .ok k) ↔
      Uni.lower (normalizedId s) = normalizedId s ∧ ∀ x ∈ ss.take k, normalizedId x ≠ normalizedId s := by
  constructor
  · rintro ⟨id, h⟩
    obtain ⟨a, t, b, rfl, rfl, h1, h2⟩ := (C19_find_first ss id k).mp h
    rw [List.getElem?_append_right (by simp)] at hs
    simp only [Nat.sub_self, List.getElem?_cons_zero, Option.some.injEq] at hs
    subst hs
    rw [h1]
    refine ⟨Uni.lower_idem _, ?_⟩
    intro x hx
    simp at hx
    exact h2 x hx
  · rintro ⟨h1, h2⟩
    refine ⟨normalizedId s, (C19_find_first _ _ _).mpr ⟨ss.take k, s, ss.drop (k + 1), ?_, ?_, h1.symm, ?_⟩⟩
    · obtain ⟨hk, rfl⟩ := List.getElem?_eq_some_iff.mp hs
      simp
    · obtain ⟨hk, _⟩ := List.getElem?_eq_some_iff.mp hs
      simp; omega
    · rw [h1]; exact h2

/-- C19: `get` returns the section that `find` found. -/
theorem C19_get [Uni] (a b : List Section) (s : Section) (id : Str)
    (hs : normalizedId s = Uni.lower id) (ha : ∀ x ∈ a, normalizedId x ≠ Uni.lower id) :
    Sections.get (a ++ s :: b) id = .ok s := by
  have h := (C19_find_first (a ++ s :: b) id a.length).mpr ⟨a, s, b, rfl, rfl, hs, ha⟩
  simp [Sections.get, h]

/-- C19: assigning lines to a section changes the lines of this section only; the header stays. -/
theorem C19_set_lines_local [Uni] (ss ss' : Sections) (id : Str) (data : List Str) (hc : Sections.contains ss id = true)
    (h : Sections.setData ss id data = .ok ss') :
    ∃ a s b, ss = a ++ s :: b ∧ normalizedId s = Uni.lower id ∧ (∀ x ∈ a, normalizedId x ≠ Uni.lower id) ∧
      ss' = a ++ { s with data := data } :: b ∧
      Sections.raw ss = Sections.raw a ++ rawSection s ++ Sections.raw b ∧
      Sections.raw ss' = Sections.raw a ++ rawSection { s with data := data } ++ Sections.raw b ∧
      (GoodSection s → (∀ l ∈ data, OneLine l) →
        rawSection s = headerOf s :: s.data ∧ rawSection { s with data := data } = headerOf s :: data) := by
  unfold Sections.setData at h
  rw [if_neg (by simp [hc])] at h
  split at h
  · simp at h
  · rename_i k hk
    simp only [Except.ok.injEq] at h
    obtain ⟨a, s, b, rfl, rfl, h1, h2⟩ := (C19_find_first ss id k).mp hk
    rw [Tags.modify_append] at h
    refine ⟨a, s, b, rfl, h1, h2, h.symm, by simp [Sections.raw], by simp [← h, Sections.raw], ?_⟩
    intro hg hd
    refine ⟨good_raw hg, ?_⟩
    obtain ⟨_, p, k1, k2, k3, k4⟩ := good_header (ex := fun _ => .ok []) hg rfl
    have hn0 := normalizedId_ne k1 k2 k4
    have hn : normalizedId { s with data := data } ≠ Sections.preamble := hn0
    have hstr := str_of_header k1 k2 k3 (normalizedId_ne k1 k2 k4)
    have hstr2 : str { s with data := data } = unlines (headerOf s :: data) := by
      have hn2 := normalizedId_ne k1 k2 k4
      unfold str at hstr ⊢
      rw [if_neg hn2] at hstr
      rw [if_neg hn]
      have e : ∀ x y z : Str, x ++ y = x ++ z → y = z := fun x y z h => by simpa using h
      have hsep := hg.separator
      simp only [unlines, List.map_cons, List.flatten_cons, hsep] at hstr ⊢
      have hid : Sections.id ⟨s.name, s.options, s.delimiter, ['\n'], data⟩ = Sections.id s := rfl
      rw [hid]
      have hid2 : '%' :: Sections.id s = headerOf s := by
        have := hstr
        rw [← List.cons_append, ← List.cons_append] at this
        have := List.append_cancel_right this
        exact List.append_cancel_right this
      rw [← hid2]
      rfl
    unfold rawSection
    rw [if_neg hn, hstr2]
    apply splitlines_unlines
    intro x hx
    rcases List.mem_cons.mp hx with rfl | hx
    · exact hg.oneLine
    · exact hd x hx

/-- C19: replacing a section changes nothing but this section. -/
theorem C19_set_section_local [Uni] (ss ss' : Sections) (id : Str) (new : Section) (hc : Sections.contains ss id = true)
    (h : Sections.setSection ss id new = .ok ss') :
    ∃ a s b, ss = a ++ s :: b ∧ normalizedId s = Uni.lower id ∧ (∀ x ∈ a, normalizedId x ≠ Uni.lower id) ∧
      ss' = a ++ new :: b ∧
      Sections.raw ss = Sections.raw a ++ rawSection s ++ Sections.raw b ∧
      Sections.raw ss' = Sections.raw a ++ rawSection new ++ Sections.raw b := by
  unfold Sections.setSection at h
  rw [if_neg (by simp [hc])] at h
  split at h
  · simp at h
  · rename_i k hk
    simp only [Except.ok.injEq] at h
    obtain ⟨a, s, b, rfl, rfl, h1, h2⟩ := (C19_find_first ss id k).mp hk
    rw [List.set_append_right _ _ (by simp)] at h
    simp only [Nat.sub_self, List.set_cons_zero] at h
    exact ⟨a, s, b, rfl, h1, h2, h.symm, by simp [Sections.raw], by simp [← h, Sections.raw]⟩

/-- C19: deleting a section removes the lines of this section and nothing else. -/
theorem C19_delete_local [Uni] (ss ss' : Sections) (id : Str) (h : Sections.delSection ss id = .ok ss') :
    ∃ a s b, ss = a ++ s :: b ∧ normalizedId s = Uni.lower id ∧ (∀ x ∈ a, normalizedId x ≠ Uni.lower id) ∧
      ss' = a ++ b ∧
      Sections.raw ss = Sections.raw a ++ rawSection s ++ Sections.raw b ∧
      Sections.raw ss' = Sections.raw a ++ Sections.raw b := by
  unfold Sections.delSection at h
  split at h
  · simp at h
  · rename_i k hk
    simp only [Except.ok.injEq] at h
    obtain ⟨a, s, b, rfl, rfl, h1, h2⟩ := (C19_find_first ss id k).mp hk
    rw [List.eraseIdx_append_of_length_le (by simp)] at h
    simp only [Nat.sub_self, List.eraseIdx_cons_zero] at h
    exact ⟨a, s, b, rfl, h1, h2, h.symm, by simp [Sections.raw], by simp [← h, Sections.raw]⟩

/-- C19: deleting raises exactly if the section is not there. Assigning never raises; if the section is not there, nothing
changes. -/
theorem C19_edit_raises [Uni] (ss : Sections) (id : Str) (data : List Str) (new : Section) :
    ((∃ ss', Sections.setData ss id data = .ok ss') ∧ (Sections.contains ss id = false → Sections.setData ss id data = .ok ss)) ∧
    ((∃ ss', Sections.setSection ss id new = .ok ss') ∧ (Sections.contains ss id = false → Sections.setSection ss id new = .ok ss)) ∧
    (Sections.delSection ss id = .error .attributeError ↔ Sections.contains ss id = false) := by
  obtain ⟨h1, h2, h3⟩ := C19_contains ss id
  unfold Sections.setData Sections.setSection Sections.delSection
  cases hc : Sections.contains ss id with
  | true => obtain ⟨k, hk⟩ := h2 hc; simp [hk]
  | false => simp [(h3 hc).1]

/-- C19: sections that are written properly are read again as they are. -/
theorem C19_read_back [Uni] (ex : Conditions.Oracle) (ss : Sections) (h : GoodSections ss)
    (ho : HeadersOutside (Sections.raw ss)) : Sections.parse ex (Sections.raw ss) = .ok ss :=
  parse_good h ho

/-- C19: assigning lines to a section, writing all of it and reading again gives the sections that were
there, with the new lines in the one that was assigned. -/
theorem C19_set_read_back [Uni] (ex : Conditions.Oracle) (ss ss' : Sections) (id : Str) (data : List Str)
    (hg : GoodSections ss) (hd : ∀ l ∈ data, OneLine l ∧ ¬ HeaderLine l)
    (h : Sections.setData ss id data = .ok ss') (ho : HeadersOutside (Sections.raw ss')) :
    Sections.parse ex (Sections.raw ss') = .ok ss' := by
  apply parse_good _ ho
  have hc' : Sections.contains ss id = false → ss' = ss := by
    intro hc
    rw [((C19_edit_raises ss id data ⟨[], ⟨[], [], []⟩, [], [], []⟩).1).2 hc] at h
    cases h
    rfl
  cases hc : Sections.contains ss id with
  | false => rw [hc' hc]; exact hg
  | true =>
  obtain ⟨a, s, b, rfl, _, _, rfl, _⟩ := C19_set_lines_local ss ss' id data hc h
  obtain ⟨pre, rest, he, hp, hr⟩ := hg
  cases a with
  | nil =>
    simp only [List.nil_append, List.cons.injEq] at he
    obtain ⟨rfl, rfl⟩ := he
    exact ⟨data, b, rfl, hd, hr⟩
  | cons x a =>
    simp only [List.cons_append, List.cons.injEq] at he
    obtain ⟨rfl, rfl⟩ := he
    refine ⟨pre, a ++ { s with data := data } :: b, rfl, hp, ?_⟩
    intro t ht
    simp only [List.mem_append, List.mem_cons] at ht
    rcases ht with ht | rfl | ht
    · exact hr t (by simp [ht])
    · have hs := hr s (by simp)
      exact ⟨hs.name, hs.known, hs.optstring, hs.defaults, hs.options, hs.separator, hs.oneLine, hs.notPackage, hd⟩
    · exact hr t (by simp [ht])

/-- C19: the same after a section was deleted. -/
theorem C19_delete_read_back [Uni] (ex : Conditions.Oracle) (ss ss' : Sections) (id : Str)
    (hg : GoodSections ss) (hid : Uni.lower id ≠ s% "package")
    (h : Sections.delSection ss id = .ok ss') (ho : HeadersOutside (Sections.raw ss')) :
    Sections.parse ex (Sections.raw ss') = .ok ss' := by
  apply parse_good _ ho
  obtain ⟨a, s, b, rfl, hn, _, rfl, _⟩ := C19_delete_local ss ss' id h
  obtain ⟨pre, rest, he, hp, hr⟩ := hg
  cases a with
  | nil =>
    simp only [List.nil_append, List.cons.injEq] at he
    obtain ⟨rfl, rfl⟩ := he
    rw [preamble_id] at hn
    exact absurd hn.symm hid
  | cons x a =>
    simp only [List.cons_append, List.cons.injEq] at he
    obtain ⟨rfl, rfl⟩ := he
    refine ⟨pre, a ++ b, rfl, hp, ?_⟩
    intro t ht
    exact hr t (by simp only [List.mem_append, List.mem_cons] at ht ⊢; rcases ht with ht | ht <;> simp [ht])

/-- headers are outside of macro definitions if there are none -/
theorem C19_headers_outside [Uni] (lines : List Str)
    (h : ∀ l ∈ lines, ¬ (s% "global" <:+: l ∨ s% "define" <:+: l)) : HeadersOutside lines :=
  fun i _ _ _ => not_inDefinition h i

section
attribute [local instance] asciiUni

/-- lookup in the sample -/
example : Sections.find [preambleOf [s% "Name: a"], ⟨s% "Prep", ⟨[], [], []⟩, [], ['\n'], [s% "x"]⟩] (s% "pREP")
    = .ok 1 := by decide +kernel

/-- a section that meets the hypotheses -/
example : GoodSections [preambleOf [s% "Name: a"], ⟨s% "Files", ⟨[⟨.default, s% "-f"⟩, ⟨.whitespace, s% " "⟩,
    ⟨.default, s% "x"⟩], s% "n:f:", []⟩, s% " ", ['\n'], [s% "/a b"]⟩] := by
  have nh : ∀ l : Str, isHeader l = false → '\n' ∉ l → ¬ HeaderLine l := by
    intro l h hn hl
    rw [(isHeader_iff hn).mpr hl] at h
    simp at h
  refine ⟨_, _, rfl, ?_, ?_⟩
  · intro l hl
    simp only [List.mem_singleton] at hl
    subst hl
    exact ⟨by unfold OneLine; decide +kernel, nh _ (by decide +kernel) (by decide)⟩
  · intro s hs
    simp only [List.mem_singleton] at hs
    subst hs
    refine ⟨⟨s% "files", by decide +kernel, ?_⟩, by decide +kernel, by decide +kernel, rfl, Or.inr ⟨?_, ?_, ?_, ?_⟩, rfl,
      ?_, by decide +kernel, ?_⟩
    · simp only [SameLetters]; decide +kernel
    · simp
    · unfold Spaces; decide
    · simp only [GoodTokens, GoodToken]; decide +kernel
    · simp
    · unfold OneLine; decide +kernel
    · intro l hl
      simp only [List.mem_singleton] at hl
      subst hl
      exact ⟨by unfold OneLine; decide +kernel, nh _ (by decide +kernel) (by decide)⟩

/-- violation: a section whose options have upper-case letters cannot be looked up by its own id, or by
any other -/
theorem C19_violation_uppercase : ∃ ss, Sections.parse sampleOracle [s% "%package -n Foo"] = .ok ss ∧
    ss.length = 2 ∧ ∀ id, Sections.find ss id ≠ .ok 1 := by
  refine ⟨[preambleOf [], ⟨s% "package", ⟨[⟨.default, s% "-n"⟩, ⟨.whitespace, s% " "⟩, ⟨.default, s% "Foo"⟩],
    s% "n:", []⟩, s% " ", ['\n'], []⟩], by decide +kernel, rfl, ?_⟩
  intro id h
  have := (C19_reachable _ 1 _ rfl).mp ⟨id, h⟩
  exact absurd this.1 (by decide +kernel)

/-- violation: a section with a blank after its name is not found by its name -/
theorem C19_violation_trailing_blank : ∃ ss, Sections.parse sampleOracle [s% "%prep "] = .ok ss ∧
    Sections.contains ss (s% "prep") = false ∧ Sections.contains ss (s% "prep ") = true :=
  ⟨[preambleOf [], ⟨s% "prep", ⟨[], [], []⟩, s% " ", ['\n'], []⟩], by decide +kernel, by decide +kernel,
    by decide +kernel⟩

/-- an oracle that expands `%m` to text that starts with a newline -/
def newlineOracle : Conditions.Oracle := fun _ m => if m = s% "%m" then .ok (s% "\nx") else .ok m

/-- violation: when a macro was moved from the header to the content of a section, lines that are
assigned end up on the header line -/
theorem C19_violation_moved : ∃ ss ss', Sections.parse newlineOracle [s% "%prep %m"] = .ok ss ∧
    Sections.setData ss (s% "prep") [s% "echo"] = .ok ss' ∧ Sections.raw ss' = [s% "%prep echo"] :=
  ⟨[preambleOf [], ⟨s% "prep", ⟨[], [], []⟩, [], s% " ", [s% "%m"]⟩],
   [preambleOf [], ⟨s% "prep", ⟨[], [], []⟩, [], s% " ", [s% "echo"]⟩], by decide +kernel, by decide +kernel,
   by decide +kernel⟩

end

/-! ### C58 -/

/-- C58: the header of a section with options separates the name from the options, if the options count
as such. What is missing: sections that have positional arguments or unknown options only, see the violation. -/
theorem C58_separated_partial (s : Section) (hl : Options.len s.options ≠ 0) :
    ∃ d, d ≠ [] ∧ Sections.id s = s.name ++ d ++ Options.tokensStr s.options.tokens := by
  refine ⟨delim s, ?_, rfl⟩
  unfold delim
  split
  · simp
  · rename_i h
    intro he
    exact h ⟨hl, by simp [he]⟩

/-- C58: a delimiter that is there is not changed. -/
theorem C58_delimiter_kept (s : Section) (hd : s.delimiter ≠ []) :
    Sections.id s = s.name ++ s.delimiter ++ Options.tokensStr s.options.tokens := by
  unfold Sections.id delim
  rw [if_neg]
  rintro ⟨_, h⟩
  exact hd (by simpa using h)

section
attribute [local instance] asciiUni

example : Options.len ⟨[⟨.default, s% "-n"⟩, ⟨.whitespace, s% " "⟩, ⟨.default, s% "x"⟩], s% "n:", []⟩ ≠ 0 := by
  decide +kernel

/-- violation: positional arguments are glued to the name -/
theorem C58_violation_positional : ∃ s, Sections.mkSection (s% "files") (some ⟨[⟨.default, s% "devel"⟩], s% "n:f:", []⟩)
      [] ['\n'] [s% "/a"] = .ok s ∧
    Sections.raw [s] = [s% "%filesdevel", s% "/a"] ∧
    Sections.parse sampleOracle (Sections.raw [s]) = .ok [preambleOf [s% "%filesdevel", s% "/a"]] :=
  ⟨_, rfl, by decide +kernel, by decide +kernel⟩

end

/-! ### C59 -/

theorem splitP_head {n r : Str} (hn : Word n) (hne : n ≠ []) (hr : ∀ c ∈ r.head?, isSpace c = true) :
    (words (n ++ r)).head? = some n := by
  have key : ∀ n : Str, Word n → ∃ t, splitP isSpace (n ++ r) = n :: t := by
    intro n hn
    induction n with
    | nil =>
      cases r with
      | nil => exact ⟨[], rfl⟩
      | cons c cs =>
        have := hr c (by simp)
        exact ⟨splitP isSpace cs, by simp [splitP, this]⟩
    | cons c cs ih =>
      obtain ⟨t, ht⟩ := ih (fun x hx => hn x (by simp [hx]))
      refine ⟨t, ?_⟩
      have := hn c (by simp)
      simp [splitP, this, ht]
  obtain ⟨t, ht⟩ := key n hn
  cases n with
  | nil => exact absurd rfl hne
  | cons c cs => rw [words, ht]; rfl

/-- C59: `is_script` tells, for every section whose header separates the name from the options, whether
the name is one of those with scripts. -/
theorem C59_is_script [Uni] (s : Section) (hk : Uni.lower s.name ∈ Constants.sectionNames)
    (hd : (s.options.tokens = [] ∧ s.delimiter = []) ∨ (s.delimiter ≠ [] ∧ Spaces s.delimiter)) :
    Sections.isScript s = .ok (decide (Uni.lower s.name ∈ Constants.scriptSections ∨
      Uni.lower s.name ∈ Constants.simpleScriptSections)) := by
  have hall : ∀ n ∈ Constants.sectionNames, n ≠ [] ∧ ∀ c ∈ n, isSpace c = false := by decide +kernel
  obtain ⟨h1, h2⟩ := hall _ hk
  have hw : (words (normalizedId s)).head? = some (Uni.lower s.name) := by
    unfold normalizedId
    rw [List.append_assoc]
    apply splitP_head h2 h1
    rcases hd with ⟨e1, e2⟩ | ⟨e1, e2⟩
    · have : delim s = [] := by
        unfold delim
        rw [if_neg, e2]
        rintro ⟨h, _⟩
        apply h
        simp [Options.len, e1, Options.distinct]
      simp [this, e1, Options.tokensStr]
    · have : delim s = s.delimiter := by
        unfold delim
        rw [if_neg]
        rintro ⟨_, h⟩
        exact e1 (by simpa using h)
      rw [this]
      cases hx : s.delimiter with
      | nil => exact absurd hx e1
      | cons c cs => intro x hc; simp at hc; subst hc; exact e2 _ (by simp [hx])
  unfold Sections.isScript
  cases hx : words (normalizedId s) with
  | nil => rw [hx] at hw; simp at hw
  | cons w ws =>
    rw [hx] at hw
    simp only [List.head?_cons, Option.some.injEq] at hw
    subst hw
    simp [Bool.decide_or]

section
attribute [local instance] asciiUni
example : Sections.isScript ⟨s% "Post", ⟨[⟨.default, s% "-p"⟩], s% "n:f:p:P:eq", []⟩, s% " ", ['\n'], []⟩ = .ok true := by
  decide +kernel
example : Sections.isScript ⟨s% "files", ⟨[], s% "n:f:", []⟩, [], ['\n'], []⟩ = .ok false := by decide +kernel
end

end Specfile.Props
