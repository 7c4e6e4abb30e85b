import Verif.Spec.Sourcelist
import Verif.Props.Tags
/-
Properties of %sourcelist and %patchlist (C05).
-/
namespace Specfile.Sourcelist
open Py Spec

theorem isEntry_iff {l : Str} : (!l.isEmpty && !startsWith (lstrip l) ['#']) = true ↔ IsEntry l := by
  unfold IsEntry
  rw [Bool.and_eq_true, Bool.not_eq_true', Bool.not_eq_true']
  have h : startsWith (lstrip l) ['#'] = true ↔ CommentLine l := by
    unfold startsWith lstrip CommentLine
    constructor
    · intro h
      have hd := List.takeWhile_append_dropWhile (p := isSpace) (l := l)
      cases hx : l.dropWhile isSpace with
      | nil => rw [hx] at h; simp at h
      | cons c cs =>
        rw [hx] at h
        simp at h
        subst h
        refine ⟨l.takeWhile isSpace, cs, by rw [← hx]; exact hd.symm, ?_⟩
        intro c hc
        exact List.all_eq_true.mp List.all_takeWhile c hc
    · rintro ⟨w, t, rfl, hw⟩
      have : (w ++ '#' :: t).dropWhile isSpace = '#' :: t := by
        rw [List.dropWhile_append_of_pos (fun a ha => hw a ha)]
        rfl
      rw [this]; simp
  rw [← h]
  cases l with
  | nil => simp
  | cons c cs => simp

theorem parseLoop_reads {ls : List (Str × Bool)} {buffer : List Str} (hb : ∀ l ∈ buffer, '\n' ∉ l)
    (hn : ∀ l ∈ ls, '\n' ∉ l.1) {es : List SourcelistEntry} {r : List Str} :
    parseLoop buffer ls = ⟨es, r⟩ ↔ ReadEntries buffer ls es r := by
  induction ls generalizing buffer es r with
  | nil =>
    simp only [parseLoop, Sourcelist.mk.injEq]
    constructor
    · rintro ⟨rfl, rfl⟩; exact .nil
    · intro h; cases h; exact ⟨rfl, rfl⟩
  | cons x ls ih =>
    obtain ⟨l, v⟩ := x
    have hn' : ∀ l ∈ ls, '\n' ∉ l.1 := fun y hy => hn y (by simp [hy])
    unfold parseLoop
    by_cases he : IsEntry l
    · rw [if_pos (isEntry_iff.mpr he)]
      simp only [Sourcelist.mk.injEq]
      constructor
      · rintro ⟨rfl, rfl⟩
        exact .entry he ((Props.C08_meaning buffer hb _).mp rfl) ((ih (by simp) hn').mp rfl)
      · intro h
        cases h with
        | skip h1 _ => exact absurd he h1
        | entry h1 h2 h3 =>
          have := (ih (by simp) hn').mpr h3
          rw [this, (Props.C08_meaning buffer hb _).mpr h2]
          exact ⟨rfl, rfl⟩
    · rw [if_neg (by rw [isEntry_iff]; exact he)]
      rw [ih (by
        intro y hy
        rcases List.mem_append.mp hy with hy | hy
        · exact hb y hy
        · simp only [List.mem_singleton] at hy; subst hy; exact hn (y, v) (by simp)) hn']
      constructor
      · exact .skip he
      · intro h
        cases h with
        | skip _ h => exact h
        | entry h1 _ _ => exact absurd h1 he

theorem reads_raw {above : List Str} {ls : List (Str × Bool)} {es : List SourcelistEntry} {r : List Str}
    (h : ReadEntries above ls es r) : raw ⟨es, r⟩ = above ++ ls.map (·.1) := by
  induction h with
  | nil => simp [raw]
  | skip _ _ ih => rw [ih]; simp
  | entry _ hc _ ih =>
    simp only [raw, List.map_cons, List.flatten_cons] at ih ⊢
    rw [List.append_assoc, ih]
    simp only [Comments.raw, List.nil_append]
    rw [← hc.1]
    simp

/-- lines above an entry -/
theorem reads_above {a : List Str} (ha : ∀ l ∈ a, ¬ IsEntry l) {above : List Str} {ls : List (Str × Bool)}
    {es : List SourcelistEntry} {r : List Str} {as : List (Str × Bool)} (has : as.map (·.1) = a)
    (h : ReadEntries (above ++ a) ls es r) : ReadEntries above (as ++ ls) es r := by
  induction as generalizing a above with
  | nil => subst has; simpa using h
  | cons x as ih =>
    obtain ⟨l, v⟩ := x
    subst has
    simp only [List.map_cons, List.mem_cons] at ha
    refine .skip (ha l (Or.inl rfl)) (ih (fun y hy => ha y (Or.inr hy)) rfl ?_)
    simpa using h

theorem commentLine_not_entry {c : Comment} (h : CommentParts c) : ¬ IsEntry c.str := by
  obtain ⟨⟨w, u, hp, hw, _⟩, _⟩ := h
  intro he
  apply he.2
  exact ⟨w, u ++ c.text, by simp [Comment.str, hp], hw⟩

theorem good_reads {s : Sourcelist} (h : GoodSourcelist s) {ls : List (Str × Bool)}
    (hl : ls.map (·.1) = raw s) : ∃ es, ReadEntries [] ls es s.remainder ∧
      es.map (fun e => (e.location, e.comments)) = s.data.map (fun e => (e.location, e.comments)) ∧
      ∀ e ∈ es, ∃ l ∈ ls, l.1 = e.location ∧ l.2 = e.valid := by
  obtain ⟨data, r⟩ := s
  obtain ⟨h1, h2⟩ := h
  simp only at h1 h2
  induction data generalizing ls with
  | nil =>
    simp only [raw, List.map_nil, List.flatten_nil, List.nil_append] at hl
    refine ⟨[], ?_, rfl, by simp⟩
    have := reads_above (above := []) h2 (ls := []) (es := []) (r := r) hl .nil
    simpa using this
  | cons e data ih =>
    have e1 : raw ⟨e :: data, r⟩ = e.comments.raw ++ (e.location :: raw ⟨data, r⟩) := by
      simp [raw]
    rw [e1] at hl
    obtain ⟨as, bs, rfl, ha, hb⟩ := List.map_eq_append_iff.mp hl
    obtain ⟨b, bs', rfl, hb1, hb2⟩ := List.map_eq_cons_iff.mp hb
    obtain ⟨es, k1, k2, k3⟩ := ih hb2 (fun x hx => h1 x (by simp [hx]))
    have hg := h1 e (by simp)
    obtain ⟨l, v⟩ := b
    simp only at hb1
    subst hb1
    refine ⟨⟨e.location, e.comments, v⟩ :: es, ?_, by simp [k2], ?_⟩
    · apply reads_above (a := e.comments.raw) _ ha
      · rw [List.nil_append]
        exact .entry hg.location hg.comments k1
      · intro l hl
        unfold Comments.raw at hl
        rcases List.mem_append.mp hl with hl | hl
        · exact hg.preceding l hl
        · obtain ⟨c, hc, rfl⟩ := List.mem_map.mp hl
          exact commentLine_not_entry (hg.comments.2.1 c hc)
    · intro x hx
      rcases List.mem_cons.mp hx with rfl | hx
      · exact ⟨(e.location, v), by simp, rfl, rfl⟩
      · obtain ⟨l, hl, k⟩ := k3 x hx
        exact ⟨l, by simp [hl], k⟩

end Specfile.Sourcelist

namespace Specfile.Props
open Py Spec Sourcelist

/-! ### C05 -/

/-- C05: what is read: one entry for each line that is neither empty nor a comment, with the comments
right above it and its validity as determined by the conditions around it. -/
theorem C05_meaning [Uni] (ex : Conditions.Oracle) (lines : List Str) (hn : ∀ l ∈ lines, '\n' ∉ l)
    (s : Sourcelist) : Sourcelist.parse ex lines = .ok s ↔
      ∃ ls, Conditions.processConditions ex (MacroDefinitions.parseLines lines).excluded lines = .ok ls ∧
        ReadEntries [] ls s.data s.remainder := by
  unfold Sourcelist.parse
  cases hp : Conditions.processConditions ex (MacroDefinitions.parseLines lines).excluded lines with
  | error e => simp
  | ok ls =>
    have hl := C11_lines_kept _ _ _ _ hp
    simp only [Except.ok.injEq, exists_eq_left']
    exact parseLoop_reads (by simp) (by
      intro x hx
      exact hn _ (by rw [← hl]; exact List.mem_map_of_mem hx))

/-- C05: a list that is not modified is written back as the lines it was read from. -/
theorem C05_sourcelist_noop [Uni] (ex : Conditions.Oracle) (lines : List Str) (hn : ∀ l ∈ lines, '\n' ∉ l)
    (s : Sourcelist) (h : Sourcelist.parse ex lines = .ok s) : Sourcelist.raw s = lines := by
  obtain ⟨ls, h1, h2⟩ := (C05_meaning ex lines hn s).mp h
  rw [show s = ⟨s.data, s.remainder⟩ from rfl, reads_raw h2]
  have := C11_lines_kept _ _ _ _ h1
  simpa using this

/-- C05: reading fails only if the conditions around the lines cannot be processed. -/
theorem C05_raises [Uni] (ex : Conditions.Oracle) (lines : List Str) (e : Err) :
    Sourcelist.parse ex lines = .error e ↔
      Conditions.processConditions ex (MacroDefinitions.parseLines lines).excluded lines = .error e := by
  unfold Sourcelist.parse
  cases Conditions.processConditions ex (MacroDefinitions.parseLines lines).excluded lines <;> simp

/-- C05: a list that was edited and written is read again with the same locations and comments. -/
theorem C05_read_back [Uni] (ex : Conditions.Oracle) (s : Sourcelist) (hg : GoodSourcelist s)
    (hn : ∀ l ∈ Sourcelist.raw s, '\n' ∉ l)
    (ls : List (Str × Bool)) (hp : Conditions.processConditions ex
      (MacroDefinitions.parseLines (Sourcelist.raw s)).excluded (Sourcelist.raw s) = .ok ls) :
    ∃ s', Sourcelist.parse ex (Sourcelist.raw s) = .ok s' ∧ s'.remainder = s.remainder ∧
      s'.data.map (fun e => (e.location, e.comments)) = s.data.map (fun e => (e.location, e.comments)) ∧
      ∀ e ∈ s'.data, ∃ l ∈ ls, l.1 = e.location ∧ l.2 = e.valid := by
  have hl := C11_lines_kept _ _ _ _ hp
  obtain ⟨es, h1, h2, h3⟩ := good_reads hg hl
  exact ⟨⟨es, s.remainder⟩, (C05_meaning ex _ hn _).mpr ⟨ls, hp, h1⟩, rfl, h2, h3⟩

section
attribute [local instance] asciiUni

def sourcelistSample : List Str := [s% "# first", s% "a.tar.gz", s% "", s% "%if 0", s% "b.tar.gz", s% "%endif", s% "# end"]

/-- entries in a branch that is not taken are not valid; lines with conditions count as entries -/
example : Sourcelist.parse sampleOracle sourcelistSample = .ok ⟨[⟨s% "a.tar.gz", ⟨[⟨s% "first", s% "# "⟩], []⟩, true⟩,
    ⟨s% "%if 0", ⟨[], [s% ""]⟩, true⟩, ⟨s% "b.tar.gz", ⟨[], []⟩, false⟩, ⟨s% "%endif", ⟨[], []⟩, true⟩], [s% "# end"]⟩ := by
  decide +kernel

/-- a list that meets the hypotheses -/
example : GoodSourcelist ⟨[⟨s% "a", ⟨[⟨s% "c", s% "# "⟩], [s% ""]⟩, true⟩], [s% "#"]⟩ := by
  have cl : ∀ l : Str, CommentLine l → ¬ IsEntry l := fun l h h2 => h2.2 h
  have em : ¬ IsEntry [] := fun h => h.1 rfl
  refine ⟨?_, ?_⟩
  · intro e he
    simp only [List.mem_singleton] at he
    subst he
    refine ⟨(isEntry_iff).mp (by decide +kernel), by decide, ?_, rfl, ?_, ?_⟩
    · intro l hl
      simp only [List.mem_singleton] at hl
      subst hl
      exact em
    · intro x hx
      simp only [List.mem_singleton] at hx
      subst hx
      exact ⟨⟨[], s% " ", rfl, by simp [Spaces], by simp [Spaces]; decide⟩, by decide +kernel⟩
    · intro l hl
      simp at hl
      subst hl
      rintro ⟨w, t, h, _⟩
      simp at h
  · intro l hl
    simp only [List.mem_singleton] at hl
    subst hl
    exact cl _ ⟨[], [], rfl, by simp [Spaces]⟩

end

end Specfile.Props
