import Verif.Props.Changelog
/-
C102: sequences of added changelog entries.
-/
namespace Specfile.Props
open Py Spec Changelog

section

/-- what is added: timestamp, author, content and EVR -/
structure Addition where
  stamp : Timestamp
  author : Str
  content : List Str
  evr : Str

/-- the lines of a changelog after the additions; each time the changelog is read from the lines and written back -/
def addAll [Uni] (lines : List Str) : List Addition → List Str
  | [] => lines
  | x :: xs => addAll (raw (add (parse lines) x.stamp x.author x.content x.evr)) xs

/-- the entry says what was added; `before` are the older entries. It is followed by an empty line unless it is the
oldest one. -/
def Says [Uni] (pred : List Str) (before : List ChangelogEntry) (x : Addition) (e : ChangelogEntry) : Prop :=
  HeaderOf x.stamp x.author (some x.evr) (newPadding ⟨before, pred⟩) e.header ∧ e.content = x.content ∧
    (before = [] → e.following = []) ∧ (before ≠ [] → e.following = [[]])

theorem drop_front (lines : List Str) :
    lines.drop (parse lines).predecessor.length = ((parse lines).data.reverse.map logLines).flatten := by
  have hr := (parse_iff.1 (rfl : parse lines = parse lines)).2
  generalize parse lines = c at hr
  subst hr
  simp [changelogLines]

/-- C102 for additions to a changelog, whatever the changelog contains: if every content is one that can be read back
(C20) and is not empty, then the changelog lists the entries that were there before, in the same order and with the same
lines, and then one entry for each addition, in the order of the additions; the lines are the lines in front of the first
entry, the new entries from the newest to the oldest, and the other lines as they were. -/
theorem C102_entries_partial [Uni] (lines : List Str) (xs : List Addition)
    (h : ∀ x ∈ xs, GoodStamp x.stamp ∧ GoodContent x.content ∧ x.content ≠ []) :
    ∃ news : List ChangelogEntry,
      (parse (addAll lines xs)).data = (parse lines).data ++ news ∧ news.length = xs.length ∧
      (∀ (i : Nat) x e, xs[i]? = some x → news[i]? = some e →
        Says (parse lines).predecessor ((parse lines).data ++ news.take i) x e) ∧
      addAll lines xs = (parse lines).predecessor ++
        (news.reverse.map fun e => e.header :: (e.content ++ e.following)).flatten ++
        lines.drop (parse lines).predecessor.length := by
  induction xs generalizing lines with
  | nil =>
    refine ⟨[], by simp [addAll], rfl, by simp, ?_⟩
    rw [drop_front]
    exact (parse_iff.1 (rfl : parse lines = parse lines)).2.symm.trans (by simp [changelogLines])
  | cons x xs ih =>
    obtain ⟨hs, hc, hne⟩ := h x (by simp)
    have hback := C20_add_read_back lines x.stamp x.author x.content x.evr hc (.inr hne)
    obtain ⟨news, h1, h2, h3, h4⟩ := ih (raw (add (parse lines) x.stamp x.author x.content x.evr))
      (fun y hy => h y (by simp [hy]))
    rw [hback] at h1 h3 h4
    have hpre : (add (parse lines) x.stamp x.author x.content x.evr).predecessor = (parse lines).predecessor := rfl
    have hdat : (add (parse lines) x.stamp x.author x.content x.evr).data =
      (parse lines).data ++ [newEntry (parse lines) x.stamp x.author x.content x.evr] := rfl
    rw [hpre] at h3 h4
    rw [hdat] at h1 h3
    refine ⟨newEntry (parse lines) x.stamp x.author x.content x.evr :: news, ?_, by simp [h2], ?_, ?_⟩
    · simp [addAll, h1]
    · intro i y e hy he
      cases i with
      | zero =>
        simp only [List.getElem?_cons_zero, Option.some.injEq] at hy he
        subst hy; subst he
        obtain ⟨hd, hd1, hd2⟩ := C62_assemble_lines hs x.author x.content (some x.evr) (newPadding (parse lines))
          (!(parse lines).data.isEmpty)
        have hhd : (newEntry (parse lines) x.stamp x.author x.content x.evr).header = hd := by
          simp only [logLines, List.cons.injEq] at hd2
          exact hd2.1
        refine ⟨by simpa [hhd] using hd1, rfl, ?_, ?_⟩
        · intro hb
          have : (parse lines).data = [] := by simpa using hb
          simp [newEntry, assemble, this]
        · intro hb
          have : (parse lines).data ≠ [] := by simpa using hb
          simp [newEntry, assemble, this]
      | succ i =>
        simp only [List.getElem?_cons_succ] at hy he
        have := h3 i y e hy he
        simpa using this
    · rw [addAll, h4, drop_front]
      simp [raw_eq, changelogLines, hpre, hdat, logLines]

end

section
attribute [local instance] asciiUni

/-- a changelog with one entry -/
def oneEntry : List Str := [s% "# text", s% "* Mon Jan 01 2024 A - 1-1", s% "- old"]

/-- two additions -/
def twoAdditions : List Addition :=
  [⟨⟨1, 1, 6, 2024, none⟩, s% "B", [s% "- one"], s% "1-2"⟩, ⟨⟨2, 1, 7, 2024, none⟩, s% "C", [s% "- two", s% "- three"], s% "1-3"⟩]

theorem dashed_content {content : List Str} (h : ∀ l ∈ content, l.head? = some '-') : GoodContent content := by
  constructor
  · rintro a l b rfl hl
    rw [StarLine, h l (by simp)] at hl
    exact absurd hl (by decide)
  · intro l hl hb
    have hm := h l (List.mem_of_getLast? hl)
    exact absurd (hb '-' (List.mem_of_head? hm)) (by decide +kernel)

/-- the hypotheses of `C102_entries_partial` -/
example : ∀ x ∈ twoAdditions, GoodStamp x.stamp ∧ GoodContent x.content ∧ x.content ≠ [] := by
  intro x hx
  simp only [twoAdditions, List.mem_cons, List.not_mem_nil, or_false] at hx
  obtain rfl | rfl := hx
  all_goals
    exact ⟨⟨by decide, by decide, by decide, by decide, by simp⟩, dashed_content (by decide +kernel), by decide⟩

example : addAll oneEntry twoAdditions =
    [s% "# text", s% "* Wed Feb 07 2024 C - 1-3", s% "- two", s% "- three", [], s% "* Tue Feb 06 2024 B - 1-2", s% "- one",
      [], s% "* Mon Jan 01 2024 A - 1-1", s% "- old"] := by decide +kernel

/-- C102 fails for an entry without content: when the lines are read again, the entry after it is its content. -/
theorem C102_violation_empty_entry :
    (parse (addAll oneEntry [⟨⟨1, 1, 6, 2024, none⟩, s% "B", [], s% "1-2"⟩])).data =
      [⟨s% "* Tue Feb 06 2024 B - 1-2", [[], s% "* Mon Jan 01 2024 A - 1-1", s% "- old"], []⟩] := by decide +kernel

/-- C102 fails for a content with a line that starts with an asterisk: it is read as an entry of its own. -/
theorem C102_violation_star_entry :
    (parse (addAll oneEntry [⟨⟨1, 1, 6, 2024, none⟩, s% "B", [s% "- one", s% "* two", s% "- three"], s% "1-2"⟩])).data =
      [⟨s% "* Mon Jan 01 2024 A - 1-1", [s% "- old"], []⟩, ⟨s% "* two", [s% "- three"], [[]]⟩,
        ⟨s% "* Tue Feb 06 2024 B - 1-2", [s% "- one"], []⟩] := by decide +kernel
end

end Specfile.Props
