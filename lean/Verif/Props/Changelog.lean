import Verif.Proof.Changelog6
import Verif.Proof.MacroDefinitions6
import Verif.Spec.Label
/-
Properties of changelogs (C06, C17, C20, C45, C60-C62).
-/
namespace Specfile.Props
open Py Spec Changelog

/-! ### C06 -/

/-- C06: writing back what was read gives the same lines. -/
theorem C06_changelog_noop (lines : List Str) : raw (parse lines) = lines := (parse_iff.1 rfl).2

/-- C06: what is read: the one well-formed changelog with these lines. Only the beginning of the section can be
without asterisk; a line with an asterisk starts an entry unless the entry before has no content yet. -/
theorem C06_meaning (lines : List Str) (c : Changelog) :
    parse lines = c ↔ GoodChangelog c ∧ changelogLines c = lines := parse_iff

/-- a changelog with two entries -/
def sampleChangelog : Changelog :=
  ⟨[⟨s% "* Mon Jan 01 2024 A B <a@b.c> - 1:0.9-1", [s% "- first"], []⟩,
    ⟨s% "* Tue Feb 06 2024 A B <a@b.c> - 1:1.0-1", [s% "- second", [], s% "- more"], [[], []]⟩], [s% "# text"]⟩

example : parse [s% "# text", s% "* Tue Feb 06 2024 A B <a@b.c> - 1:1.0-1", s% "- second", [], s% "- more", [], [],
    s% "* Mon Jan 01 2024 A B <a@b.c> - 1:0.9-1", s% "- first"] = sampleChangelog := by decide +kernel
/-- an asterisk right after a header is content -/
example : (parse [s% "* header", [], s% "* content", s% "* next"]).data.map (·.header) = [s% "* next", s% "* header"] := by
  decide +kernel

/-! ### C17 -/

/-- C17 (the full claim is for every index). Proved part: deleting by a non-negative index removes the header, the
content and one following line of that entry and nothing else. Missing: negative indices, see
`C17_violation_negative`. -/
theorem C17_delete_partial (c : Changelog) (k : Nat) (e : ChangelogEntry) (a b : List ChangelogEntry)
    (hd : c.data = a ++ e :: b) (hk : a.length = k) :
    ∃ c', delete c k = (c', none) ∧
      c'.data.map (fun x => (x.header, x.content)) = (a ++ b).map (fun x => (x.header, x.content)) ∧
      raw c = c.predecessor ++ (b.reverse.map logLines).flatten ++ (e.header :: (e.content ++ e.following.take 1)) ++
        (e.following.drop 1 ++ (a.reverse.map logLines).flatten) ∧
      raw c' = c.predecessor ++ (b.reverse.map logLines).flatten ++
        (e.following.drop 1 ++ (a.reverse.map logLines).flatten) := by
  have hget : c.data[k]? = some e := by rw [hd, ← hk]; simp
  obtain ⟨c', h1, h2, h3, h4⟩ := delete_nat hget
  have hdrop : c.data.drop (k + 1) = b := by rw [hd, ← hk]; simp
  have htake : c.data.take k = a := by rw [hd, ← hk]; simp
  rw [hdrop] at h3 h4
  rw [htake] at h2
  have e1 : c'.data = a ++ c'.data.drop k := by
    conv => lhs; rw [← List.take_append_drop k c'.data, h2]
  refine ⟨c', h1, ?_, ?_, ?_⟩
  · rw [e1, List.map_append, h3, List.map_append]
  · rw [raw_eq, changelogLines, hd]
    have : e.following = e.following.take 1 ++ e.following.drop 1 := (List.take_append_drop 1 _).symm
    simp only [List.reverse_append, List.reverse_cons, List.map_append, List.map_cons, List.map_nil, List.flatten_append,
      List.flatten_cons, List.flatten_nil, List.append_assoc, logLines, List.cons_append]
    conv => lhs; rw [this]
    simp
  · rw [raw_eq, changelogLines, e1]
    simp only [List.reverse_append, List.map_append, List.flatten_append, ← List.append_assoc]
    rw [h4]

/-- C17: an index out of range is refused and nothing is changed. -/
theorem C17_out_of_range (c : Changelog) (i : Int) (h : c.data.length ≤ i ∨ i < -c.data.length) :
    delete c i = (c, some .indexError) := by
  unfold delete
  have : pyIndex c.data.length i = none := by
    unfold pyIndex
    rcases h with h | h
    · rw [if_pos (by omega), if_neg (by omega)]
    · rw [if_neg (by omega), if_neg (by omega)]
  rw [this]

/-- C17: deleting a slice with a positive step removes the header, the content and one following line of each of its
entries and nothing else. -/
theorem C17_delete_slice_partial (c : Changelog) (start stop step : Option Int) (l : List Nat)
    (hs : 0 < step.getD 1) (hl : sliceIndices c.data.length start stop step = .ok l) :
    ∃ c', deleteSlice c start stop step = (c', none) ∧
      c'.data.map (fun x => (x.header, x.content)) =
        (c.data.mapIdx (fun i e => if i ∈ l then none else some (e.header, e.content))).filterMap id ∧
      raw c' = c.predecessor ++
        (c.data.mapIdx (fun i e => if i ∈ l then e.following.drop 1 else logLines e)).reverse.flatten := by
  have hi := MacroDefinitions.increasing_pairwise (sliceIndices_increasing hs hl)
  obtain ⟨c', h1, h2, h3⟩ := deleteAll_spec (ks := l.reverse) (c := c)
    (by rw [List.pairwise_reverse]; exact hi.1) (by intro k hk; exact hi.2 k (by simpa using hk))
  refine ⟨c', ?_, ?_, ?_⟩
  · unfold deleteSlice; rw [hl]; exact h1
  · rw [h2]; simp
  · rw [raw_eq, h3]; simp

example : (delete sampleChangelog 1).1 =
    ⟨[⟨s% "* Mon Jan 01 2024 A B <a@b.c> - 1:0.9-1", [s% "- first"], []⟩], [s% "# text", []]⟩ := by decide +kernel
example : raw (delete sampleChangelog 0).1 = [s% "# text", s% "* Tue Feb 06 2024 A B <a@b.c> - 1:1.0-1", s% "- second",
    [], s% "- more", [], []] := by decide +kernel
example : sliceIndices 2 none none none = .ok [0, 1] := rfl

/-- C17 does not hold for negative indices: deleting the newest entry by `-1` puts its extra following line after
the entry that is older, where deleting by its position does not; in a changelog with one entry, the entry is gone and
the call raises `IndexError` nevertheless. -/
theorem C17_violation_negative :
    (∃ c : Changelog, c.data.length = 3 ∧ (delete c (-1)).2 = none ∧ raw (delete c (-1)).1 ≠ raw (delete c 2).1) ∧
    (∃ c : Changelog, c.data.length = 1 ∧ delete c (-1) = (⟨[], c.predecessor⟩, some .indexError)) :=
  ⟨⟨⟨[⟨s% "* a", [s% "x"], []⟩, ⟨s% "* b", [s% "x"], []⟩, ⟨s% "* c", [s% "x"], [[], []]⟩], []⟩, rfl, rfl, by decide +kernel⟩,
    ⟨⟨[⟨s% "* a", [s% "x"], []⟩], []⟩, rfl, rfl⟩⟩

/-- C17 does not hold for slices with a negative step: the positions shift under way. -/
theorem C17_violation_negative_step : ∃ c : Changelog, c.data.length = 2 ∧
    (deleteSlice c none none (some (-1))).2 = some .indexError :=
  ⟨⟨[⟨s% "* a", [s% "x"], []⟩, ⟨s% "* b", [s% "x"], []⟩], []⟩, rfl, by decide +kernel⟩

/-! ### C45 -/

section
variable [Uni]

/-- C45: the filtered changelog has the entries between the bounds in their order: an entry is kept if it or an older
one is not lower than `since`, and it or a newer one is not higher than `until`. The lines in front are kept. -/
theorem C45_filter {lc : Utils.Label → Utils.Label → Int} {c : Changelog} {f : ChangelogEntry → EVR}
    {since until_ : Option Str} {lo hi : Option EVR}
    (hn : ∀ e ∈ c.data, '\n' ∉ e.header) (hf : ∀ e ∈ c.data, EntryEvr e (f e))
    (hlo : BoundReads since lo) (hhi : BoundReads until_ hi) :
    Changelog.filter lc c since until_ =
      .ok ⟨keptEntries (lowTest lc f lo) (highTest lc f hi) c.data, c.predecessor⟩ := filter_eq hn hf hlo hhi

omit [Uni] in
/-- C45: if the entries are sorted by EVR, these are exactly the entries with an EVR between the bounds. -/
theorem C45_filter_sorted {lc : Utils.Label → Utils.Label → Int} (hlc : LabelOrder lc) {l : List ChangelogEntry}
    {f : ChangelogEntry → EVR} (hs : l.Pairwise (fun x y => Utils.EVR.le lc (f x) (f y) = true)) (lo hi : Option EVR) :
    keptEntries (lowTest lc f lo) (highTest lc f hi) l =
      l.filter (fun e => lowTest lc f lo e && highTest lc f hi e) := by
  have hmono : ∀ p q (hp : p < l.length) (hq : q < l.length), p ≤ q → Utils.EVR.le lc (f l[p]) (f l[q]) = true := by
    intro p q hp hq hpq
    rcases Nat.lt_or_eq_of_le hpq with h | h
    · exact List.pairwise_iff_getElem.1 hs p q hp hq h
    · subst h
      simp [Utils.EVR.le, Utils.EVR.cmp, hlc.refl]
  have hge : ∀ x y : EVR, Utils.EVR.ge lc x y = Utils.EVR.le lc y x := by
    intro x y
    have h1 := hlc.swap (Utils.EVR.label x) (Utils.EVR.label y)
    unfold Utils.EVR.ge Utils.EVR.le Utils.EVR.cmp
    rw [Bool.eq_iff_iff, decide_eq_true_iff, decide_eq_true_iff]
    omega
  have htrans : ∀ x y z : EVR, Utils.EVR.le lc x y = true → Utils.EVR.le lc y z = true → Utils.EVR.le lc x z = true := by
    intro x y z
    unfold Utils.EVR.le Utils.EVR.cmp
    rw [decide_eq_true_iff, decide_eq_true_iff, decide_eq_true_iff]
    exact hlc.trans _ _ _
  have hkept : ∀ p (hp : p < l.length), keptAt (lowTest lc f lo) (highTest lc f hi) l p =
      (lowTest lc f lo l[p] && highTest lc f hi l[p]) := by
    intro p hp
    unfold keptAt
    congr 1
    · rw [Bool.eq_iff_iff, List.any_eq_true]
      constructor
      · rintro ⟨e, he, h⟩
        obtain ⟨q, hq, rfl⟩ := List.getElem_of_mem he
        rw [List.getElem_take] at h
        have hq' : q < p + 1 := by rw [List.length_take] at hq; omega
        have hql : q < l.length := by omega
        cases lo with
        | none => rfl
        | some b =>
          simp only [lowTest] at h ⊢
          rw [hge] at h ⊢
          exact htrans _ _ _ h (hmono q p hql hp (by omega))
      · intro h
        exact ⟨l[p], List.mem_take_iff_getElem.2 ⟨p, by omega, rfl⟩, h⟩
    · rw [Bool.eq_iff_iff, List.any_eq_true]
      constructor
      · rintro ⟨e, he, h⟩
        obtain ⟨q, hq, rfl⟩ := List.getElem_of_mem he
        rw [List.getElem_drop] at h
        have hql : p + q < l.length := by rw [List.length_drop] at hq; omega
        cases hi with
        | none => rfl
        | some b =>
          simp only [highTest] at h ⊢
          exact htrans _ _ _ (hmono p (p + q) hp hql (by omega)) h
      · intro h
        refine ⟨l[p], ?_, h⟩
        rw [List.drop_eq_getElem_cons hp]
        exact List.mem_cons_self
  unfold keptEntries
  have : (List.range l.length).filter (keptAt (lowTest lc f lo) (highTest lc f hi) l) =
      (List.range l.length).filter (fun p => (l[p]?).any (fun e => lowTest lc f lo e && highTest lc f hi e)) := by
    apply List.filter_congr
    intro p hp
    have hp := List.mem_range.1 hp
    rw [hkept p hp, List.getElem?_eq_getElem hp]
    rfl
  rw [this]
  clear this hkept hmono hs
  generalize hg : (fun e => lowTest lc f lo e && highTest lc f hi e) = g
  have gen : ∀ (l pre : List ChangelogEntry),
      ((List.range' pre.length l.length).filter (fun p => ((pre ++ l)[p]?).any g)).filterMap (fun p => (pre ++ l)[p]?) =
        l.filter g := by
    intro l
    induction l with
    | nil => intro pre; rfl
    | cons x xs ih =>
      intro pre
      have ih := ih (pre ++ [x])
      simp only [List.append_assoc, List.singleton_append, List.length_append, List.length_singleton] at ih
      rw [List.length_cons, List.range'_succ]
      have hx : (pre ++ x :: xs)[pre.length]? = some x := by simp
      rw [List.filter_cons, hx]
      cases hgx : g x with
      | true =>
        simp only [Option.any_some, hgx, if_true, List.filterMap_cons, hx]
        rw [ih, List.filter_cons, if_pos hgx]
      | false =>
        simp only [Option.any_some, hgx, Bool.false_eq_true, if_false]
        rw [ih, List.filter_cons, if_neg (by simp [hgx])]
  have := gen l []
  simpa [List.range_eq_range'] using this

/-- C45: filtering fails only because of an entry without EVR, and then with `TypeError`. -/
theorem C45_raises {lc : Utils.Label → Utils.Label → Int} {c : Changelog} {since until_ : Option Str} {x : Err}
    (hn : ∀ e ∈ c.data, '\n' ∉ e.header) (h : Changelog.filter lc c since until_ = .error x) :
    x = .typeError ∧ ∃ e ∈ c.data, ∀ s, ¬ EvrOf e.header s := by
  obtain ⟨h1, e, he, h2⟩ := filter_error h
  refine ⟨h1, e, he, fun s hs => ?_⟩
  rw [(evr_iff (hn e he)).2 hs] at h2
  cases h2

end

section
attribute [local instance] asciiUni

/-- a comparison for examples: by epoch, then by the length of the text -/
def sampleCompare (a b : Utils.Label) : Int :=
  (a.1.length + a.2.1.length + a.2.2.length : Int) - (b.1.length + b.2.1.length + b.2.2.length : Int)

example : LabelOrder sampleCompare :=
  ⟨fun a => by unfold sampleCompare; omega, fun a b => by unfold sampleCompare; omega,
    fun a b c => by unfold sampleCompare; omega⟩
example : (Changelog.filter sampleCompare sampleChangelog (some (s% "1:1-1")) (some (s% "1:0.9-1"))).toOption.map (·.data.length) =
    some 2 := by decide +kernel
example : EntryEvr ⟨s% "* Mon Jan 01 2024 A B <a@b.c> - 1:0.9-1", [], []⟩ ⟨1, s% "0.9", s% "1"⟩ :=
  ⟨s% "1:0.9-1", (evr_iff (by decide)).1 (by decide +kernel), .inl (by decide +kernel)⟩
example : BoundReads (some (s% "2-3-4")) (some ⟨0, s% "0", []⟩) :=
  .inr ⟨_, _, rfl, rfl, .inr ⟨by
    have : Utils.evrFromString (s% "2-3-4") = .error .specfileException := by decide +kernel
    intro x; rw [this]; simp, rfl⟩⟩

/-- C45: a changelog with one entry that has no EVR cannot be filtered. -/
theorem C45_violation_no_evr : ∃ c : Changelog, c.data.length = 1 ∧ ∀ lc,
    Changelog.filter lc c (some (s% "1-1")) none = .error .typeError := by
  refine ⟨⟨[⟨s% "* Mon Jan 01 2024 Somebody", [s% "- x"], []⟩], []⟩, rfl, fun lc => ?_⟩
  have : evr (s% "* Mon Jan 01 2024 Somebody") = none := by decide +kernel
  simp [Changelog.filter, startIndex, nextIdx, testEvr, this, parseEvr]

end

/-! ### C60 -/

/-- C60: the EVR of an entry is the one in the last word of the header: in brackets, or the whole word, in both
cases without a colon at the end. -/
theorem C60_evr [Uni] {header e : Str} (hn : '\n' ∉ header) : evr header = some e ↔ EvrOf header e := evr_iff hn

section
attribute [local instance] asciiUni
example : evr (s% "* Mon Jan 01 2024 A B <a@b.c> - 1:0.9-1") = some (s% "1:0.9-1") := by decide +kernel
example : evr (s% "* Mon Jan 01 2024 A B <a@b.c> [0.9-1]: ") = some (s% "0.9-1") := by decide +kernel
example : evr (s% "* Mon Jan 01 2024 A B <a@b.c> (0.9-1)") = some (s% "0.9-1") := by decide +kernel
example : evr (s% "* Mon Jan 01 2024 A B") = none := by decide +kernel
example : EvrOf (s% "* A (0.9-1): ") (s% "0.9-1") :=
  ⟨s% "* A", ' ', s% "(0.9-1):", s% " ", rfl, by decide, ⟨by decide, by decide⟩, by decide,
    .inl ⟨⟨s% "0.9", s% "1", rfl, by decide, by decide⟩, .inr (.inr (.inr rfl))⟩⟩
end

/-- C60 in the other direction does not hold: in a header without EVR, an address with a dash is taken for one. -/
theorem C60_violation_address : ∃ (u : Uni) (header : Str), header = s% "* Mon Jan 01 2024 A B <a@b-c.org>" ∧
    @evr u header = some (s% "<a@b-c.org>") := ⟨asciiUni, _, rfl, by decide +kernel⟩

/-! ### C61 -/

/-- C61: a timestamp is taken as extended if it is written in the header with time, zone and year, the day of month
without zero in front. -/
theorem C61_extended [Uni] {h : Str} : extended h = true ↔ ∃ a x b, h = a ++ (x ++ b) ∧ ExtendedStamp x := extended_iff

/-- C61: the padding is the one of the first date in the header. -/
theorem C61_padding [Uni] {h p : Str} : padding h = p ↔ PaddingOf h p := padding_iff

/-- C61 does not hold for a day of month padded with a zero: the extended timestamp of such a header is not
recognised, although `assemble` writes it by default. -/
theorem C61_violation_zero : ∃ (u : Uni) (t : Timestamp), GoodStamp t ∧ t.time.isSome = true ∧
    @extended u (assemble t (s% "A") [] none (s% "0") true).header = false :=
  ⟨asciiUni, ⟨0, 0, 5, 2024, some (10, 20, 30, s% "UTC")⟩,
    ⟨by decide, by decide, by decide, by decide, by
      intro h m s z e; simp at e; obtain ⟨rfl, rfl, rfl, rfl⟩ := e
      exact ⟨by decide, by decide, by decide, by decide, by decide⟩⟩, rfl, by decide +kernel⟩

section
attribute [local instance] asciiUni
example : extended (s% "* Mon Jan 15 10:20:30 UTC 2024 A B") = true := by decide +kernel
example : extended (s% "* Mon Jan 15 2024 A B") = false := by decide +kernel
example : padding (s% "* Mon Jan  5 2024 A B") = s% " " := by decide +kernel
example : padding (s% "* Mon Jan 05 2024 A B") = s% "0" := by decide +kernel
example : padding (s% "* Mon Jan 15 2024 A B") = [] := by decide +kernel
end

/-! ### C62 -/

/-- C62: the EVR of an assembled entry is the given one, if it can be told apart as a word. -/
theorem C62_assemble_evr [Uni] {t : Timestamp} {author e pad : Str} {content : List Str} {nl : Bool}
    (hw : WordText e) (he : EvrOfWord e e) (hn : '\n' ∉ (assemble t author content (some e) pad nl).header) :
    evr (assemble t author content (some e) pad nl).header = some e := by
  rw [evr_iff hn]
  refine ⟨dateStr t pad ++ timeStr t.time ++ ' ' :: natStr t.year ++ ' ' :: author ++ [' ', '-'], ' ', e, [], ?_,
    by decide, hw, by simp, he⟩
  simp [assemble]

/-- C62: an EVR without brackets around it and without a colon at the end can be told apart. -/
theorem C62_evr_word {e : Str} (hd : DashOk e) (h1 : e.head? ≠ some '[') (h2 : e.head? ≠ some '(')
    (h3 : e.getLast? ≠ some ':') : EvrOfWord e e := by
  refine .inr ⟨?_, hd, .inr ⟨rfl, ?_⟩⟩
  · rintro e' ⟨_, rfl | rfl | rfl | rfl⟩
    · exact h1 rfl
    · exact h1 rfl
    · exact h2 rfl
    · exact h2 rfl
  · rintro ⟨q, rfl, _⟩
    exact h3 (by simp)

/-- C62: the padding of an assembled entry is the given one; a zero leaves no trace if the day has two digits. -/
theorem C62_assemble_padding [Uni] {t : Timestamp} {sp pad author : Str} {content : List Str} {evr : Option Str}
    {nl : Bool} (ht : GoodStamp t) (hsp : ∀ c ∈ sp, c = ' ') (hp : pad = sp ∨ pad = sp ++ ['0']) :
    padding (assemble t author content evr pad nl).header = if pad = sp ++ ['0'] ∧ 10 ≤ t.day then sp else pad := by
  unfold assemble
  simp only [List.append_assoc]
  exact padding_date ht hsp hp

/-- C62 (the full claim is for every padding). Proved part: an entry assembled with a time is recognised as having an
extended timestamp, unless the day is padded with a zero. Missing: see `C62_extended_violation`. -/
theorem C62_assemble_extended_partial [Uni] {t : Timestamp} {sp pad author : Str} {content : List Str}
    {evr : Option Str} {nl : Bool} (ht : GoodStamp t) (htime : t.time.isSome = true) (hsp : ∀ c ∈ sp, c = ' ')
    (hp : pad = sp ∨ (pad = sp ++ ['0'] ∧ 10 ≤ t.day)) :
    extended (assemble t author content evr pad nl).header = true := by
  cases ht2 : t.time with
  | none => rw [ht2] at htime; simp at htime
  | some x =>
    obtain ⟨h, m, s, z⟩ := x
    unfold assemble
    simp only [List.append_assoc]
    have key := fun r => extended_stamp (rest := ' ' :: author ++ r) ht ht2 hsp hp
    simp only [List.append_assoc] at key
    exact key _

/-- C62 fails for a one-digit day that is padded with a zero: the entry was assembled with a time and reads as one without. -/
theorem C62_extended_violation : ∃ (u : Uni) (t : Timestamp), GoodStamp t ∧ t.time.isSome = true ∧ t.day < 10 ∧
    @extended u (assemble t (s% "A") [] none (s% "0") true).header = false :=
  ⟨asciiUni, ⟨0, 0, 5, 2024, some (10, 20, 30, s% "UTC")⟩,
    ⟨by decide, by decide, by decide, by decide, by
      intro h m s z e; simp at e; obtain ⟨rfl, rfl, rfl, rfl⟩ := e
      exact ⟨by decide, by decide, by decide, by decide, by decide⟩⟩, rfl, by decide, by decide +kernel⟩

theorem two_digits {n : Nat} (h : n < 100) : two n = twoDigits n :=
  (by decide +kernel : ∀ n < 100, two n = twoDigits n) n h

/-- C62: the header has the date, the time, the author and the EVR, and the lines of the entry are the given ones. -/
theorem C62_assemble_lines {t : Timestamp} (ht : GoodStamp t) (author : Str) (content : List Str) (e : Option Str)
    (pad : Str) (nl : Bool) : ∃ h, HeaderOf t author e pad h ∧
      logLines (assemble t author content e pad nl) = h :: (content ++ (if nl then [[]] else [])) := by
  refine ⟨_, ?_, rfl⟩
  have hw : stampWeekdays[t.weekday]? = some (weekdays.getD t.weekday []) :=
    (by decide +kernel : ∀ n < 7, stampWeekdays[n]? = some (weekdays.getD n [])) _ ht.weekday
  have hm : stampMonths[t.month]? = some (months.getD t.month []) :=
    (by decide +kernel : ∀ n < 12, stampMonths[n]? = some (months.getD n [])) _ ht.month
  refine ⟨_, _, dayText pad t.day, timeStr t.time, (match e with | none => [] | some e => s% " - " ++ e), hw, hm,
    ⟨?_, ?_⟩, ?_, ?_, ?_⟩
  · rintro sp rfl
    unfold dayText
    rw [if_pos (by simp [endsWith]), List.dropLast_concat, two_digits (by have := ht.day; omega)]
  · intro hl
    unfold dayText
    rw [if_neg]
    intro h
    obtain ⟨q, rfl⟩ := List.isSuffixOf_iff_suffix.1 h
    simp at hl
  · cases htime : t.time with
    | none => exact .inl ⟨rfl, rfl⟩
    | some x =>
      obtain ⟨hh, mm, ss, z⟩ := x
      obtain ⟨h1, h2, h3, _⟩ := ht.time hh mm ss z htime
      refine .inr ⟨hh, mm, ss, z, rfl, ?_⟩
      simp only [timeStr]
      rw [two_digits (by omega), two_digits (by omega), two_digits (by omega)]
      simp
  · cases e with
    | none => exact .inl ⟨rfl, rfl⟩
    | some v => exact .inr ⟨v, rfl, rfl⟩
  · simp only [assemble, dateStr_eq]
    cases e <;> simp

section
attribute [local instance] asciiUni
/-- a timestamp for examples -/
def sampleStamp : Timestamp := ⟨1, 1, 6, 2024, none⟩
example : GoodStamp sampleStamp := ⟨by decide, by decide, by decide, by decide, by intro _ _ _ _ h; simp [sampleStamp] at h⟩
example : (assemble sampleStamp (s% "A B <a@b.c>") [s% "- x"] (some (s% "1.0-1")) (s% "0") true).header =
    s% "* Tue Feb 06 2024 A B <a@b.c> - 1.0-1" := by decide +kernel
example : WordText (s% "1.0-1") ∧ DashOk (s% "1.0-1") :=
  ⟨⟨by decide, by decide⟩, s% "1.0", s% "1", rfl, by decide, by decide⟩
end

/-! ### C20 -/

/-- content that can be read back: not ended by blank lines, and no line with an asterisk once there was some text -/
def GoodContent (content : List Str) : Prop :=
  (∀ a l b, content = a ++ l :: b → StarLine l → ∀ x ∈ a, BlankLine x) ∧ (∀ l ∈ content.getLast?, ¬ BlankLine l)

/-- C20: a new entry is written before all others and after the lines in front; all other lines stay. -/
theorem C20_add_lines [Uni] (c : Changelog) {t : Timestamp} (ht : GoodStamp t) (author : Str) (content : List Str) (e : Str) :
    ∃ header, HeaderOf t author (some e) (newPadding c) header ∧
      raw (add c t author content e) = c.predecessor ++
      (header :: (content ++ if c.data = [] then [] else [[]])) ++ (raw c).drop c.predecessor.length := by
  obtain ⟨h, hd, hl⟩ := C62_assemble_lines ht author content (some e) (newPadding c) (!c.data.isEmpty)
  refine ⟨h, hd, ?_⟩
  have : (if (!c.data.isEmpty) = true then [[]] else []) = if c.data = [] then [] else ([[]] : List Str) := by
    cases c.data <;> simp
  rw [this] at hl
  rw [raw_eq, raw_eq, changelogLines, changelogLines, add, newEntry]
  simp only [List.reverse_append, List.reverse_cons, List.reverse_nil, List.nil_append, List.cons_append, List.map_cons,
    List.flatten_cons, hl, List.drop_left]
  simp

/-- C20: reading the result gives the old entries and the new one. -/
theorem C20_add_read_back [Uni] (lines : List Str) (t : Timestamp) (author : Str) (content : List Str) (e : Str)
    (hc : GoodContent content) (hne : (parse lines).data = [] ∨ content ≠ []) :
    parse (raw (add (parse lines) t author content e)) = add (parse lines) t author content e := by
  have hg := (parse_iff.1 (rfl : parse lines = parse lines)).1
  generalize parse lines = c at hg hne
  rw [raw_eq]
  refine parse_good ⟨hg.predecessor, ?_, ?_⟩
  · intro x hx
    simp only [add, List.mem_append, List.mem_singleton] at hx
    rcases hx with hx | rfl
    · exact hg.entries x hx
    · refine ⟨?_, hc.1, hc.2, ?_⟩
      · simp [StarLine, newEntry, assemble, dateStr_eq]
      · intro l hl
        simp only [newEntry, assemble] at hl
        split at hl
        · simp at hl; subst hl; intro c hc; cases hc
        · cases hl
  · intro x hx
    simp only [add] at hx
    cases hd : c.data with
    | nil => rw [hd] at hx; simp at hx
    | cons y ys =>
      rw [hd] at hx
      simp only [List.cons_append, List.tail_cons, List.mem_append, List.mem_singleton] at hx
      rcases hx with hx | rfl
      · exact hg.content x (by rw [hd]; exact hx)
      · exact hne.resolve_left (by simp [hd])

/-- C20: the padding of the new entry is the longest padding in use, the newest one of these; in an empty changelog
it is a zero. -/
theorem C20_padding [Uni] (c : Changelog) : (c.data = [] → newPadding c = s% "0") ∧
    (c.data ≠ [] → ∃ a e b, c.data = a ++ e :: b ∧ PaddingOf e.header (newPadding c) ∧
      (∀ x ∈ b, (padding x.header).length < (newPadding c).length) ∧
      (∀ x ∈ a, (padding x.header).length ≤ (newPadding c).length)) := by
  constructor
  · intro h; simp [newPadding, h]
  · intro h
    have hne : c.data.reverse.map (fun e => padding e.header) ≠ [] := by simpa using h
    have hp : newPadding c = longest (c.data.reverse.map (fun e => padding e.header)) := by
      unfold newPadding
      rw [if_neg (by simpa using h)]
    obtain ⟨p, q, e, h1, h2⟩ := longest_spec hne
    rw [← hp] at e h1 h2
    rw [List.map_eq_append_iff] at e
    obtain ⟨p', q', e, rfl, e2⟩ := e
    rw [List.map_eq_cons_iff] at e2
    obtain ⟨x, q'', rfl, hx, rfl⟩ := e2
    refine ⟨q''.reverse, x, p'.reverse, ?_, padding_iff.1 hx, ?_, ?_⟩
    · have := congrArg List.reverse e
      simpa using this
    · intro y hy; exact h1 _ (List.mem_map.2 ⟨y, by simpa using hy, rfl⟩)
    · intro y hy; exact h2 _ (List.mem_map.2 ⟨y, by simpa using hy, rfl⟩)

/-- C20: without an explicit timestamp the current time is used if the newest entry has an extended timestamp, else the
current date. -/
theorem C20_timestamp [Uni] (c : Changelog) (local_ utc : Timestamp) :
    ((∃ l e, c.data = l ++ [e] ∧ ∃ a x b, e.header = a ++ (x ++ b) ∧ ExtendedStamp x) →
      newTimestamp c none local_ utc = local_) ∧
    ((¬ ∃ l e, c.data = l ++ [e] ∧ ∃ a x b, e.header = a ++ (x ++ b) ∧ ExtendedStamp x) →
      newTimestamp c none local_ utc = utc) ∧
    ∀ t, newTimestamp c (some t) local_ utc = t := by
  refine ⟨?_, ?_, fun t => rfl⟩
  · rintro ⟨l, e, hl, hx⟩
    unfold newTimestamp
    simp only [hl, List.getLast?_concat]
    rw [if_pos (extended_iff.2 hx)]
  · intro h
    unfold newTimestamp
    simp only
    cases hl : c.data.getLast? with
    | none => rfl
    | some e =>
      simp only
      rw [if_neg]
      intro hx
      exact h ⟨_, e, eq_of_last hl, extended_iff.1 hx⟩

section
attribute [local instance] asciiUni
example : GoodContent [s% "- x", [], s% "- y"] := by
  constructor
  · intro a l b e hs
    have : l ∈ [s% "- x", [], s% "- y"] := by rw [e]; simp
    exfalso
    simp at this
    rcases this with rfl | rfl | rfl <;> exact absurd hs (by simp [StarLine])
  · intro l hl
    simp at hl
    subst hl
    intro h
    exact absurd (h '-' (by simp)) (by decide)
example : raw (add sampleChangelog sampleStamp (s% "C") [s% "- x"] (s% "2-1")) =
    [s% "# text", s% "* Tue Feb 06 2024 C - 2-1", s% "- x", []] ++ (raw sampleChangelog).drop 1 := by decide +kernel
end

end Specfile.Props
