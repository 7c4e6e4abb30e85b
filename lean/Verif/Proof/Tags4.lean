import Verif.Proof.Tags3
/-
Tags that are written and read again.
-/
namespace Specfile.Tags
open Py Regex Spec
open MacroDefinitions (splitTrailing splitTrailing_line inlineSpace splitTrailing_append endsInBlank_append inked)

theorem tagLines_join {t : Tag} {first : Str} {more : List Str} (h : tagLines t = first :: more) :
    t.pfx ++ t.name ++ t.sep ++ t.value ++ t.sfx = joinC '\n' (first :: more) := by
  rw [← h]; exact (joinC_splitC _ _).symm

/-- the lines are read as what they mean -/
theorem reads_parseLoop [Uni] {names : List Str} (hN : IsTagNames names) {ls : List (Str × Bool)}
    {buffer : List Str} {tags : Tags} (h : ReadTags buffer ls tags) (hb : ∀ l ∈ buffer, '\n' ∉ l)
    (hc : CleanTagLines (ls.map (·.1))) : parseLoop names buffer 0 ls = .ok tags := by
  induction h with
  | done => rfl
  | @other above text w flag ls tags p b s h1 h2 h3 h4 h5 ih =>
    have hl : '\n' ∉ text ++ w := hc.noNl _ (by simp)
    have ht : '\n' ∉ text := fun hx => hl (by simp [hx])
    unfold parseLoop
    simp only [splitTrailing_parts ht h1 h2, h3.1]
    rw [tagMatch_none hN h4 (Utils.splitConditional_newline h3.1 ht).1]
    simp only [h3.2]
    refine ih ?_ (cleanTagLines_drop hc 1)
    intro x hx
    simp only [List.mem_append, List.mem_singleton] at hx
    rcases hx with hx | rfl
    · exact hb x hx
    · simpa using hl
  | @plain above t first more rest tags h1 h2 h3 h4 h5 ih =>
    obtain ⟨text, w, hf, hw, htb, hun⟩ := h1.first
    rw [h3] at hf
    simp only [List.head?_cons, Option.some.injEq] at hf
    subst hf
    have hl : '\n' ∉ text ++ w := hc.noNl _ (by simp)
    have ht : '\n' ∉ text := fun hx => hl (by simp [hx])
    have hj := tagLines_join h3
    have hwn : '\n' ∉ w := fun hx => hl (by simp [hx])
    have hsn : '\n' ∉ t.sfx := fun hx => (h1.sfx _ hx).2 rfl
    -- the first line of the value
    obtain ⟨v0, w0, e0, hv0ne, hv0b, hw0, hv0s, hj2⟩ : ∃ v0 w0 : Str, text ++ w = t.name ++ t.sep ++ (v0 ++ w0) ∧
        v0 ≠ [] ∧ ¬ EndsInBlank v0 ∧ InlineSpaces w0 ∧ (∀ c ∈ v0.head?, isSpace c = false) ∧
        joinC '\n' ((v0 ++ w0) :: more.map (·.1)) = t.value ++ t.sfx := by
      have hj' : t.name ++ t.sep ++ (t.value ++ t.sfx) = joinC '\n' ((text ++ w) :: more.map (·.1)) := by
        rw [← hj, h1.pfx]; simp
      -- the first line starts with name and separator
      have hpre : ∃ x, text ++ w = t.name ++ t.sep ++ x ∧ joinC '\n' (x :: more.map (·.1)) = t.value ++ t.sfx := by
        cases hm : more.map (·.1) with
        | nil =>
          rw [hm] at hj'
          simp only [joinC_one] at hj' ⊢
          exact ⟨_, hj'.symm, rfl⟩
        | cons m ms =>
          rw [hm, joinC_cons _ _ (by simp)] at hj'
          rw [List.append_eq_append_iff] at hj'
          rcases hj' with ⟨a, e, e'⟩ | ⟨a, e, e'⟩
          · refine ⟨a, e, ?_⟩
            rw [joinC_cons _ _ (by simp), ← e']
          · cases a with
            | nil =>
              simp only [List.append_nil] at e
              refine ⟨[], by simpa using e.symm, ?_⟩
              rw [joinC_cons _ _ (by simp)]
              simpa using e'
            | cons d a =>
              simp only [List.cons_append, List.cons.injEq] at e'
              obtain ⟨rfl, _⟩ := e'
              exact absurd (by rw [e]; simp) h1.oneLine
      obtain ⟨x, ex, hx⟩ := hpre
      have hxn : '\n' ∉ x := fun hm => hl (by rw [ex]; simp [hm])
      obtain ⟨f1, f2, f3, f4⟩ := splitTrailing_line hxn
      -- x starts with the value
      have hxne : ∀ c ∈ x.head?, isSpace c = false := by
        intro c hc
        apply h1.start
        have : (joinC '\n' (x :: more.map (·.1))).head? = some c := by
          cases x with
          | nil => simp at hc
          | cons d x =>
            simp at hc; subst hc
            cases more.map (·.1) <;> simp [joinC]
        rw [hx] at this
        cases hval : t.value with
        | nil => exact absurd hval h1.value
        | cons d v => rw [hval] at this; simpa using this
      have hx0 : x ≠ [] := by
        rintro rfl
        cases hm : more.map (·.1) with
        | nil =>
          rw [hm] at hx
          simp [joinC_one] at hx
          exact h1.value hx.1
        | cons m ms =>
          rw [hm, joinC_cons _ _ (by simp)] at hx
          cases hval : t.value with
          | nil => exact h1.value hval
          | cons d v =>
            rw [hval] at hx
            simp only [List.nil_append, List.cons_append, List.cons.injEq] at hx
            have := h1.start d (by rw [hval]; rfl)
            rw [← hx.1] at this
            revert this; decide
      have hfn : '\n' ∉ (splitTrailing x).1 := fun hm => hxn (by rw [f1]; simp [hm])
      refine ⟨(splitTrailing x).1, (splitTrailing x).2, by rw [← f1]; exact ex, ?_, (not_endsInBlank hfn).2 f3,
        inline_iff.1 f2, ?_, by rw [← f1]; exact hx⟩
      · intro h0
        rw [h0] at f1
        simp only [List.nil_append] at f1
        cases hx' : x with
        | nil => exact hx0 hx'
        | cons d y =>
          have h1 := hxne d (by rw [hx']; rfl)
          have h2 := inline_iff.1 f2 d (by rw [← f1, hx']; simp)
          rw [h1] at h2; simp at h2
      · intro c hc
        apply hxne
        rw [f1]
        cases h0 : (splitTrailing x).1 with
        | nil => rw [h0] at hc; simp at hc
        | cons d y => rw [h0] at hc; simpa using hc
    obtain ⟨rfl, rfl⟩ : text = t.name ++ t.sep ++ v0 ∧ w = w0 := by
      refine trailing_unique hw hw0 htb ?_ (by rw [e0]; simp)
      rw [endsInBlank_iff_append hv0ne]; exact hv0b
    obtain ⟨u, hu, g1, g2, g3⟩ := tagMatch_of hN h1.name h1.sep hv0ne hv0s ht
    unfold parseLoop
    simp only [splitTrailing_parts ht hw htb, hun.1, hu, g1, g2, g3, Option.getD_some, List.isEmpty_nil, if_true,
      List.nil_append]
    have hnmore : ∀ x ∈ more, '\n' ∉ x.1 := fun x hx => hc.noNl _ (by
      simp only [List.map_cons, List.map_append, List.mem_cons, List.mem_append, List.mem_map]
      exact .inr (.inl ⟨x, hx, rfl⟩))
    rw [takeValue_of more rest v0 w t.value t.sfx hj2 hw hv0b h1.sfx h1.stop hnmore (by
        intro mid z post e1 e2 e3
        have ej : joinC '\n' ((t.name ++ t.sep ++ v0 ++ w) :: mid) =
            t.name ++ t.sep ++ joinC '\n' ((v0 ++ w) :: mid) := by
          rw [List.append_assoc (t.name ++ t.sep), joinC_prefix]
        refine hc.noStale [] (t.name ++ t.sep ++ v0 ++ w) mid z (post ++ rest.map (·.1)) (by simp [e1]) ?_ ?_ ?_
        · obtain ⟨a, b, e, _⟩ := h1.sep
          rw [e]; simp
        · rw [← open_iff, ej]
          exact open_suffix (notEscape_sep h1.sep) e2
        · rw [ej]
          obtain ⟨x, hx, hx2⟩ := e3
          refine ⟨x, ?_, hx2⟩
          rw [List.getLast?_append, hx]; rfl)
      (fun x y e => (open_iff x).2 (h1.lines x y e))
      (by
        rcases h4 with h4 | h4
        · exact .inl h4
        · right
          rw [← open_iff] at h4
          simpa using h4)]
    simp only
    rw [parseLoop_skip, List.drop_left]
    have hcl := cleanTagLines_drop hc (more.length + 1)
    rw [← List.map_drop] at hcl
    simp only [List.drop_succ_cons, List.drop_left] at hcl
    rw [ih (by simp) hcl, parse_commentsOf hb h2]
    simp only
    congr 3
    rw [← h1.pfx]
  | @wrapped above t rest tags h1 h2 h3 ih =>
    obtain ⟨w, hsfx, hw, hun⟩ := h1.wrapped
    have hl : '\n' ∉ t.pfx ++ t.name ++ t.sep ++ t.value ++ t.sfx := hc.noNl _ (by simp)
    have el : t.pfx ++ t.name ++ t.sep ++ t.value ++ t.sfx =
        (t.pfx ++ (t.name ++ t.sep ++ t.value) ++ ['}']) ++ w := by rw [hsfx]; simp
    have hln : '\n' ∉ t.pfx ++ (t.name ++ t.sep ++ t.value) ++ ['}'] := by
      intro hx; apply hl; rw [el]; rw [List.mem_append]; exact .inl hx
    have hst : splitTrailing (t.pfx ++ t.name ++ t.sep ++ t.value ++ t.sfx) =
        (t.pfx ++ (t.name ++ t.sep ++ t.value) ++ ['}'], w) := by
      rw [el]
      refine splitTrailing_parts hln hw ?_
      rw [endsInBlank_iff_append (by simp)]
      rintro ⟨c, hc, h, _⟩
      simp at hc; subst hc; revert h; decide
    obtain ⟨u, hu, g1, g2, g3⟩ := tagMatch_of hN h1.name h1.sep h1.value h1.start (by
      intro hx; apply hln; simp only [List.mem_append] at hx ⊢; exact .inl (.inr hx))
    unfold parseLoop
    simp only [hst, hun.1, hu, g1, g2, g3, Option.getD_some, List.isEmpty_cons, Bool.false_eq_true, if_false]
    rw [ih (by simp) (cleanTagLines_drop hc 1), parse_commentsOf hb h2]
    simp only [List.cons_append, List.nil_append]
    rw [← hsfx]

/-- the lines that have been read are those that would be written -/
theorem reads_raw [Uni] {ls : List (Str × Bool)} {above : List Str} {tags : Tags} (h : ReadTags above ls tags) :
    raw tags = above ++ ls.map (·.1) := by
  induction h with
  | done => simp [raw]
  | other h1 h2 h3 h4 h5 ih => rw [ih]; simp
  | plain h1 h2 h3 h4 h5 ih =>
    rw [raw_cons, ih, tagRaw]
    have : splitC '\n' (tagText _) = _ := h3
    rw [this, h2.1]
    simp [Comments.raw]
  | wrapped h1 h2 h3 ih =>
    rename_i above t rest tags
    rw [raw_cons, ih, tagRaw, h2.1]
    have : '\n' ∉ tagText t := by
      obtain ⟨w, hsfx, hw, hun⟩ := h1.wrapped
      have k1 := h1.oneLine
      have k2 := h1.oneLineValue
      simp only [List.mem_append, not_or] at k1 k2
      simp only [tagText, List.mem_append, not_or, hsfx, List.mem_cons]
      refine ⟨⟨⟨⟨k2.1, k1.1⟩, k1.2⟩, k2.2⟩, by decide, ?_⟩
      intro hx
      exact (hw _ hx).2 rfl
    rw [splitC_of_not_mem this]
    simp [Comments.raw, tagText]

theorem reads_readable [Uni] {ls : List (Str × Bool)} {above : List Str} {tags : Tags}
    (h : ReadTags above ls tags) (ha : ∀ l ∈ above, OtherLine l) : ReadableTags tags := by
  induction h with
  | done => exact ⟨by simp, by simp, by simp, ha, by simp⟩
  | @other above text w flag ls tags p b s h1 h2 h3 h4 h5 ih =>
    apply ih
    intro l hl
    simp only [List.mem_append, List.mem_singleton] at hl
    rcases hl with hl | hl
    · exact ha l hl
    · exact ⟨text, w, p, b, s, hl, h1, h2, h3, h4⟩
  | @plain above t first more rest tags h1 h2 h3 h4 h5 ih =>
    have ih := ih (by simp)
    refine ⟨?_, ?_, ?_, ih.remainder, ?_⟩
    · intro x hx
      simp only [List.mem_cons] at hx
      rcases hx with rfl | hx
      · exact .inl h1
      · exact ih.tag x hx
    · intro x hx
      simp only [List.mem_cons] at hx
      rcases hx with rfl | hx
      · rw [← h2.1]; exact ha
      · exact ih.above x hx
    · intro x hx
      simp only [List.mem_cons] at hx
      rcases hx with rfl | hx
      · exact h2.2
      · exact ih.comments x hx
    · intro k x hx hp ho
      cases k with
      | zero =>
        simp at hx; subst hx
        rcases h4 with rfl | h4
        · have := reads_raw h5
          cases h5
          exact ⟨rfl, rfl⟩
        · exact absurd ho h4
      | succ k =>
        have := ih.closed k x (by simpa using hx) hp ho
        exact ⟨by simp [this.1], this.2⟩
  | @wrapped above t rest tags h1 h2 h3 ih =>
    have ih := ih (by simp)
    refine ⟨?_, ?_, ?_, ih.remainder, ?_⟩
    · intro x hx
      simp only [List.mem_cons] at hx
      rcases hx with rfl | hx
      · exact .inr h1
      · exact ih.tag x hx
    · intro x hx
      simp only [List.mem_cons] at hx
      rcases hx with rfl | hx
      · rw [← h2.1]; exact ha
      · exact ih.above x hx
    · intro x hx
      simp only [List.mem_cons] at hx
      rcases hx with rfl | hx
      · exact h2.2
      · exact ih.comments x hx
    · intro k x hx hp ho
      cases k with
      | zero =>
        simp at hx; subst hx
        obtain ⟨w, hsfx, _⟩ := h1.wrapped
        have := hp.sfx '}' (by rw [hsfx]; simp)
        exact absurd this.1 (by decide)
      | succ k =>
        have := ih.closed k x (by simpa using hx) hp ho
        exact ⟨by simp [this.1], this.2⟩

theorem reads_others [Uni] {xs : List (Str × Bool)} (hx : ∀ l ∈ xs.map (·.1), OtherLine l)
    {above : List Str} {ls : List (Str × Bool)} {tags : Tags}
    (h : ReadTags (above ++ xs.map (·.1)) ls tags) : ReadTags above (xs ++ ls) tags := by
  induction xs generalizing above with
  | nil => simpa using h
  | cons x xs ih =>
    obtain ⟨x, f⟩ := x
    obtain ⟨text, w, p, b, s, rfl, h1, h2, h3, h4⟩ := hx x (by simp)
    refine .other h1 h2 h3 h4 (ih (fun l hl => hx l (by simp at hl ⊢; exact .inr hl)) ?_)
    simpa using h

theorem map_fst_append {α β : Type} {ls : List (α × β)} {a b : List α} (h : ls.map (·.1) = a ++ b) :
    ∃ xs ys, ls = xs ++ ys ∧ xs.map (·.1) = a ∧ ys.map (·.1) = b := by
  rw [List.map_eq_append_iff] at h
  exact h

theorem wrapped_lines [Uni] {t : Tag} (h1 : WrappedTag t) :
    tagLines t = [t.pfx ++ t.name ++ t.sep ++ t.value ++ t.sfx] := by
  apply splitC_of_not_mem
  obtain ⟨w, hsfx, hw, hun⟩ := h1.wrapped
  have k1 := h1.oneLine
  have k2 := h1.oneLineValue
  simp only [List.mem_append, not_or] at k1 k2
  simp only [List.mem_append, not_or, hsfx, List.mem_cons]
  refine ⟨⟨⟨⟨k2.1, k1.1⟩, k1.2⟩, k2.2⟩, by decide, ?_⟩
  intro hx
  exact (hw _ hx).2 rfl

theorem plainTag_valid [Uni] {t : Tag} (h : PlainTag t) (b : Bool) : PlainTag { t with valid := b } where
  name := h.name
  sep := h.sep
  oneLine := h.oneLine
  value := h.value
  start := h.start
  pfx := h.pfx
  sfx := h.sfx
  stop := h.stop
  lines := h.lines
  first := h.first

theorem wrappedTag_valid [Uni] {t : Tag} (h : WrappedTag t) (b : Bool) : WrappedTag { t with valid := b } where
  name := h.name
  sep := h.sep
  oneLine := h.oneLine
  value := h.value
  start := h.start
  oneLineValue := h.oneLineValue
  wrapped := h.wrapped

theorem readable_reads [Uni] (data : List Tag) (remainder : List Str) (h : ReadableTags ⟨data, remainder⟩)
    (ls : List (Str × Bool)) (hl : ls.map (·.1) = raw ⟨data, remainder⟩) :
    ∃ m', ReadTags [] ls m' ∧ SameTags m' ⟨data, remainder⟩ := by
  induction data generalizing ls with
  | nil =>
    refine ⟨⟨[], remainder⟩, ?_, rfl, rfl⟩
    have := reads_others (above := []) (xs := ls) (ls := []) (tags := ⟨[], remainder⟩)
      (by intro l hx; rw [hl] at hx; simp [raw] at hx; exact h.remainder l hx)
      (by rw [hl]; simp [raw]; exact .done)
    simpa using this
  | cons t data ih =>
    rw [raw_cons (r := ⟨data, remainder⟩)] at hl
    obtain ⟨xs, ys, rfl, hx, hy⟩ := map_fst_append hl
    rw [tagRaw] at hx
    obtain ⟨as, ts, rfl, hx1, hx2⟩ := map_fst_append hx
    have hrest : ReadableTags ⟨data, remainder⟩ := by
      refine ⟨fun x hx => h.tag x (by simp [hx]), fun x hx => h.above x (by simp [hx]),
        fun x hx => h.comments x (by simp [hx]), h.remainder, ?_⟩
      intro k x hk hp ho
      have := h.closed (k + 1) x (by simpa using hk) hp ho
      exact ⟨by simpa using this.1, this.2⟩
    obtain ⟨m', hm, hs1, hs2⟩ := ih hrest ys hy
    have hab : ∀ l ∈ as.map (·.1), OtherLine l := by
      rw [hx1]; exact h.above t (by simp)
    have hcom : CommentsOf (as.map (·.1)) t.comments := by
      rw [hx1]; exact ⟨rfl, h.comments t (by simp)⟩
    cases ts with
    | nil => exact absurd hx2.symm (splitC_ne_nil _ _)
    | cons first more =>
      obtain ⟨first, flag⟩ := first
      refine ⟨⟨{ t with valid := flag } :: m'.data, m'.remainder⟩, ?_, ?_, hs2⟩
      · rw [List.append_assoc]
        apply reads_others hab
        simp only [List.nil_append, List.cons_append]
        rcases h.tag t (by simp) with hp | hw
        · refine .plain (t := { t with valid := flag }) (plainTag_valid hp flag) hcom ?_ ?_ hm
          · exact hx2.symm
          · rcases Classical.em (OpenBracket t.value) with ho | ho
            · left
              have := h.closed 0 t rfl hp ho
              simp at this
              obtain ⟨rfl, rfl⟩ := this
              simpa [raw] using hy
            · exact .inr ho
        · have hwl := wrapped_lines hw
          have he : (first, flag) :: more = [(t.pfx ++ t.name ++ t.sep ++ t.value ++ t.sfx, flag)] := by
            have h2 : List.map (·.1) ((first, flag) :: more) = tagLines t := hx2
            rw [hwl] at h2
            simp at h2
            rw [h2.2]
            simp [h2.1]
          simp only [List.cons.injEq, Prod.mk.injEq, and_true] at he
          obtain ⟨rfl, rfl⟩ := he
          exact .wrapped (t := { t with valid := flag }) (wrappedTag_valid hw flag) hcom hm
      · simp only [List.map_cons, hs1]

/-! ### any lines -/

theorem takeValue_inked (ls : List (Str × Bool)) (value ws : Str) (hws : ws.all isSpace = true)
    (hn : ∀ l ∈ ls, '\n' ∉ l.1) :
    (takeValue value ws ls).2.2 ≤ ls.length ∧
    ((takeValue value ws ls).1 ++ (takeValue value ws ls).2.1).filter (fun c => !isSpace c) =
      value.filter (fun c => !isSpace c) ++ inked ((ls.take (takeValue value ws ls).2.2).map (·.1)) := by
  have fs : ∀ {w : Str}, w.all isSpace = true → w.filter (fun c => !isSpace c) = [] := by
    intro w hw
    rw [List.filter_eq_nil_iff]
    rw [List.all_eq_true] at hw
    intro c hc
    simp [hw c hc]
  induction ls generalizing value ws with
  | nil => simp [takeValue, inked, fs hws]
  | cons l ls ih =>
    unfold takeValue
    split
    · obtain ⟨e1, e2, e3, e4⟩ := splitTrailing_line (hn l (by simp))
      generalize hs : splitTrailing l.1 = s at e1 e2 e3 e4
      obtain ⟨s1, s2⟩ := s
      simp only at e1 e2 e3 e4 ⊢
      obtain ⟨i1, i2⟩ := ih (value ++ ws ++ '\n' :: s1) (if s2.isEmpty then ws else s2)
        (by split
            · exact hws
            · exact inlineSpace_space e2) (fun x hx => hn x (by simp [hx]))
      refine ⟨Nat.succ_le_succ i1, ?_⟩
      rw [i2]
      simp only [List.take_succ_cons, List.map_cons, MacroDefinitions.inked_cons]
      conv => rhs; rw [e1]
      simp only [List.filter_append, fs hws, fs (inlineSpace_space e2), List.append_nil, List.append_assoc,
        List.filter_cons]
      rw [if_neg (by decide), List.nil_append]
    · refine ⟨Nat.zero_le _, ?_⟩
      simp [inked, fs hws]

theorem parseLoop_inked [Uni] {names : List Str} (hN : IsTagNames names) (ls : List (Str × Bool))
    (buffer : List Str) (tags : Tags) (hb : ∀ l ∈ buffer, '\n' ∉ l) (hc : ∀ l ∈ ls, '\n' ∉ l.1)
    (h : parseLoop names buffer 0 ls = .ok tags) :
    inked (raw tags) = inked (buffer ++ ls.map (·.1)) := by
  induction hn : ls.length using Nat.strongRecOn generalizing ls buffer tags with
  | ind n ih =>
    cases ls with
    | nil => simp [parseLoop] at h; subst h; simp [raw]
    | cons l ls =>
      simp only [List.length_cons] at hn
      have hl : '\n' ∉ l.1 := hc l (by simp)
      have hcl : ∀ x ∈ ls, '\n' ∉ x.1 := fun x hx => hc x (by simp [hx])
      obtain ⟨e1, e2, e3, e4⟩ := splitTrailing_line hl
      unfold parseLoop at h
      generalize hs : splitTrailing l.1 = s at e1 e2 e3 e4 h
      obtain ⟨s1, s2⟩ := s
      simp only at e1 e2 e3 e4 h
      have hs1 : '\n' ∉ s1 := fun hx => hl (by rw [e1]; simp [hx])
      have hs2 : s2.filter (fun c => !isSpace c) = [] := by
        rw [List.filter_eq_nil_iff]
        intro c hc
        simp [(inline_iff.1 e2 c hc).1]
      split at h
      · simp at h
      · rename_i c hcond
        have hc0 := Props.C46_split_conditional_mod_whitespace hcond
        obtain ⟨hbody, hall⟩ := Utils.splitConditional_newline hcond hs1
        split at h
        · rw [ih ls.length (by omega) ls _ tags (by
            intro x hx
            simp only [List.mem_append, List.mem_singleton] at hx
            rcases hx with hx | rfl
            · exact hb x hx
            · intro hx
              simp only [List.mem_append] at hx hall
              rcases hx with hx | hx
              · exact hall hx
              · exact hl (by rw [e1]; simp [hx])) hcl h rfl]
          have hk : (c.pfx ++ c.body ++ c.sfx ++ s2).filter (fun c => !isSpace c) = l.1.filter (fun c => !isSpace c) := by
            rw [List.filter_append, hc0, e1, List.filter_append]
          simp only [MacroDefinitions.inked_append, List.map_cons, MacroDefinitions.inked_cons, hk]
          rw [show inked [] = [] from rfl]
          simp
        · rename_i t ht
          obtain ⟨nm, sp, v, eb, hname, hsep, hv, g1, g2, g3⟩ := tagMatch_inv hN ht hbody
          rw [g1, g2, g3] at h
          simp only [Option.getD_some] at h
          split at h
          · simp at h
          · rename_i rest hrest
            simp only [Except.ok.injEq] at h
            subst h
            rw [raw_cons]
            rw [parseLoop_skip] at hrest
            have key : ∃ k, k ≤ ls.length ∧
                k = (if c.sfx.isEmpty = true then takeValue v s2 ls else (v, s2, 0)).2.2 ∧
                (c.pfx ++ nm ++ sp ++ (if c.sfx.isEmpty = true then takeValue v s2 ls else (v, s2, 0)).1 ++
                  (c.sfx ++ (if c.sfx.isEmpty = true then takeValue v s2 ls else (v, s2, 0)).2.1)).filter
                    (fun c => !isSpace c) =
                inked (l.1 :: (ls.take k).map (·.1)) := by
              refine ⟨_, ?_, rfl, ?_⟩
              · split
                · exact (takeValue_inked ls v s2 (inlineSpace_space e2) hcl).1
                · exact Nat.zero_le _
              · rw [MacroDefinitions.inked_cons, e1]
                split
                · rename_i hsfx
                  rw [List.isEmpty_iff] at hsfx
                  have := (takeValue_inked ls v s2 (inlineSpace_space e2) hcl).2
                  rw [List.filter_append] at this
                  rw [hsfx, List.nil_append, List.filter_append, List.filter_append, List.append_assoc, this,
                    List.filter_append (l₁ := s1), hs2, ← hc0, hsfx, eb]
                  simp
                · rw [List.filter_append (l₁ := s1), hs2, ← hc0, eb]
                  simp [hs2, inked]
            obtain ⟨k, hk1, hk2, hk3⟩ := key
            rw [← hk2] at hrest
            have hr := ih (ls.drop k).length (by simp; omega) (ls.drop k) [] rest (by simp)
              (fun x hx => hcl x (List.mem_of_mem_drop hx)) hrest rfl
            rw [MacroDefinitions.inked_append, hr, tagRaw, comments_raw hb, tagText, MacroDefinitions.inked_append,
              MacroDefinitions.inked_splitC]
            simp only
            rw [hk3]
            simp only [← MacroDefinitions.inked_append, List.nil_append, List.map_cons, List.append_assoc,
              List.cons_append, ← List.map_append, List.take_append_drop]

end Specfile.Tags
