import Verif.Proof.Undo
import Verif.Model.ListMethods
import Verif.Props.Changelog
import Verif.Props.Blocks2
import Verif.Props.Prep
import Verif.Props.Sources
/-
C100: undoing an edit restores what was there.
-/
namespace Specfile.Props
open Py Spec Update Ops
open Specfile.Blocks Proof.Undo

/-! ### inserting and deleting -/

theorem take_cons_erase {α : Type} {l : List α} {k : Nat} (hk : k ≤ l.length) (x : α) (r : List α) :
    (l.take k ++ x :: r).eraseIdx k = l.take k ++ r ∧ (l.take k ++ x :: r)[k]? = some x := by
  have : (l.take k).length = k := by simp; omega
  constructor
  · rw [List.eraseIdx_append_of_length_le (by omega), this, Nat.sub_self]; rfl
  · rw [List.getElem?_append_right (by omega), this, Nat.sub_self]; rfl

theorem modify_take {α : Type} {l : List α} {k : Nat} (hk : k ≤ l.length) (f : α → α) (x : α) (r : List α) :
    (l.take k ++ x :: r).modify k f = l.take k ++ f x :: r := by
  have hl : (l.take k).length = k := by simp; omega
  generalize l.take k = a at hl
  clear hk
  subst hl
  induction a with
  | nil => simp
  | cons y a ih => simp [ih]

/-- C100 (full claim: undoing an edit restores the text). A tag without lines above it that is inserted and deleted again leaves
the tags as they were, exactly if there were no two empty lines where it went. -/
theorem C100_insert_tag (m : Tags) (k : Nat) (hk : k ≤ m.data.length) (x : Tag) (hx : x.comments.preceding = []) :
    (m.insert k x).2 = none ∧ ((m.insert k x).1.delItem k = (m, none) ↔ ¬ BlankPair (linesAt m k)) := by
  rw [← split_joined]
  unfold Tags.insert linesAt
  by_cases h : k < m.data.length
  · obtain ⟨y, hy⟩ : ∃ y, m.data[k]? = some y := ⟨_, List.getElem?_eq_getElem h⟩
    have hd : m.data.drop k = y :: m.data.drop (k + 1) := by
      rw [List.drop_eq_getElem_cons h]
      rw [List.getElem?_eq_getElem h] at hy
      cases hy
      rfl
    rw [if_pos (by omega), pyIndex_ofNat h]
    simp only [hy, Option.map_some, Option.getD_some, hd, List.modify_zero_cons]
    refine ⟨trivial, ?_⟩
    generalize hs : Tags.splitEndif y.comments.preceding = s
    have e := take_cons_erase hk (Tags.prependTo x s.1)
      ({ y with comments := { y.comments with preceding := s.2 } } :: m.data.drop (k + 1))
    have e2 := take_cons_erase hk { y with comments := { y.comments with preceding := s.2 } } (m.data.drop (k + 1))
    have hl : (m.data.take k).length = k := by simp; omega
    unfold Tags.delItem
    rw [pyIndex_ofNat (by simp; omega)]
    simp only [e.1, e.2, Option.map_some, Option.getD_some, List.length_append, List.length_cons, List.length_drop, hl]
    rw [if_pos (by omega), pyIndex_ofNat (by omega)]
    simp only [Tags.prependTo, hx, List.append_nil, Prod.mk.injEq, and_true]
    rw [modify_take hk]
    have hm : m.data = m.data.take k ++ y :: m.data.drop (k + 1) := by rw [← hd, List.take_append_drop]
    constructor
    · intro h
      have h2 := congrArg (fun t : Tags => ((t.data[k]?).map (·.comments.preceding))) h
      simp only [hy] at h2
      rw [List.getElem?_append_right (by omega), hl, Nat.sub_self] at h2
      simpa using h2
    · intro h
      rw [h]
      cases m
      simp only [Tags.mk.injEq, and_true] at hm ⊢
      exact hm.symm
  · have hk' : k = m.data.length := by omega
    subst hk'
    rw [if_neg (by omega)]
    simp only [List.getElem?_eq_none (Nat.le_refl _)]
    refine ⟨trivial, ?_⟩
    generalize hs : Tags.splitEndif m.remainder = s
    have e := take_cons_erase (Nat.le_refl m.data.length) (Tags.prependTo x s.1) []
    rw [List.take_length] at e
    unfold Tags.delItem
    rw [pyIndex_ofNat (by simp)]
    simp only [e.1, e.2, Option.map_some, Option.getD_some, List.append_nil]
    rw [if_neg (by omega)]
    simp only [Tags.prependTo, hx, List.append_nil, Prod.mk.injEq, and_true]
    constructor
    · intro h
      exact congrArg Tags.remainder h
    · intro h
      rw [h]

/-- C100: a definition that is inserted and deleted again leaves the definitions as they were, exactly if it had no lines above
it, which stay. -/
theorem C100_insert_definition (m : MacroDefinitions) (k : Nat) (hk : k ≤ m.data.length) (x : MacroDefinition) :
    (ListMethods.insert m (k : Int) x).delItem k = (m, none) ↔ x.preceding = [] := by
  have hi : insertPos m.data.length (k : Int) = k := by unfold insertPos; rw [if_pos (by omega)]; omega
  have hl : (m.data.take k).length = k := by simp; omega
  have e := take_cons_erase hk x (m.data.drop k)
  have hs : ListMethods.insert m (k : Int) x = ⟨m.data.take (insertPos m.data.length (k : Int)) ++
    x :: m.data.drop (insertPos m.data.length (k : Int)), m.remainder⟩ := rfl
  rw [hs, hi]
  unfold MacroDefinitions.delItem
  rw [pyIndex_ofNat (by simp; omega)]
  simp only [e.1, e.2, Option.map_some, Option.getD_some, List.take_append_drop]
  by_cases h : k < m.data.length
  · rw [if_pos (by omega), pyIndex_ofNat h]
    simp only [Prod.mk.injEq, and_true]
    obtain ⟨y, hy⟩ : ∃ y, m.data[k]? = some y := ⟨_, List.getElem?_eq_getElem h⟩
    constructor
    · intro h
      have h2 := congrArg (fun t : MacroDefinitions => ((t.data[k]?).map (·.preceding))) h
      simp only [List.getElem?_modify, hy] at h2
      simpa using h2
    · intro hx
      cases m
      simp only [hx, List.nil_append, MacroDefinitions.mk.injEq, and_true]
      apply List.ext_getElem?
      intro i
      simp only [List.getElem?_modify]
      split <;> simp
  · rw [if_neg (by omega)]
    simp only [Prod.mk.injEq, and_true]
    constructor
    · intro h
      have h2 := congrArg MacroDefinitions.remainder h
      simpa using h2
    · intro h
      simp [h]

section
variable [Uni] {W : World}

/-! ### changelog -/

/-- C100: deleting the entry that was added to the lines of a changelog gives the lines as they were. -/
theorem C100_changelog (lines : List Str) (t : Changelog.Timestamp) (author : Str) (content : List Str) (e : Str)
    (hc : GoodContent content) (hne : (Changelog.parse lines).data = [] ∨ content ≠ []) :
    let c := Changelog.parse (Changelog.raw (Changelog.add (Changelog.parse lines) t author content e))
    Changelog.delete c (c.data.length - 1 : Nat) = (Changelog.parse lines, none) ∧ Changelog.raw (Changelog.parse lines) = lines := by
  refine ⟨?_, C06_changelog_noop lines⟩
  let c := Changelog.parse (Changelog.raw (Changelog.add (Changelog.parse lines) t author content e))
  show Changelog.delete c (c.data.length - 1 : Nat) = _
  have hcc : c = Changelog.add (Changelog.parse lines) t author content e := C20_add_read_back lines t author content e hc hne
  rw [hcc]
  generalize Changelog.parse lines = d
  have hl : (Changelog.add d t author content e).data.length = d.data.length + 1 := by simp [Changelog.add]
  unfold Changelog.delete
  rw [hl, Nat.add_sub_cancel, pyIndex_ofNat (by omega)]
  have e1 := take_cons_erase (Nat.le_refl d.data.length) (Changelog.newEntry d t author content e) []
  rw [List.take_length] at e1
  simp only [Changelog.add, e1.1, e1.2, Option.map_some, Option.getD_some, List.append_nil]
  rw [if_neg (by omega)]
  have : (Changelog.newEntry d t author content e).following.drop 1 = [] := by
    simp only [Changelog.newEntry, Changelog.assemble]
    split <;> rfl
  rw [this]
  simp

/-! ### `%patch` macros -/

/-- C100: removing the `%patch` macro that was added gives %prep as it was, if no other one has its number and it does not come
first, see `C100_violation_patch`. -/
theorem C100_patch_partial {p p' : Prep} {num : Option Int} {old : Bool} {kw : List (Char × Option Options.Val)}
    (hnum : ∀ n ∈ num, 0 ≤ n) (hd : (kw.map (·.1)).Nodup) (hk : ∀ x ∈ kw, KwOK x) (hg : ∀ x ∈ p.data, GoodMacro x)
    (hP : 'P' ∉ kw.map (·.1)) (hno : ∀ x ∈ p.data, x.kind = .patch → ¬ HasNumber x (num.getD 0))
    (h0 : FirstBelow p (num.getD 0)) (h : Prep.addPatchMacro p num old kw = (p', none)) :
    Prep.removePatchMacro p' (num.getD 0) = (p, none) := by
  obtain ⟨m, k, h1, h2, rfl, hn, h3⟩ := Prep.addPatch_ok h
  have hs := Prep.newPatch_spec hnum hd hk h1
  have hmn := Prep.newPatch_number hnum hd hk h1 (.inl hP)
  have hmk : m.kind = .patch := hs.2.2.2.2.2.1.1
  have hpos : 0 < k := by
    obtain ⟨a, r, ha, hb⟩ := h0
    rcases h3 with ⟨_, rfl⟩ | ⟨n, j, x, y, g1, g2, g3, g4, -, g6⟩
    · simp [ha]
    · rw [hmn] at g1
      cases g1
      by_cases hy : y ≤ num.getD 0
      · rw [if_pos hy] at g6; omega
      · rw [if_neg hy] at g6
        cases j with
        | zero =>
          rw [ha] at g2
          cases g2
          obtain ⟨z, z1, z2⟩ := hb g3
          have := (Prep.good_number (hg a (by rw [ha]; simp)) g3).2 z1
          rw [g4] at this
          cases this
          exact absurd z2 hy
        | succ j => omega
  have hdata := Prep.insert_data h2 m
  have hl : (p.data.take k).length = k := by simp; omega
  have e := take_cons_erase h2 m (p.data.drop k)
  have hf : Prep.findNumber (num.getD 0) 0 (Prep.insert p k m).data = .ok (some k) := by
    have before : ∀ (i : Nat) m', i < k → (Prep.insert p k m).data[i]? = some m' → m'.kind = .patch →
        ∃ n', Prep.number m' = .ok n' ∧ n' ≠ num.getD 0 := by
      intro i m' hi he hkm
      rw [hdata, List.getElem?_append_left (by omega), List.getElem?_take_of_lt hi] at he
      have hm := List.mem_of_getElem? he
      obtain ⟨n', e1⟩ := hn m' hm hkm
      refine ⟨n', e1, fun hh => hno m' hm hkm ?_⟩
      rw [← hh]
      exact (Prep.good_number (hg m' hm) hkm).1 e1
    have hme : (Prep.insert p k m).data[k]? = some m := by rw [hdata]; exact e.2
    rcases Prep.findNumber_spec (n := num.getD 0) (ms := (Prep.insert p k m).data) (k := 0) with
      ⟨_, h⟩ | ⟨j, x, h1, h2, h3, h4, h5⟩ | ⟨j, x, e, h1, h2, h3, h4, h5⟩
    · obtain ⟨n', e1, e2⟩ := h m (List.mem_of_getElem? hme) hmk
      rw [hmn] at e1; simp at e1; exact absurd e1.symm e2
    · rcases Nat.lt_trichotomy j k with h | rfl | h
      · obtain ⟨n', e1, e2⟩ := before j x h h2 h3
        rw [h4] at e1; simp at e1; exact absurd e1.symm e2
      · rw [h1, Nat.zero_add]
      · obtain ⟨n', e1, e2⟩ := h5 k m h hme hmk
        rw [hmn] at e1; simp at e1; exact absurd e1.symm e2
    · rcases Nat.lt_trichotomy j k with h | rfl | h
      · obtain ⟨n', e1, e2⟩ := before j x h h2 h3
        rw [h4] at e1; simp at e1
      · rw [hme] at h2; simp at h2; subst h2
        rw [hmn] at h4; simp at h4
      · obtain ⟨n', e1, e2⟩ := h5 k m h hme hmk
        rw [hmn] at e1; simp at e1; exact absurd e1.symm e2
  unfold Prep.removePatchMacro
  rw [hf]
  obtain ⟨k, rfl⟩ : ∃ j, k = j + 1 := ⟨k - 1, by omega⟩
  simp only
  unfold Prep.delItem
  rw [hdata, pyIndex_ofNat (by simp; omega)]
  simp only [e.1, e.2, Option.map_some, Option.getD_some, List.take_append_drop, hs.2.2.2.2.1, List.nil_append]
  have hrem : (Prep.insert p (k + 1 : Nat) m).remainder = p.remainder := rfl
  by_cases h : k + 1 < p.data.length
  · rw [if_pos (by omega), pyIndex_ofNat h]
    simp only [Prod.mk.injEq, and_true]
    rw [show (Prep.prepend ([] : List Str)) = id from by funext q; cases q; rfl]
    simp [Prep.insert]
  · rw [if_neg (by omega)]
    simp [Prep.insert]

/-! ### values -/

/-- C100: setting a tag of the preamble and setting it back gives the text as it was. The text is one that is written the
way it is read. -/
theorem C100_tag_value_partial (hN : Tags.IsTagNames W.names) {lines : List Str} {t : Tags} {rest : Sections}
    (h : FileTags W lines t rest) (hb : Tags.raw t ++ Sections.raw rest = lines) {name : Str} {k : Nat} {x : Tag} (hx : t.data[k]? = some x)
    (hk : OnlyTag name t k) (v : Str) (hm : ReadableTags t) (hr : ReadAfter W (setTag W name v lines).1 t k x v)
    (hg : ∀ s ∈ rest, GoodSection s) :
    setTag W name x.value (setTag W name v lines).1 = (lines, .ok ()) := by
  rw [set_set (hN := hN) h hx hk hx hk v x.value hm hr hg]
  have : (t.setValueAt k v).setValueAt k x.value = t := by
    cases t
    simp only [Tags.setValueAt, Tags.mk.injEq, and_true] at hx ⊢
    apply List.ext_getElem?
    intro i
    simp only [List.getElem?_modify]
    by_cases hi : k = i
    · subst hi
      simp [hx]
    · simp [hi]
  rw [this, hb]

/-- C100: setting the body of a macro and setting it back gives the text as it was. -/
theorem C100_macro_value_partial {lines : List Str} {m : MacroDefinitions}
    (h : MacroDefinitions.parse (W.oracle lines) true lines = .ok m) (hb : MacroDefinitions.raw m = lines) {name : Str} {k : Nat}
    {x : MacroDefinition} (hx : m.data[k]? = some x) (hk : OnlyDefinition name m k) (v : Str)
    (hm : ∀ d ∈ m.data, Readable { d with valid := true })
    (hr : ∀ l ∈ m.remainder, ¬ s% "global" <:+: l ∧ ¬ s% "define" <:+: l)
    (ha : DefinitionsAfter W x v (setMacro W name v lines).1) :
    setMacro W name x.body (setMacro W name v lines).1 = (lines, .ok ()) := by
  rw [setMacro_twice h hx hk hx hk v x.body hm hr ha]
  have : (⟨(m.data.modify k (fun x => { x with body := v })).modify k (fun y => { y with body := x.body }), m.remainder⟩ :
      MacroDefinitions) = m := by
    cases m
    simp only [MacroDefinitions.mk.injEq, and_true] at hx ⊢
    apply List.ext_getElem?
    intro i
    simp only [List.getElem?_modify]
    by_cases hi : k = i
    · subst hi
      simp [hx]
    · simp [hi]
  rw [this, hb]

end

/-! ### options -/

/-- C100: an option with an argument that is not there, set and deleted again, leaves the options as they were. Flags do not,
see `C100_violation_flag`. -/
theorem C100_option_partial {o o' : Options.Opts} {c : Char} {v : Options.Val}
    (hno : ∀ t ∈ o.tokens, ¬ ['-', c] <+: t.value) (hv : ∀ b, v ≠ .bool b) (hs : ∀ s, v = .str s → ¬ ['-'] <+: s)
    (h : Options.set o c (some v) = .ok o') : Options.del o' c = o := by
  have hreq : Options.requiresArg o.optstring c = true := by
    unfold Options.set at h
    cases hr : Options.requiresArg o.optstring c with
    | true => rfl
    | false =>
      cases v with
      | bool b => exact absurd rfl (hv b)
      | int n => simp [hr] at h
      | str s => simp [hr] at h
  have hw := Options.set_ok h
  have hopt : ∀ t ∈ o.tokens, Options.isOpt c t = false := by
    intro t ht
    have := hno t ht
    rw [← startsWith_prefix] at this
    unfold Options.isOpt
    simpa using this
  have hl : Options.lastIdx (Options.isOpt c) o.tokens = none := Options.lastIdx_none.2 hopt
  have hf : Options.find o c = (none, none) := by
    unfold Options.find
    rw [hl]
  -- the tokens in front of the option
  have hsp : ∃ pre : List Token, pre = o.tokens ++ (if o.tokens.isEmpty then [] else [⟨.whitespace, [' ']⟩]) ∧
      ((o.tokens = [] ∧ pre = []) ∨ pre = o.tokens ++ [⟨.whitespace, [' ']⟩]) := by
    refine ⟨_, rfl, ?_⟩
    cases ht : o.tokens with
    | nil => exact .inl ⟨rfl, rfl⟩
    | cons => exact .inr rfl
  obtain ⟨pre, hpre, hcase⟩ := hsp
  have key : ∀ (tok : Token) (rest : List Token) (j : Nat), Options.isOpt c tok = true →
      (∀ t ∈ rest, Options.isOpt c t = false) → o' = { o with tokens := pre ++ tok :: rest } →
      Options.find o' c = (some pre.length, some (pre.length + j)) → rest.length = j → Options.del o' c = o := by
    intro tok rest j h1 h2 ho hfi hj
    unfold Options.del
    rw [hfi]
    subst ho
    rcases hcase with ⟨e1, rfl⟩ | e
    · have hws : Options.isWsAt (tok :: rest) (j + 1) = false := by
        simp [Options.isWsAt, hj]
      simp only [List.length_nil, Nat.zero_add, List.nil_append, if_true, hws, Bool.false_eq_true, if_false]
      cases o
      simp only at e1
      subst e1
      by_cases hj0 : j > 0
      · rw [if_pos hj0]
        simp [← hj]
      · rw [if_neg hj0]
        have : rest = [] := List.eq_nil_of_length_eq_zero (by omega)
        simp [this]
    · have hlen : pre.length = o.tokens.length + 1 := by rw [e]; simp
      have hws : Options.isWsAt (pre ++ tok :: rest) (pre.length - 1) = true := by
        rw [hlen, e]
        simp [Options.isWsAt]
      simp only [hws, if_true, if_neg (show ¬ pre.length = 0 by omega)]
      rw [if_pos (by omega)]
      cases o
      simp only [Options.Opts.mk.injEq, and_true] at e hlen ⊢
      rw [hlen, Nat.add_sub_cancel, e]
      simp only [List.append_assoc, List.take_left]
      rw [List.drop_eq_nil_of_le (by simp; omega), List.append_nil]
  unfold Options.write at hw
  rw [hf] at hw
  cases v with
  | bool b => exact absurd rfl (hv b)
  | int n =>
    simp only [← hpre] at hw
    have hne : intStr n ≠ [] := Prep.intStr_ne_nil
    refine key ⟨.default, '-' :: c :: intStr n⟩ [] 0 (by simp [Options.isOpt, startsWith]) (by simp) hw.symm ?_ rfl
    unfold Options.find
    rw [← hw]
    simp only
    rw [Options.lastIdx_append _ (by simp [Options.isOpt, startsWith]) (by simp)]
    simp [hne]
  | str s =>
    simp only [← hpre] at hw
    have hnd := hs s rfl
    rw [← startsWith_prefix] at hnd
    have hno2 : ∀ t ∈ [(⟨.whitespace, [' ']⟩ : Token), ⟨Options.valueType (.str s), s⟩], Options.isOpt c t = false := by
      intro t ht
      simp only [List.mem_cons, List.not_mem_nil, or_false] at ht
      rcases ht with rfl | rfl
      · rfl
      · cases s with
        | nil => rfl
        | cons d s =>
          have : d ≠ '-' := by
            rintro rfl
            exact hnd (by simp [startsWith])
          have hb : ('-' == d) = false := by simpa using Ne.symm this
          simp [Options.isOpt, startsWith, List.isPrefixOf, hb]
    refine key ⟨.default, ['-', c]⟩ _ 2 (by simp [Options.isOpt, startsWith]) hno2 hw.symm ?_ rfl
    unfold Options.find
    rw [← hw]
    simp only
    rw [Options.lastIdx_append _ (by simp [Options.isOpt, startsWith]) hno2]
    simp only [List.getElem?_append_right (Nat.le_refl _), Nat.sub_self, List.getElem?_cons_zero, Option.map_some,
      not_true_eq_false, ne_eq, if_false, hreq, Bool.not_true, Bool.false_eq_true]
    congr 1
    unfold Options.argIndex
    have g1 : (pre ++ [(⟨.default, ['-', c]⟩ : Token), ⟨.whitespace, [' ']⟩, ⟨Options.valueType (.str s), s⟩])[pre.length + 1]?
        = some ⟨.whitespace, [' ']⟩ := by simp
    have g2 : (pre ++ [(⟨.default, ['-', c]⟩ : Token), ⟨.whitespace, [' ']⟩, ⟨Options.valueType (.str s), s⟩])[pre.length + 2]?
        = some ⟨Options.valueType (.str s), s⟩ := by simp
    simp only [g1, if_true, g2, hnd, Bool.false_eq_true, if_false]

section
attribute [local instance] asciiUni

/-! ### examples and violations -/

/-- a tag -/
def undoTag (name value : Str) (preceding : List Str) : Tag := ⟨name, value, s% ": ", ⟨[], preceding⟩, true, [], []⟩

/-- two tags with a condition between them -/
def undoTags : Tags :=
  ⟨[undoTag (s% "Name") (s% "a") [], undoTag (s% "Version") (s% "1") [s% "%if 1", s% "%endif", s% "", s% "%dnl x", s% "", s% ""]],
    [s% "", s% "end"]⟩

/-- the hypotheses of `C100_insert_tag` -/
example : Tags.raw (undoTags.insert (1 : Nat) (undoTag (s% "Epoch") (s% "2") [])).1 = [s% "Name: a", s% "%if 1", s% "%endif", s% "Epoch: 2",
      s% "", s% "%dnl x", s% "", s% "", s% "Version: 1", s% "", s% "end"] ∧
    ((undoTags.insert (1 : Nat) (undoTag (s% "Epoch") (s% "2") [])).1).delItem (1 : Nat) = (undoTags, none) := by
  refine ⟨by decide +kernel, ((C100_insert_tag undoTags 1 (by decide) _ rfl).2).2 ?_⟩
  rw [← split_joined]
  decide +kernel

/-- C100 fails between two empty lines: one of them is lost. -/
theorem C100_violation_blank : ∃ (m : Tags) (x : Tag), x.comments.preceding = [] ∧
    Tags.raw m = [s% "Name: a", s% "", s% "", s% "Version: 1"] ∧
    Tags.raw ((m.insert (1 : Nat) x).1.delItem (1 : Nat)).1 = [s% "Name: a", s% "", s% "Version: 1"] :=
  ⟨⟨[undoTag (s% "Name") (s% "a") [], undoTag (s% "Version") (s% "1") [s% "", s% ""]], []⟩, undoTag (s% "Epoch") (s% "2") [], rfl,
    by decide +kernel, by decide +kernel⟩

/-- the hypotheses of `C100_insert_definition` -/
example : (ListMethods.insert twoMacrosRead (1 : Int) (plainDefinition (s% "c") (s% "3") [] true)).delItem (1 : Nat) =
    (twoMacrosRead, none) := (C100_insert_definition twoMacrosRead 1 (by decide) _).2 rfl

/-- the hypotheses of `C100_changelog` -/
example : (Changelog.delete (Changelog.parse (Changelog.raw (Changelog.add (Changelog.parse [s% "* Mon Jan 01 2024 B", s% "- old"])
    ⟨1, 0, 2, 2024, none⟩ (s% "C") [s% "- new"] (s% "1-1")))) (1 : Nat)).1 = Changelog.parse [s% "* Mon Jan 01 2024 B", s% "- old"] := by
  have := (C100_changelog [s% "* Mon Jan 01 2024 B", s% "- old"] ⟨1, 0, 2, 2024, none⟩ (s% "C") [s% "- new"] (s% "1-1")
    (by
      constructor
      · intro a l b e hs
        have : l ∈ [s% "- new"] := by rw [e]; simp
        simp at this
        subst this
        exact absurd hs (by simp [StarLine])
      · intro l hl
        simp at hl
        subst hl
        intro hb
        exact absurd (hb '-' (by simp)) (by decide)) (.inr (by simp))).1
  exact congrArg Prod.fst this

/-- the hypotheses of `C100_patch_partial` -/
example : ∃ p', Prep.addPatchMacro (exThree (s% "%patch1") (s% "%patch3") (s% "%patch7")) (some 5) true [('p', some (.int 1))] = (p', none) ∧
    Prep.raw p' = [s% "%patch1 ", s% "%patch3 ", s% "%patch5 -p1", s% "%patch7 "] ∧
    Prep.removePatchMacro p' 5 = (exThree (s% "%patch1") (s% "%patch3") (s% "%patch7"), none) := by
  have hg : ∀ x ∈ (exThree (s% "%patch1") (s% "%patch3") (s% "%patch7")).data, GoodMacro x := by
    intro x hx
    simp only [exThree, List.mem_cons, List.not_mem_nil, or_false] at hx
    rcases hx with rfl | rfl | rfl <;>
      exact ⟨by decide, ⟨[], rfl, by simp⟩, fun _ => ⟨rfl, rfl, rfl⟩⟩
  refine ⟨_, rfl, by decide +kernel, C100_patch_partial (num := some 5) (old := true) (kw := [('p', some (.int 1))]) (by simp) (by simp)
    (by simp [KwOK]) hg (by simp) ?_ ?_ rfl⟩
  · intro x hx hk hn
    rw [← Prep.good_number (hg x hx) hk] at hn
    simp only [exThree, List.mem_cons, List.not_mem_nil, or_false] at hx
    rcases hx with rfl | rfl | rfl <;> revert hn <;> decide +kernel
  · refine ⟨_, _, rfl, fun hk => ⟨1, ?_, by decide⟩⟩
    rw [← Prep.good_number (hg _ (by simp [exThree])) hk]
    decide +kernel

/-- C100 fails for a `%patch` macro that comes first: it is not removed. -/
theorem C100_violation_patch : ∃ p p' : Prep, Prep.raw p = [s% "make"] ∧ Prep.addPatchMacro p (some 1) true [] = (p', none) ∧
    Prep.removePatchMacro p' 1 = (p', none) ∧ Prep.raw p' = [s% "%patch1 ", s% "make"] :=
  ⟨⟨[], [s% "make"]⟩, _, by decide +kernel, rfl, by decide +kernel, by decide +kernel⟩

/-- the hypotheses of `C100_option_partial` -/
example : ∃ o', Options.set (⟨[⟨.default, s% "-q"⟩], s% "qn:", []⟩ : Options.Opts) 'n' (some (.str (s% "foo bar"))) = .ok o' ∧
    Options.tokensStr o'.tokens = s% "-q -n \"foo bar\"" ∧ Options.del o' 'n' = ⟨[⟨.default, s% "-q"⟩], s% "qn:", []⟩ :=
  ⟨_, rfl, by decide +kernel, C100_option_partial (v := .str (s% "foo bar")) (by decide +kernel) (by simp)
    (by intro s h; cases h; decide +kernel) rfl⟩

/-- C100 fails for a flag: deleting it removes the blank instead. -/
theorem C100_violation_flag : ∃ o o' : Options.Opts, Options.set o 'q' (some (.bool true)) = .ok o' ∧
    Options.tokensStr o.tokens = s% "-T" ∧ Options.tokensStr (Options.del o' 'q').tokens = s% "-T-q" :=
  ⟨⟨[⟨.default, s% "-T"⟩], s% "Tq", []⟩, _, rfl, by decide +kernel, by decide +kernel⟩

/-- C100 fails for sources: those that were renumbered keep their new numbers. -/
theorem C100_violation_source : ∃ s : Sources, s.tags.data.map (·.name) = [s% "Source0", s% "Source1"] ∧
    (((s.insert 0 (s% "n")).1.del 0).1).tags.data.map (·.name) = [s% "Source1", s% "Source2"] :=
  ⟨⟨⟨[exTag (s% "Source0") (s% "a"), exTag (s% "Source1") (s% "b")], []⟩, [], false, false, false, 1⟩, by decide +kernel,
    by decide +kernel⟩

/-- the hypotheses of `C100_macro_value_partial` -/
example : setMacro sampleWorld (s% "a") (s% "1") (setMacro sampleWorld (s% "a") (s% "3") twoMacros).1 = (twoMacros, .ok ()) := by
  have na : MacroName (s% "a") := ⟨s% "a", [], rfl, by decide, by decide, .inl rfl⟩
  have nb : MacroName (s% "b") := ⟨s% "b", [], rfl, by decide, by decide, .inl rfl⟩
  refine C100_macro_value_partial (W := sampleWorld) (m := twoMacrosRead) (k := 0) (x := plainDefinition (s% "a") (s% "1") [] true)
    (by decide +kernel) (by decide +kernel) rfl ?_ (s% "3") ?_ (noDefinition (by decide +kernel)) ⟨?_, ?_⟩
  · intro j x hx
    match j, hx with
    | 0, hx => cases hx; decide +kernel
    | 1, hx => cases hx; decide +kernel
    | j + 2, hx => cases hx
  · intro d hd
    simp only [twoMacrosRead, List.mem_cons, List.not_mem_nil, or_false] at hd
    rcases hd with rfl | rfl
    · exact plain_readable (preceding := []) na (by decide) (by decide +kernel) (by simp)
    · exact plain_readable nb (by decide) (by decide +kernel) (noDefinition (ls := [s% "%if 0"]) (by decide +kernel))
  · exact plain_readable (preceding := []) na (by decide) (by decide +kernel) (by simp)
  · have h : (MacroDefinitions.parse (sampleWorld.oracle []) true (setMacro sampleWorld (s% "a") (s% "3") twoMacros).1).toOption.isSome
        = true := by decide +kernel
    cases hp : MacroDefinitions.parse (sampleWorld.oracle []) true (setMacro sampleWorld (s% "a") (s% "3") twoMacros).1 with
    | ok m => exact ⟨m, hp⟩
    | error e => rw [hp] at h; cases h

/-- the hypotheses of `C100_tag_value_partial` -/
example : setTag smallWorld (s% "name") (s% "x") (setTag smallWorld (s% "name") (s% "y") smallPreamble).1 = (smallPreamble, .ok ()) := by
  have hs : Sections.parse (smallWorld.oracle smallPreamble) smallPreamble = .ok [preambleOf smallPreamble] := by
    decide +kernel
  have e1 : (setTag smallWorld (s% "name") (s% "y") smallPreamble).1 = smallPreamble3 := by decide +kernel
  refine C100_tag_value_partial (W := smallWorld) (fun _ => Iff.rfl) (t := smallTags) (rest := []) (k := 0)
    (x := ⟨s% "Name", s% "x", s% ": ", ⟨[], []⟩, true, [], s% " "⟩) ⟨_, hs, small_parse⟩ (by decide +kernel) rfl ?_ (s% "y")
    small_readable ?_ (by simp)
  · intro j x hx
    match j, hx with
    | 0, hx => cases hx; decide +kernel
    | 1, hx => cases hx; decide +kernel
    | j + 2, hx => cases hx
  · rw [e1]
    exact small_after small_named (by decide +kernel) (by decide +kernel) small_clean3 (by decide +kernel)
      (by decide +kernel) (by decide +kernel)

end

end Specfile.Props
