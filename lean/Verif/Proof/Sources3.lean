import Verif.Proof.Sources2
/-
Sources: insertion.
-/
namespace Specfile.Sources
open Py Regex Spec

variable [Uni]

/-! ### tags apart from names -/

theorem apart_none {k : Str} {t : Tag} (h : entryM k t = none) : apart k t = bare t := by
  have := entryM_isSome k t
  rw [h] at this
  unfold apart
  rw [← this]
  rfl

theorem apart_some {k : Str} {t : Tag} {e : Option Nat} (h : entryM k t = some e) :
    apart k t = { bare t with name := k, sep := [] } := by
  have := entryM_isSome k t
  rw [h] at this
  unfold apart
  rw [← this]
  rfl

theorem apart_bare (k : Str) (t : Tag) : apart k (bare t) = apart k t := by
  cases h : entryM k t with
  | none => rw [apart_none h, apart_none (by rw [entryM_bare]; exact h)]; rfl
  | some e => rw [apart_some h, apart_some (by rw [entryM_bare]; exact h)]; rfl

theorem apart_of_bare {k : Str} {a b : List Tag} (h : a.map bare = b.map bare) : a.map (apart k) = b.map (apart k) := by
  have := congrArg (List.map (apart k)) h
  simpa [List.map_map, Function.comp_def, apart_bare] using this

theorem vals_apart {k : Str} (hk : IsKind k) (ts : List Tag) : vals k (ts.map (apart k)) = vals k ts := by
  induction ts with
  | nil => rfl
  | cons t ts ih =>
    rw [List.map_cons]
    cases h : entryM k t with
    | none =>
      rw [vals_cons_none h, vals_cons_none (by rw [apart_none h, entryM_bare]; exact h), ih]
    | some e =>
      rw [vals_cons_some h, vals_cons_some (e := none) (by rw [apart_some h]; exact entryM_kind hk rfl), ih, apart_some h]
      rfl

theorem vals_of_apart {k : Str} (hk : IsKind k) {a b : List Tag} (h : a.map (apart k) = b.map (apart k)) :
    vals k a = vals k b := by
  rw [← vals_apart hk a, h, vals_apart hk b]

theorem dedupData_apart {k : Str} (hk : IsKind k) (ts : List Tag) : ∀ (p next : Nat),
    (dedupData k p next ts).map (apart k) = ts.map (apart k) := by
  induction ts with
  | nil => intros; rfl
  | cons t ts ih =>
    intro p next
    unfold dedupData
    split
    · rw [List.map_cons, ih]; rfl
    · rw [List.map_cons, ih]; rfl
    · rename_i n h
      split
      · obtain ⟨e, he⟩ := reTag_source hk t (p + 1)
        rw [List.map_cons, List.map_cons, ih, apart_some he, apart_some h]
        rfl
      · rw [List.map_cons, ih]; rfl

/-- a good name -/
theorem goodNames_one {k : Str} {t : Tag} : GoodNames k [t] ↔
    '\n' ∉ t.name ∧ ∀ n, sourceEntry k t = some (some n) → trailingDigits t.name ≠ [] := by
  unfold GoodNames
  simp

theorem goodNames_cons {k : Str} {t : Tag} {ts : List Tag} : GoodNames k (t :: ts) ↔ GoodNames k [t] ∧ GoodNames k ts := by
  unfold GoodNames
  simp

theorem goodNames_kind {k d : Str} (hk : IsKind k) (hd : ∀ c ∈ d, isAsciiDigit c = true) {t : Tag} (h : t.name = k ++ d) :
    GoodNames k [t] := by
  rw [goodNames_one, h]
  refine ⟨kind_no_newline hk hd, ?_⟩
  intro n hn
  rw [trailing_kind hk hd]
  rintro rfl
  rw [List.append_nil] at h
  rw [(entryM_none k t).1 (entryM_kind hk h)] at hn
  cases hn

theorem reTag_good {k : Str} (hk : IsKind k) (t : Tag) (n : Nat) : GoodNames k [reTag k t n] := by
  by_cases h : (numberDigits ⟨0, t, none⟩ == 0) = true
  · exact goodNames_kind (d := []) hk (by simp) (by simp [reTag, reName, h])
  · exact goodNames_kind (d := zeroPad (numberDigits ⟨0, t, none⟩) n) hk (zeroPad_digits _ _)
      (by simp only [reTag, reName]; rw [if_neg h])

theorem dedupData_good {k : Str} (hk : IsKind k) (ts : List Tag) : ∀ (p next : Nat), GoodNames k ts →
    GoodNames k (dedupData k p next ts) := by
  induction ts with
  | nil => intro p next h; exact h
  | cons t ts ih =>
    intro p next hg
    obtain ⟨h1, h2⟩ := goodNames_cons.1 hg
    unfold dedupData
    split
    · exact goodNames_cons.2 ⟨h1, ih _ _ h2⟩
    · exact goodNames_cons.2 ⟨h1, ih _ _ h2⟩
    · split
      · exact goodNames_cons.2 ⟨reTag_good hk _ _, ih _ _ h2⟩
      · exact goodNames_cons.2 ⟨h1, ih _ _ h2⟩

theorem goodNames_of_bare {k : Str} {a b : List Tag} (h : a.map bare = b.map bare) (hb : GoodNames k b) :
    GoodNames k a := by
  intro t ht
  have : bare t ∈ b.map bare := by rw [← h]; exact List.mem_map_of_mem ht
  obtain ⟨t', ht', he⟩ := List.mem_map.1 this
  have h2 := hb t' ht'
  have hn : t'.name = t.name := congrArg (fun x => x.name) he
  unfold sourceEntry at h2 ⊢
  rw [hn] at h2
  exact h2

theorem goodNames_append {k : Str} {a b : List Tag} : GoodNames k (a ++ b) ↔ GoodNames k a ∧ GoodNames k b := by
  unfold GoodNames
  constructor
  · intro h; exact ⟨fun t ht => h t (by simp [ht]), fun t ht => h t (by simp [ht])⟩
  · rintro ⟨h1, h2⟩ t ht
    rcases List.mem_append.1 ht with h | h
    · exact h1 t h
    · exact h2 t h

theorem dedup_apart (s : Sources) (start : Int) :
    ∃ data, (s.dedup start).1 = putData s data ∧ data.map (apart s.kind) = s.tags.data.map (apart s.kind) := by
  rcases dedup_spec s start with ⟨_, h⟩ | ⟨_, _, h⟩ | ⟨a, t, b, e, h1, h2, h3, h⟩
  · rw [h]; exact ⟨s.tags.data, rfl, rfl⟩
  · rw [h]; exact ⟨s.tags.data, rfl, rfl⟩
  · rw [h, h1]
    refine ⟨_, rfl, ?_⟩
    simp only [List.map_append, List.map_cons, dedupData_apart (kind_isKind s)]

/-! ### inserting a tag -/

omit [Uni] in
theorem insertTag_spec (s : Sources) {a b : List Tag} (t : Tag) (h : s.tags.data = a ++ b) :
    ∃ tags, s.insertTag a.length t = ({ s with tags := tags }, none) ∧
      tags.data.map bare = (a ++ t :: b).map bare := by
  unfold insertTag
  obtain ⟨k, h1, h2, h3, _⟩ := Tags.insert_nat (m := s.tags) (i := (a.length : Int)) (item := t) (by omega)
  have hk : k = a.length := by
    rw [h1, h]; unfold insertPos; rw [if_pos (by omega)]; simp
  subst hk
  generalize hr : s.tags.insert a.length t = r at *
  obtain ⟨tags, e⟩ := r
  simp only at h2 h3
  subst h2
  refine ⟨tags, rfl, ?_⟩
  rw [h3, h, List.take_left, List.drop_left]

theorem goodM_of_bare {k : Str} {a b : List Tag} (h : a.map bare = b.map bare) (hb : GoodM k b) : GoodM k a := by
  intro t ht n hn
  have : bare t ∈ b.map bare := by rw [← h]; exact List.mem_map_of_mem ht
  obtain ⟨t', ht', he⟩ := List.mem_map.1 this
  have h1 : entryM k t' = some (some n) := by rw [← entryM_bare, he, entryM_bare]; exact hn
  have h2 := hb t' ht' n h1
  have : t'.name = t.name := congrArg (fun x => x.name) he
  unfold numberDigits at h2 ⊢
  simp only [this] at h2
  exact h2

omit [Uni] in
theorem split_unique {α : Type} {a b c d : List α} {x y : α} (h : a ++ x :: b = c ++ y :: d)
    (hl : a.length = c.length) : a = c ∧ x = y ∧ b = d := by
  have := List.append_inj h hl
  exact ⟨this.1, by simpa using this.2⟩

/-! ### names and separators -/

omit [Uni] in
theorem adjustSep_aligned {ref new : Tag} (h : new.sep = adjustSep ref.sep ref.name.length new.name.length) :
    Aligned ref new := by
  unfold adjustSep at h
  unfold Aligned
  by_cases hl : new.name.length ≤ ref.name.length
  · rw [if_pos hl] at h
    rw [h]
    refine ⟨fun _ => ⟨by simp; omega, .inr ⟨_, rfl⟩⟩, ?_⟩
    intro h1 h2
    have := List.length_pos_iff.2 h2
    omega
  · rw [if_neg hl] at h
    simp only at h
    refine ⟨?_, ?_⟩
    · intro h1
      have hlen : (ref.sep.take (ref.sep.length - (new.name.length - ref.name.length))).length =
          ref.sep.length - (new.name.length - ref.name.length) := by rw [List.length_take]; omega
      have hne : (ref.sep.take (ref.sep.length - (new.name.length - ref.name.length))).isEmpty = false := by
        cases hc : ref.sep.take (ref.sep.length - (new.name.length - ref.name.length)) with
        | nil => rw [hc] at hlen; simp at hlen; omega
        | cons _ _ => rfl
      rw [hne] at h
      simp only [Bool.false_eq_true, if_false] at h
      rw [h, hlen]
      exact ⟨by omega, .inl (List.take_prefix _ _)⟩
    · intro h1 h2
      rw [show ref.sep.length - (new.name.length - ref.name.length) = 0 by omega] at h
      simpa using h

theorem newName_eq {k : Str} {t : Tag} (hn : '\n' ∉ t.name) (n : Nat) :
    (Uni.capitalize t.name = k → newName k t n = k) ∧
    (Uni.capitalize t.name ≠ k → newName k t n = reName k t n) := by
  refine ⟨fun h => by unfold newName; simp only [h, true_or, if_true], ?_⟩
  intro h
  unfold newName reName numberDigits
  simp only [extractNumber_eq hn, h, false_or]
  by_cases hd : trailingDigits t.name = []
  · rw [if_pos hd, if_pos hd]; simp
  · rw [if_neg hd, if_neg hd]
    have hh : startsWith (trailingDigits t.name) ['0'] = decide ((trailingDigits t.name).head? = some '0') := by
      cases hc : trailingDigits t.name with
      | nil => exact absurd hc hd
      | cons c d => rw [Bool.eq_iff_iff]; simp [startsWith, List.isPrefixOf]; exact ⟨Eq.symm, Eq.symm⟩
    simp only [hh]
    by_cases h0 : (trailingDigits t.name).head? = some '0'
    · simp only [h0, decide_true, if_true]
      rw [if_neg]
      · simp [zeroPad]
      · simpa using hd
    · simp only [h0, decide_false, Bool.false_eq_true, if_false]
      have : 1 - (natStr n).length = 0 := by have := List.length_pos_iff.2 (natStr_ne_nil n); omega
      simp [zeroPad, this]

theorem entryM_some_ne {k : Str} {t : Tag} {n : Nat} (h : entryM k t = some (some n)) : Uni.capitalize t.name ≠ k := by
  intro hc
  unfold entryM Tags.normalizedName at h
  rw [if_pos hc] at h
  cases h

theorem entryM_none_eq {k : Str} {t : Tag} (h : entryM k t = some none) : Uni.capitalize t.name = k := by
  unfold entryM Tags.normalizedName at h
  split at h
  · assumption
  · split at h <;> cases h

theorem tagFormat_name {s : Sources} {a b : List Tag} {t : Tag} {e : Option Nat} (h : s.tags.data = a ++ t :: b)
    (he : entryM s.kind t = some e) (hn : '\n' ∉ t.name) (i next n : Nat) :
    (s.tagFormat (srcOf i next t e) n none).1 = newName s.kind t n := by
  unfold tagFormat
  cases e with
  | none =>
    rw [(newName_eq hn n).1 (entryM_none_eq he)]
    simp [srcOf, numberDigits]
  | some m =>
    rw [(newName_eq hn n).2 (entryM_some_ne he), detect_false h he]
    rfl

theorem dedupData_renumbered {k : Str} (hk : IsKind k) (ts : List Tag) : ∀ (p next : Nat), GoodNames k ts →
    ∀ (j : Nat) t', (dedupData k p next ts)[j]? = some t' → ∃ t, ts[j]? = some t ∧ Renumbered k t t' := by
  induction ts with
  | nil => intro p next _ j t' h; simp [dedupData] at h
  | cons t ts ih =>
    intro p next hg j t' h
    obtain ⟨g1, g2⟩ := goodNames_cons.1 hg
    unfold dedupData at h
    have key : ∀ x p next, (x :: dedupData k p next ts)[j]? = some t' → Renumbered k t x →
        ∃ u, (t :: ts)[j]? = some u ∧ Renumbered k u t' := by
      intro x p next h hx
      cases j with
      | zero =>
        simp only [List.getElem?_cons_zero, Option.some.injEq] at h
        subst h
        exact ⟨t, rfl, hx⟩
      | succ j =>
        rw [List.getElem?_cons_succ] at h
        exact ih _ _ g2 j t' h
    split at h
    · exact key _ _ _ h (.inl rfl)
    · exact key _ _ _ h (.inl rfl)
    · rename_i n hn
      split at h
      · have hnl := (goodNames_one.1 g1).1
        refine key _ _ _ h (.inr ⟨n, p + 1, by rw [← entryM_eq hnl]; exact hn, by omega, ?_, ?_, ?_⟩)
        · rw [(newName_eq hnl _).2 (entryM_some_ne hn)]; rfl
        · exact adjustSep_aligned rfl
        · obtain ⟨e, he⟩ := reTag_source hk t (p + 1)
          rw [apart_some he, apart_some hn]
          rfl
      · exact key _ _ _ h (.inl rfl)

theorem renumbered_of_bare {k : Str} {t u t' : Tag} (h : bare t = bare u) (hr : Renumbered k t t') : Renumbered k u t' := by
  have hn : t.name = u.name := congrArg (fun x => x.name) h
  have hs : t.sep = u.sep := congrArg (fun x => x.sep) h
  rcases hr with hr | ⟨n, m, h1, h2, h3, h4, h5⟩
  · exact .inl (hr.trans h)
  · refine .inr ⟨n, m, ?_, h2, ?_, ?_, ?_⟩
    · unfold sourceEntry at h1 ⊢; rw [hn] at h1; exact h1
    · unfold newName at h3 ⊢; rw [hn] at h3; exact h3
    · unfold Aligned at h4 ⊢; rw [hn, hs] at h4; exact h4
    · rw [h5, ← apart_bare, h, apart_bare]

/-- a source is determined by the number of sources before it -/
theorem source_unique {k : Str} {a b c d : List Tag} {t u : Tag} (h : a ++ t :: b = c ++ u :: d)
    (ht : (entryM k t).isSome) (hu : (entryM k u).isSome) (hl : (vals k a).length = (vals k c).length) :
    a = c ∧ t = u ∧ b = d := by
  obtain ⟨e1, he1⟩ := Option.isSome_iff_exists.1 ht
  obtain ⟨e2, he2⟩ := Option.isSome_iff_exists.1 hu
  rw [List.append_eq_append_iff] at h
  rcases h with ⟨x, h1, h2⟩ | ⟨x, h1, h2⟩
  · cases x with
    | nil =>
      simp only [List.append_nil, List.nil_append, List.cons.injEq] at h1 h2
      exact ⟨h1.symm, h2.1, h2.2⟩
    | cons y x =>
      simp only [List.cons_append, List.cons.injEq] at h2
      rw [h1, vals_append, ← h2.1, vals_cons_some he1] at hl
      simp at hl
  · cases x with
    | nil =>
      simp only [List.append_nil, List.nil_append, List.cons.injEq] at h1 h2
      exact ⟨h1, h2.1.symm, h2.2.symm⟩
    | cons y x =>
      simp only [List.cons_append, List.cons.injEq] at h2
      rw [h1, vals_append, ← h2.1, vals_cons_some he2] at hl
      simp at hl

/-- the tags after an insertion: each one stays or is renumbered -/
def AllRenumbered (kind : Str) (ts ts' : List Tag) : Prop :=
  ∀ (j : Nat) t', ts'[j]? = some t' → ∃ t, ts[j]? = some t ∧ Renumbered kind t t'

omit [Uni] in
theorem get_of_bare {a b : List Tag} (h : a.map bare = b.map bare) {j : Nat} {t : Tag} (ht : a[j]? = some t) :
    ∃ u, b[j]? = some u ∧ bare t = bare u := by
  have := congrArg (fun l => l[j]?) h
  simp only [List.getElem?_map, ht, Option.map_some] at this
  rw [eq_comm, Option.map_eq_some_iff] at this
  obtain ⟨u, h1, h2⟩ := this
  exact ⟨u, h1, h2.symm⟩

/-- inserting a source tag and renumbering -/
theorem insertTag_dedup (s : Sources) {a b : List Tag} {new : Tag} {e : Option Nat} (h : s.tags.data = a ++ b)
    (he : entryM s.kind new = some e) {start : Int}
    (hs : clampBound ((vals s.kind s.tags.data).length + 1) start ≤ (vals s.kind s.tags.data).length) :
    ∃ tags tags', s.insertTag a.length new = ({ s with tags := tags }, none) ∧
      dedup { s with tags := tags } start = ({ s with tags := tags' }, none) ∧
      tags'.data.map (apart s.kind) = (a ++ new :: b).map (apart s.kind) ∧
      (GoodNames s.kind (new :: s.tags.data) → GoodNames s.kind tags'.data) ∧
      (GoodNames s.kind (new :: s.tags.data) → AllRenumbered s.kind (a ++ new :: b) tags'.data) ∧
      (start = (vals s.kind a).length → ∃ t, tags'.data[a.length]? = some t ∧ bare t = bare new) ∧
      (start = (vals s.kind a).length → GoodM s.kind (new :: s.tags.data) →
        ents s.kind tags'.data = ents s.kind a ++ e :: dedupA (entryNumber (nextOf 0 (ents s.kind a)) e)
          (nextOf (nextOf 0 (ents s.kind a)) [e]) (ents s.kind b)) := by
  obtain ⟨tags, h1, h2⟩ := insertTag_spec s new h
  refine ⟨tags, ?_⟩
  generalize hs1 : ({ s with tags := tags } : Sources) = s1
  have hkind : s1.kind = s.kind := by rw [← hs1]; rfl
  have htags : s1.tags = tags := by rw [← hs1]
  have hput : ∀ data, putData s1 data = { s with tags := { tags with data := data } } := by intro data; rw [← hs1]; rfl
  have hvals : (vals s.kind tags.data).length = (vals s.kind s.tags.data).length + 1 := by
    rw [vals_of_bare h2, h, vals_append, vals_cons_some he, vals_append]
    simp; omega
  have hlen : s1.getTags.length = (vals s.kind s.tags.data).length + 1 := by
    rw [getTags_length, hkind, htags, hvals]
  rcases dedup_spec s1 start with ⟨hh, _⟩ | ⟨_, hh, _⟩ | ⟨a', t', b', e', g1, g2, g3, g4⟩
  · rw [hh] at hlen; simp at hlen
  · rw [hlen] at hh; omega
  · rw [hput] at g4
    have hgood : GoodNames s.kind (new :: s.tags.data) → GoodNames s.kind tags.data := fun hg => goodNames_of_bare h2 (by
      rw [h] at hg
      obtain ⟨q1, q2⟩ := goodNames_cons.1 hg
      obtain ⟨q3, q4⟩ := goodNames_append.1 q2
      exact goodNames_append.2 ⟨q3, goodNames_cons.2 ⟨q1, q4⟩⟩)
    refine ⟨_, hs1 ▸ h1, g4, ?_, ?_, ?_, ?_, ?_⟩
    · rw [hkind] at *
      rw [htags] at g1
      simp only [List.map_append, List.map_cons, dedupData_apart (kind_isKind s)]
      have := apart_of_bare (k := s.kind) h2
      rw [g1] at this
      simpa using this
    · intro hg
      rw [hkind] at *
      rw [htags] at g1
      have := hgood hg
      rw [g1] at this
      obtain ⟨q1, q2⟩ := goodNames_append.1 this
      obtain ⟨q3, q4⟩ := goodNames_cons.1 q2
      exact goodNames_append.2 ⟨q1, goodNames_cons.2 ⟨q3, dedupData_good (kind_isKind s) _ _ _ q4⟩⟩
    · intro hg
      rw [hkind] at *
      rw [htags] at g1
      have := hgood hg
      rw [g1] at this
      obtain ⟨_, q2⟩ := goodNames_append.1 this
      obtain ⟨_, q4⟩ := goodNames_cons.1 q2
      intro j u hu
      have : ∃ t, tags.data[j]? = some t ∧ Renumbered s.kind t u := by
        rw [g1]
        simp only at hu
        rcases Nat.lt_or_ge j a'.length with hj | hj
        · rw [List.getElem?_append_left hj] at hu
          exact ⟨u, by rw [List.getElem?_append_left hj]; exact hu, .inl rfl⟩
        · rw [List.getElem?_append_right hj] at hu
          rw [List.getElem?_append_right hj]
          cases hjj : j - a'.length with
          | zero => rw [hjj] at hu; exact ⟨u, hu, .inl rfl⟩
          | succ j' =>
            rw [hjj, List.getElem?_cons_succ] at hu
            rw [List.getElem?_cons_succ]
            exact dedupData_renumbered (kind_isKind s) _ _ _ q4 j' u hu
      obtain ⟨t, e1, e2⟩ := this
      obtain ⟨t2, e3, e4⟩ := get_of_bare h2 e1
      exact ⟨t2, e3, renumbered_of_bare e4 e2⟩
    · intro hst
      rw [hkind] at *
      rw [htags] at g1
      obtain ⟨n1, hn1, hn2⟩ := get_of_bare h2.symm (j := a.length) (t := new) (by simp)
      obtain ⟨q1, q2⟩ := Tags.split_at hn1
      have hva : (vals s.kind (tags.data.take a.length)).length = (vals s.kind a).length := by
        have := congrArg (List.take a.length) h2
        rw [← List.map_take, ← List.map_take, List.take_left] at this
        rw [vals_of_bare this]
      have hen : entryM s.kind n1 = some e := by rw [← entryM_bare, ← hn2, entryM_bare]; exact he
      rw [q1] at g1
      have := source_unique (k := s.kind) g1 (by rw [hen]; rfl) (by rw [g2]; rfl) (by
        rw [hva, g3, hlen, hst]
        unfold clampBound
        rw [if_pos (by omega), h, vals_append]
        simp; omega)
      refine ⟨t', ?_, by rw [← this.2.1]; exact hn2.symm⟩
      simp only
      rw [← this.1, List.getElem?_append_right (by rw [q2]; exact Nat.le_refl _), q2, Nat.sub_self]
      rfl
    · intro hst hg
      rw [hkind] at *
      rw [htags] at g1
      have hE := ents_of_bare (kind := s.kind) h2
      rw [g1, ents_append, ents_append, ents_cons_some g2, ents_cons_some he] at hE
      have hl : (ents s.kind a').length = (ents s.kind a).length := by
        rw [ents_length, ents_length, g3, hlen, hst]
        unfold clampBound
        rw [if_pos (by omega), h, vals_append]
        simp; omega
      obtain ⟨e1, e2, e3⟩ := split_unique hE hl
      subst e2
      rw [e1]
      have hgb : GoodM s.kind b' := by
        have : GoodM s.kind tags.data := goodM_of_bare h2 (by
          intro t ht
          apply hg
          rw [h]
          simp only [List.mem_append, List.mem_cons] at ht ⊢
          rcases ht with h | h | h <;> simp [h])
        intro t ht
        exact this t (by rw [g1]; simp [ht])
      simp only
      rw [ents_append, ents_cons_some g2, dedupData_ents (kind_isKind s) _ _ _ hgb, e1, e3]

/-! ### names of new tags -/

theorem numberDigits_good {k d : Str} (hk : IsKind k) (hd : ∀ c ∈ d, isAsciiDigit c = true) (hne : d ≠ []) {t : Tag}
    (h : t.name = k ++ d) : numberDigits ⟨0, t, none⟩ ≠ 0 := by
  unfold numberDigits
  simp only [h]
  rw [extractNumber_eq (kind_no_newline hk hd), trailing_kind hk hd, if_neg hne]
  simp only
  split
  · intro h; exact hne (List.length_eq_zero_iff.1 h)
  · simp

/-- the entry of a tag named by `_get_tag_format` -/
theorem tagFormat_entry (s : Sources) (ref : TagSource) (n : Nat) (o : Option Nat) {t : Tag}
    (h : t.name = (s.tagFormat ref n o).1) :
    entryM s.kind t = some (if s.detectImplicit = true ∨ (o.getD (numberDigits ref)) = 0 then none else some n) ∧
      GoodNames s.kind [t] := by
  have hn : t.name = s.kind ++ if s.detectImplicit = true ∨ (o.getD (numberDigits ref)) = 0 then []
      else zeroPad (o.getD (numberDigits ref)) n := by
    rw [h]
    unfold tagFormat
    cases o <;> simp
  split at hn
  · rename_i hc
    rw [if_pos hc]
    rw [List.append_nil] at hn
    exact ⟨entryM_kind (kind_isKind s) hn, goodNames_kind (d := []) (kind_isKind s) (by simp) (by simpa using hn)⟩
  · rename_i hc
    rw [if_neg hc]
    refine ⟨?_, ?_⟩
    · rw [entryM_digits (kind_isKind s) (zeroPad_digits _ _) (zeroPad_ne_nil _ _) hn, decVal_zeroPad]
    · exact goodNames_kind (kind_isKind s) (zeroPad_digits _ _) hn

/-- next to a source without a number the new one has none; next to one with a number it has the given one -/
theorem tagFormat_near {s : Sources} {a b : List Tag} {t : Tag} {e : Option Nat} (h : s.tags.data = a ++ t :: b)
    (he : entryM s.kind t = some e) (i next n : Nat) {new : Tag}
    (hnew : new.name = (s.tagFormat (srcOf i next t e) n none).1) :
    (e = none → entryM s.kind new = some none) ∧
    (∀ m, e = some m → numberDigits ⟨0, t, none⟩ ≠ 0 → entryM s.kind new = some (some n)) ∧
    (∃ e', entryM s.kind new = some e') ∧ GoodNames s.kind [new] := by
  obtain ⟨h1, h2⟩ := tagFormat_entry s _ n none hnew
  refine ⟨?_, ?_, ⟨_, h1⟩, h2⟩
  · rintro rfl
    rw [h1, if_pos (.inr rfl)]
  · rintro m rfl hd
    rw [h1, if_neg]
    rintro (hc | hc)
    · rw [detect_false h he] at hc; cases hc
    · exact hd hc

/-- the entry of the first tag -/
theorem initial_entry (s : Sources) (n : Nat) (hs : s.getTags = []) :
    (s.initial n).1 ≤ s.tags.data.length ∧
    ∀ t : Tag, t.name = (s.initial n).2.1 →
      entryM s.kind t = some (if s.implicitDefault = true ∨ s.digits = 0 then none else some n) ∧ GoodNames s.kind [t] := by
  have hdet : s.detectImplicit = s.implicitDefault := by unfold detectImplicit; rw [hs]; rfl
  have hbase : ∀ t : Tag, t.name = (s.initialSetup n).2.1 →
      entryM s.kind t = some (if s.implicitDefault = true ∨ s.digits = 0 then none else some n) ∧ GoodNames s.kind [t] := by
    intro t ht
    have := tagFormat_entry s ⟨0, t, none⟩ n (some s.digits) (t := t) (by rw [ht]; simp [initialSetup, tagFormat, hdet])
    rw [hdet] at this
    exact this
  unfold initial
  split
  · cases hl : (sourceTags 0 s.tags.data).getLast? with
    | none => exact ⟨Nat.le_refl _, hbase⟩
    | some ref =>
      refine ⟨?_, ?_⟩
      · have hm := List.mem_of_getLast? hl
        have key : ∀ (ts : List Tag) (i : Nat), ∀ x ∈ sourceTags i ts, x.idx < i + ts.length := by
          intro ts
          induction ts with
          | nil => intro i x hx; simp [sourceTags] at hx
          | cons t ts ih =>
            intro i x hx
            unfold sourceTags at hx
            split at hx
            · rcases List.mem_cons.1 hx with rfl | hx
              · simp
              · have := ih (i + 1) x hx; simp; omega
            · have := ih (i + 1) x hx; simp; omega
        have := key _ _ _ hm
        simp only
        omega
      · intro t ht
        have := tagFormat_entry s ref n (some s.digits) (t := t) (by rw [ht])
        rw [hdet] at this
        exact this
  · exact ⟨Nat.le_refl _, hbase⟩

/-! ### insertion -/

/-- a tag is put at a position among the tags -/
structure TagInserted (s s' : Sources) (a b : List Tag) (n : Nat) (new : Tag) : Prop where
  data : s.tags.data = a ++ b
  same : ∃ tags, s' = { s with tags := tags }
  source : ∃ e, entryM s.kind new = some e
  result : s'.tags.data.map (apart s.kind) = (a ++ new :: b).map (apart s.kind)
  good : GoodNames s.kind s.tags.data → GoodNames s.kind s'.tags.data
  renumbered : GoodNames s.kind s.tags.data → AllRenumbered s.kind (a ++ new :: b) s'.tags.data
  new : NewTag s.kind s a b n new

/-- an entry is put at a position in a list -/
structure EntryInserted (s s' : Sources) (la lb : List Sourcelist) (l : Sourcelist) (a b : List SourcelistEntry)
    (new : SourcelistEntry) : Prop where
  lists : s.lists = la ++ l :: lb
  data : l.data = a ++ b
  result : s' = { s with lists := la ++ { l with data := a ++ new :: b } :: lb }
  plain : new.comments = ⟨[], []⟩
  valid : new.valid = (((b ++ a).getLast?).map (·.valid)).getD true

theorem TagInserted.locations {s s' : Sources} {a b : List Tag} {n : Nat} {new : Tag}
    (h : TagInserted s s' a b n new) :
    s'.locations = insertAt s.locations (vals s.kind a).length new.value := by
  obtain ⟨h1, ⟨tags, rfl⟩, ⟨e, h3⟩, h4, _, _, _⟩ := h
  rw [locations_eq, locations_eq]
  have := vals_of_apart (kind_isKind s) h4
  rw [show kind { s with tags := tags } = s.kind from rfl, this, h1, vals_append, vals_cons_some h3, vals_append]
  simp [insertAt]

theorem EntryInserted.locations {s s' : Sources} {la lb : List Sourcelist} {l : Sourcelist} {a b : List SourcelistEntry}
    {new : SourcelistEntry} (h : EntryInserted s s' la lb l a b new) :
    s'.locations = insertAt s.locations
      ((vals s.kind s.tags.data).length + (listLocations la).length + a.length) new.location := by
  obtain ⟨h1, h2, rfl⟩ := h
  rw [locations_eq, locations_eq]
  simp only [h1]
  show vals s.kind s.tags.data ++ _ = _
  simp only [listLocations, List.flatMap_append, List.flatMap_cons, h2, List.map_append, List.map_cons, insertAt]
  have e : ∀ (v x y z w : List Str) (c : Str), List.take (v.length + x.length + y.length) (v ++ (x ++ (y ++ z ++ w))) ++
      c :: List.drop (v.length + x.length + y.length) (v ++ (x ++ (y ++ z ++ w))) = v ++ (x ++ (y ++ c :: z ++ w)) := by
    intro v x y z w c
    have : v ++ (x ++ (y ++ z ++ w)) = (v ++ x ++ y) ++ (z ++ w) := by simp
    rw [this, List.take_left' (by simp; omega), List.drop_left' (by simp; omega)]
    simp
  have := e (vals s.kind s.tags.data) (la.flatMap fun l => l.data.map (·.location)) (a.map (·.location))
    (b.map (·.location)) (lb.flatMap fun l => l.data.map (·.location)) new.location
  rw [List.length_map] at this
  exact this.symm

omit [Uni] in
/-- numbers with room for a new one -/
theorem numbers_room {A B : List (Option Nat)} {e : Option Nat} {p : Nat} (hi : Inc 0 (A ++ B))
    (hp : p = entryNumber (nextOf 0 A) e)
    (hB : ∀ x B', B = x :: B' → (x = none ∧ p = nextOf 0 A) ∨ (∃ m, x = some m ∧ p ≤ m)) :
    numberEntries 0 (A ++ e :: dedupA p (nextOf (nextOf 0 A) [e]) B) =
      numberEntries 0 A ++ p :: makeRoom p (numberEntries (nextOf 0 A) B) := by
  have hnext : nextOf (nextOf 0 A) [e] = p + 1 := by rw [hp]; cases e <;> rfl
  rw [numberEntries_append]
  congr 1
  have hcons : ∀ B', numberEntries (nextOf 0 A) (e :: B') = p :: numberEntries (p + 1) B' := by
    intro B'; rw [hp]; cases e <;> rfl
  rw [hcons, hnext]
  congr 1
  have hi := (inc_append.1 hi).2
  cases B with
  | nil => rfl
  | cons x B' =>
    rcases hB x B' rfl with ⟨rfl, h⟩ | ⟨m, rfl, h⟩
    · rw [← h] at hi ⊢
      exact dedupA_numbers _ p p (p + 1) (.inl rfl) (.inr rfl) (by omega) hi
    · have : numberEntries (nextOf 0 A) (some m :: B') = numberEntries p (some m :: B') := rfl
      rw [this]
      exact dedupA_numbers _ p p (p + 1) (.inl rfl) (.inr rfl) (by omega) ⟨h, hi.2⟩

theorem allRenumbered_of_bare {k : Str} {a b : List Tag} (h : a.map bare = b.map bare) : AllRenumbered k b a := by
  intro j t ht
  obtain ⟨u, h1, h2⟩ := get_of_bare h ht
  exact ⟨u, h1, .inl h2⟩

theorem sourceTags_ne {k : Str} {ts a b : List Tag} {t : Tag} {e : Option Nat} (h : ts = a ++ t :: b)
    (he : entryM k t = some e) : Spec.sourceTags k ts ≠ [] := by
  have : vals k ts ≠ [] := by rw [h, vals_append, vals_cons_some he]; simp
  rw [vals_eq] at this
  intro hc
  rw [hc] at this
  exact this rfl

theorem sourceTags_nil {k : Str} {ts : List Tag} : Spec.sourceTags k ts = [] ↔ vals k ts = [] := by
  rw [vals_eq, List.map_eq_nil_iff]

theorem sourceRe_iff {v : Str} : (rmatch sourceRe v).isSome = (s% "Source").isPrefixOf v := by
  rw [Bool.eq_iff_iff]
  constructor
  · intro h
    obtain ⟨t, ht⟩ := Option.isSome_iff_exists.1 h
    have ht := List.mem_of_head? ht
    unfold sourceRe at ht
    rw [mem_cat] at ht
    obtain ⟨u, hu, ht⟩ := ht
    rw [mem_lit] at hu
    obtain ⟨r, hr, rfl⟩ := hu
    rw [List.isPrefixOf_iff_prefix]
    exact ⟨r, hr.symm⟩
  · intro h
    rw [List.isPrefixOf_iff_prefix] at h
    obtain ⟨r, rfl⟩ := h
    cases hm : rmatch sourceRe (s% "Source" ++ r) with
    | some t => rfl
    | none =>
      exfalso
      rw [rmatch_none] at hm
      refine hm ⟨(s% "Source").reverse ++ [], r, []⟩ ?_
      unfold sourceRe
      rw [mem_cat]
      refine ⟨⟨(s% "Source").reverse ++ [], r, []⟩, mem_lit.2 ⟨r, rfl, rfl⟩, ?_⟩
      unfold star
      rw [mem_rep']
      exact ⟨[], r, rfl, rfl, by simp, rfl⟩

/-- the last tag that looks like a source -/
theorem sourceTags_last (ts : List Tag) : ∀ i,
    ((sourceTags i ts).getLast? = none → ts.any sourceLike = false) ∧
    (∀ ref, (sourceTags i ts).getLast? = some ref → ∃ a t b, ts = a ++ t :: b ∧ ref = ⟨i + a.length, t, none⟩ ∧
      sourceLike t = true ∧ b.any sourceLike = false) := by
  induction ts with
  | nil => intro i; simp [sourceTags]
  | cons t ts ih =>
    intro i
    obtain ⟨ih1, ih2⟩ := ih (i + 1)
    have hl : (rmatch sourceRe (Tags.normalizedName t)).isSome = sourceLike t := sourceRe_iff
    unfold sourceTags
    rw [hl]
    cases hs : sourceLike t with
    | false =>
      simp only [Bool.false_eq_true, if_false]
      refine ⟨fun h => by rw [List.any_cons, hs, ih1 h]; rfl, ?_⟩
      intro ref hr
      obtain ⟨a, u, b, h1, h2, h3, h4⟩ := ih2 ref hr
      exact ⟨t :: a, u, b, by rw [h1]; rfl, by rw [h2, List.length_cons]; congr 1; omega, h3, h4⟩
    | true =>
      simp only [if_true]
      cases hr : (sourceTags (i + 1) ts).getLast? with
      | none =>
        have hnil := List.getLast?_eq_none_iff.1 hr
        rw [hnil]
        refine ⟨fun h => by simp at h, ?_⟩
        intro ref href
        simp only [List.getLast?_singleton, Option.some.injEq] at href
        exact ⟨[], t, ts, rfl, by rw [← href]; rfl, hs, ih1 hr⟩
      | some r =>
        rw [List.getLast?_cons, hr]
        refine ⟨fun h => by simp at h, ?_⟩
        intro ref href
        simp only [Option.getD_some, Option.some.injEq] at href
        subst href
        obtain ⟨a, u, b, h1, h2, h3, h4⟩ := ih2 r hr
        exact ⟨t :: a, u, b, by rw [h1]; rfl, by rw [h2, List.length_cons]; congr 1; omega, h3, h4⟩

/-- the first tag -/
theorem initial_new (s : Sources) (n : Nat) (loc : Str) (hs : s.getTags = []) :
    NewTag s.kind s (s.tags.data.take (s.initial n).1) (s.tags.data.drop (s.initial n).1) n
      (newTag (s.initial n).2.1 loc (s.initial n).2.2 s.lastValid) := by
  have hv : vals s.kind s.tags.data = [] := List.length_eq_zero_iff.1 (by rw [← getTags_length, hs]; rfl)
  have hst := sourceTags_nil.2 hv
  have hdet : s.detectImplicit = s.implicitDefault := by unfold detectImplicit; rw [hs]; rfl
  have hvalid : s.lastValid = ((s.tags.data.getLast?).map (·.valid)).getD true := by
    unfold lastValid; cases s.tags.data.getLast? <;> rfl
  refine ⟨⟨rfl, rfl, rfl⟩, fun h => absurd hst h, fun _ => ?_⟩
  have hname : (s.initialSetup n).2.1 = (if s.implicitDefault = true ∨ s.digits = 0 then s.kind
      else s.kind ++ padded s.digits n) := by
    unfold initialSetup
    simp only [Bool.or_eq_true, beq_iff_eq]
    split
    · simp
    · rfl
  unfold initial
  cases hp : s.patches with
  | false =>
    simp only [Bool.false_eq_true, if_false, Bool.false_and]
    exact ⟨hname, hvalid, by simp [initialSetup], rfl⟩
  | true =>
    simp only [if_true, Bool.true_and]
    obtain ⟨l1, l2⟩ := sourceTags_last s.tags.data 0
    cases hl : (sourceTags 0 s.tags.data).getLast? with
    | none =>
      rw [l1 hl]
      exact ⟨hname, hvalid, by simp [initialSetup], rfl⟩
    | some ref =>
      obtain ⟨a, t, b, h1, h2, h3, h4⟩ := l2 ref hl
      have hany : s.tags.data.any sourceLike = true := by rw [h1]; simp [h3]
      rw [hany]
      simp only [if_true]
      rw [Nat.zero_add] at h2
      have hd : s.tags.data = (a ++ [t]) ++ b := by rw [h1]; simp
      have hlen : ref.idx + 1 = (a ++ [t]).length := by rw [h2]; simp
      refine ⟨?_, hvalid, t, ?_, h3, ?_, ?_⟩
      · show (s.tagFormat ref n (some s.digits)).1 = _
        unfold tagFormat
        rw [hdet]
        simp only [Bool.or_eq_true, beq_iff_eq]
        split
        · simp
        · rfl
      · rw [hlen, hd, List.take_left]; simp
      · rw [hlen, hd, List.drop_left]; exact h4
      · apply adjustSep_aligned
        rw [h2]
        rfl

/-- what insertion does to numbers of tags -/
def Numbered (s s' : Sources) (k : Nat) : Prop :=
  GoodM s.kind s.tags.data → Inc 0 (ents s.kind s.tags.data) → ∀ ns, ns = numberEntries 0 (ents s.kind s.tags.data) →
    ∀ p, p = (ns[k]?).getD (nextOf 0 (ents s.kind s.tags.data)) →
    numberEntries 0 (ents s.kind s'.tags.data) = ns.take k ++ p :: makeRoom p (ns.drop k)

theorem insertNext_tag (s : Sources) (i : Int) (loc : Str) {a b : List Tag} {t : Tag} {e : Option Nat} {off n : Nat}
    (h : s.tags.data = a ++ t :: b) (he : entryM s.kind t = some e)
    (hi : clampBound ((vals s.kind s.tags.data).length + 1) i ≤ (vals s.kind s.tags.data).length)
    (hoff : off = 0 ∧ n = entryNumber (nextOf 0 (ents s.kind a)) e ∨
      off = 1 ∧ n = entryNumber (nextOf 0 (ents s.kind a)) e + 1 ∧ vals s.kind b = []) :
    ∃ s' a' b' new, s.insertNext i loc (.tag (srcOf a.length (nextOf 0 (ents s.kind a)) t e)) off n = (s', none) ∧
      TagInserted s s' a' b' n new ∧ new.value = loc ∧ (vals s.kind a').length = (vals s.kind a).length + off ∧
      (i = ((vals s.kind a).length + off : Nat) → ∃ t, s'.tags.data[a'.length]? = some t ∧ bare t = bare new) ∧
      (i = ((vals s.kind a).length + off : Nat) → Numbered s s' ((vals s.kind a).length + off)) := by
  obtain ⟨a', b', h', hlen, hvals, hA, hB⟩ : ∃ a' b', s.tags.data = a' ++ b' ∧ a'.length = a.length + off ∧
      (vals s.kind a').length = (vals s.kind a).length + off ∧
      (off = 0 → a' = a ∧ b' = t :: b) ∧ (off = 1 → a' = a ++ [t] ∧ b' = b) := by
    rcases hoff with ⟨rfl, _⟩ | ⟨rfl, _⟩
    · exact ⟨a, t :: b, h, rfl, rfl, fun _ => ⟨rfl, rfl⟩, fun h => by cases h⟩
    · exact ⟨a ++ [t], b, by simp [h], by simp, by rw [vals_append, vals_cons_some he]; simp [vals],
        fun h => absurd h (by decide), fun _ => ⟨rfl, rfl⟩⟩
  simp only [insertNext]
  generalize hf : s.tagFormat (srcOf a.length (nextOf 0 (ents s.kind a)) t e) n none = f
  generalize hnew : newTag f.1 loc f.2 (srcOf a.length (nextOf 0 (ents s.kind a)) t e).tag.valid = new
  have hname : new.name = (s.tagFormat (srcOf a.length (nextOf 0 (ents s.kind a)) t e) n none).1 := by
    rw [hf, ← hnew]; rfl
  obtain ⟨n1, n2, ⟨e', n3⟩, n4⟩ := tagFormat_near h he _ _ _ hname
  obtain ⟨tags, tags', g1, g2, g3, g5, g6, g7, g4⟩ := insertTag_dedup s (start := i) h' n3 hi
  rw [show (srcOf a.length (nextOf 0 (ents s.kind a)) t e).idx + off = a'.length from hlen.symm, g1]
  refine ⟨_, a', b', new, g2, ⟨h', ⟨_, rfl⟩, ⟨_, n3⟩, g3, fun h => g5 (goodNames_cons.2 ⟨n4, h⟩),
    fun h => g6 (goodNames_cons.2 ⟨n4, h⟩), ?_⟩, by rw [← hnew]; rfl, hvals, fun h => g7 (by rw [h, hvals]), ?_⟩
  · have hne : Spec.sourceTags s.kind s.tags.data ≠ [] := sourceTags_ne h he
    refine ⟨by rw [← hnew]; exact ⟨rfl, rfl, rfl⟩, fun _ => ⟨t, ?_, by rw [← entryM_isSome, he]; rfl, ?_, ?_, ?_⟩,
      fun h => absurd h hne⟩
    · rcases hoff with ⟨h0, _⟩ | ⟨h0, _⟩
      · rw [(hA h0).2]; exact .inl rfl
      · rw [(hB h0).1]; exact .inr (by simp)
    · intro hnl
      rw [hname, tagFormat_name h he hnl]
    · apply adjustSep_aligned
      rw [← hnew, ← hf]
      rfl
    · rw [← hnew]; rfl
  intro hie hg hinc ns hns p hp
  rw [← hvals] at hie hp ⊢
  have hgn : GoodM s.kind (new :: s.tags.data) := by
    intro t' ht'
    rcases List.mem_cons.1 ht' with rfl | ht'
    · exact goodM_of n4 _ (List.mem_singleton.2 rfl)
    · exact hg _ ht'
  have g4 := g4 hie hgn
  have hee : e' = e.map (fun _ => n) := by
    cases e with
    | none => have := n1 rfl; rw [n3] at this; simpa using this
    | some m =>
      have := n2 m rfl (hg t (by rw [h]; simp) m he)
      rw [n3] at this; simpa using this
  have hpn : n = entryNumber (nextOf 0 (ents s.kind a')) e' := by
    rw [hee]
    rcases hoff with ⟨h0, hn⟩ | ⟨h0, hn, _⟩
    · rw [(hA h0).1, hn]; cases e <;> rfl
    · rw [(hB h0).1, hn, ents_append, ents_cons_some he, nextOf_append]; cases e <;> rfl
  have hentsb : off = 1 → ents s.kind b' = [] := by
    intro h0
    rcases hoff with ⟨h0', _⟩ | ⟨_, _, hb⟩
    · omega
    · rw [(hB h0).2]
      apply List.length_eq_zero_iff.1
      rw [ents_length, hb]; rfl
  have hsplit : ns = numberEntries 0 (ents s.kind a') ++ numberEntries (nextOf 0 (ents s.kind a')) (ents s.kind b') := by
    rw [hns, h', ents_append, numberEntries_append]
  have hklen : (numberEntries 0 (ents s.kind a')).length = (vals s.kind a').length := by
    rw [numberEntries_length, ents_length]
  have hpp : p = n := by
    rw [hp, hsplit, List.getElem?_append_right (by omega), hklen, Nat.sub_self]
    rcases hoff with ⟨h0, hn⟩ | ⟨h0, hn, hb⟩
    · rw [(hA h0).2, (hA h0).1, ents_cons_some he, hn]
      cases e <;> rfl
    · rw [hentsb h0, h', ents_append, hentsb h0, hpn, (hB h0).1, ents_append, ents_cons_some he, hee]
      rw [List.append_nil, nextOf_append]
      cases e with
      | none => rfl
      | some m => simp only [numberEntries, List.getElem?_nil, Option.getD_none, Option.map_some]; rw [hn]; rfl
  rw [hpp]
  rw [h', ents_append] at hinc
  have hroom := numbers_room hinc hpn (by
    intro x B' hx
    rcases hoff with ⟨h0, hn⟩ | ⟨h0, _⟩
    · rw [(hA h0).2, ents_cons_some he] at hx
      obtain ⟨rfl, _⟩ := List.cons.inj hx
      rw [(hA h0).1]
      cases e with
      | none => exact .inl ⟨rfl, hn⟩
      | some m => exact .inr ⟨m, rfl, by rw [hn]; exact Nat.le_refl _⟩
    · rw [hentsb h0] at hx; cases hx)
  simp only
  rw [g4, ← hpn, hroom, hsplit, List.take_left' hklen, List.drop_left' hklen]

omit [Uni] in
theorem insertPos_of_pyIndex {n k : Nat} {i : Int} (h : pyIndex n i = some k) : insertPos n i = k ∧ -(n : Int) ≤ i ∧ i < n := by
  unfold pyIndex at h
  unfold insertPos
  split at h
  · split at h
    · rename_i h1 h2
      rw [if_pos h1]
      simp only [Option.some.injEq] at h
      omega
    · cases h
  · split at h
    · rename_i h1 h2
      rw [if_neg h1]
      simp only [Option.some.injEq] at h
      omega
    · cases h

omit [Uni] in
theorem pyIndex_eq_none {n : Nat} {i : Int} (h : pyIndex n i = none) : i < -(n : Int) ∨ (n : Int) ≤ i := by
  unfold pyIndex at h
  split at h
  · split at h
    · cases h
    · omega
  · split at h
    · cases h
    · omega

omit [Uni] in
theorem entry_valid {d a b : List SourcelistEntry} {e : SourcelistEntry} {off : Nat} (h : d = a ++ e :: b)
    (hoff : off ≤ 1) :
    (match pyIndex d.length ((a.length + off : Nat) - 1 : Int) with
      | none => true
      | some p => ((d[p]?).map (·.valid)).getD true) =
    (((d.drop (a.length + off) ++ d.take (a.length + off)).getLast?).map (·.valid)).getD true := by
  have hl : d.length = a.length + b.length + 1 := by rw [h]; simp; omega
  by_cases h0 : a.length + off = 0
  · rw [h0]
    have h1 : pyIndex d.length ((0 : Nat) - 1 : Int) = some (d.length - 1) := by
      unfold pyIndex
      rw [if_neg (by omega), if_pos (by omega)]
      congr 1; omega
    rw [h1, List.take_zero, List.append_nil, List.drop_zero, List.getLast?_eq_getElem?]
  · have h1 : pyIndex d.length ((a.length + off : Nat) - 1 : Int) = some (a.length + off - 1) := by
      unfold pyIndex
      rw [if_pos (by omega), if_pos (by omega)]
      congr 1; omega
    have h2 : (d.drop (a.length + off) ++ d.take (a.length + off)).getLast? = d[a.length + off - 1]? := by
      rw [List.getLast?_append, List.getLast?_take, if_neg h0, List.getElem?_eq_getElem (by omega)]
      rfl
    rw [h1, h2]

theorem insertNext_spec (s : Sources) (i : Int) (loc : Str) {x : SourceItem} {k off : Nat}
    (hx : s.items[k]? = some x) (hoff : off = 0 ∨ off = 1 ∧ k + 1 = s.items.length)
    (hi : i = (k + off : Nat) ∨ i < 0) :
    (∃ s' a b new, s.insertNext i loc x off (itemNumber x + off) = (s', none) ∧
      TagInserted s s' a b (itemNumber x + off) new ∧ new.value = loc ∧ (vals s.kind a).length = k + off ∧
      (i = (k + off : Nat) → ∃ t, s'.tags.data[a.length]? = some t ∧ bare t = bare new) ∧
      (i = (k + off : Nat) → Numbered s s' (k + off))) ∨
    (∃ s' la lb l a b new, s.insertNext i loc x off (itemNumber x + off) = (s', none) ∧
      EntryInserted s s' la lb l a b new ∧ new.location = loc ∧
      (vals s.kind s.tags.data).length + (listLocations la).length + a.length = k + off) := by
  by_cases hk : k < (vals s.kind s.tags.data).length
  · obtain ⟨a, t, b, e, h1, h2, h3, rfl⟩ := items_get_tag hx hk
    refine .inl ?_
    have hlen : (vals s.kind s.tags.data).length = k + 1 + (vals s.kind b).length := by
      rw [h1, vals_append, vals_cons_some h2]; simp; omega
    have hnum : itemNumber (.tag (srcOf a.length (nextOf 0 (ents s.kind a)) t e)) =
        entryNumber (nextOf 0 (ents s.kind a)) e := by
      show number _ = _
      rw [number_srcOf h2]; cases e <;> rfl
    rw [hnum]
    rw [← h3]
    apply insertNext_tag s i loc h1 h2
    · unfold clampBound
      rcases hi with hi | hi
      · rw [if_pos (by omega), hi]; omega
      · rw [if_neg (by omega)]; omega
    · rcases hoff with h | ⟨h, hl⟩
      · subst h; exact .inl ⟨rfl, rfl⟩
      · subst h
        refine .inr ⟨rfl, rfl, ?_⟩
        rw [items_length, locations_eq, List.length_append] at hl
        apply List.length_eq_zero_iff.1
        omega
  · obtain ⟨la, l, lb, a, e, b, h1, h2, h3, rfl⟩ := items_get_entry hx (by omega)
    refine .inr ⟨_, la, lb, l, l.data.take (a.length + off), l.data.drop (a.length + off), ⟨loc, ⟨[], []⟩,
      match pyIndex l.data.length ((a.length + off : Nat) - 1 : Int) with
      | none => true
      | some p => ((l.data[p]?).map (·.valid)).getD true⟩, rfl,
      ⟨h1, by simp, ?_, rfl, entry_valid h2 (by omega)⟩, rfl, ?_⟩
    · rw [h1, Tags.modify_append]
      congr 2
    · rw [List.length_take, h2]
      have : off ≤ 1 := by omega
      simp only [List.length_append, List.length_cons]
      omega

/-- the position of an insertion -/
theorem insert_cases (s : Sources) (i : Int) (loc : Str) (hd : s.allowDuplicates = true ∨ loc ∉ s.locations) :
    -- below the first index
    (i < -(s.locations.length : Int) ∧ s.locations ≠ [] ∧ s.insert i loc = (s, some .indexError)) ∨
    -- a tag
    (∃ s' a b n new, s.insert i loc = (s', none) ∧ TagInserted s s' a b n new ∧ new.value = loc ∧
      (s.locations ≠ [] → -(s.locations.length : Int) ≤ i) ∧
      (vals s.kind a).length = insertPos s.locations.length i ∧
      (0 ≤ i → ∃ t, s'.tags.data[a.length]? = some t ∧ bare t = bare new) ∧
      (0 ≤ i → Numbered s s' (insertPos s.locations.length i))) ∨
    -- an entry
    (∃ s' la lb l a b new, s.insert i loc = (s', none) ∧ EntryInserted s s' la lb l a b new ∧ new.location = loc ∧
      (s.locations ≠ [] → -(s.locations.length : Int) ≤ i) ∧
      (vals s.kind s.tags.data).length + (listLocations la).length + a.length = insertPos s.locations.length i) := by
  have hdup : (!s.allowDuplicates && s.contains loc) = false := by
    rcases hd with hd | hd
    · simp [hd]
    · simp [Sources.contains, hd]
  unfold insert
  rw [hdup]
  simp only [Bool.false_eq_true, if_false]
  rw [items_length]
  generalize hN : s.locations.length = N
  have hNi : s.items.length = N := by rw [items_length, hN]
  have hnil : s.locations ≠ [] ↔ 0 < N := by rw [← hN, List.length_pos_iff]
  have hemp : s.items.isEmpty = decide (N = 0) := by
    rw [← hNi]; cases s.items <;> simp
  rw [hemp]
  by_cases h0 : N = 0
  · -- nothing there
    subst h0
    have hloc : s.locations = [] := List.length_eq_zero_iff.1 hN
    have hv : vals s.kind s.tags.data = [] ∧ listLocations s.lists = [] := by
      rw [locations_eq, List.append_eq_nil_iff] at hloc; exact hloc
    have hp0 : insertPos 0 i = 0 := by unfold insertPos; split <;> omega
    simp only [decide_true, Bool.not_true, Bool.false_eq_true, if_false]
    by_cases hl : s.lists = []
    · rw [hl]
      simp only [List.isEmpty_nil, Bool.not_true, Bool.false_eq_true, if_false]
      have hgt : s.getTags = [] := List.length_eq_zero_iff.1 (by rw [getTags_length, hv.1]; rfl)
      obtain ⟨h1, h2⟩ := initial_entry s 0 hgt
      generalize hnew : newTag (s.initial 0).2.1 loc (s.initial 0).2.2 s.lastValid = new
      have hh := h2 new (by rw [← hnew]; rfl)
      have hsplit : s.tags.data = s.tags.data.take (s.initial 0).1 ++ s.tags.data.drop (s.initial 0).1 := by simp
      have hva : vals s.kind (s.tags.data.take (s.initial 0).1) = [] ∧
          vals s.kind (s.tags.data.drop (s.initial 0).1) = [] := by
        have := hv.1
        rw [hsplit, vals_append, List.append_eq_nil_iff] at this
        exact this
      have hents : ∀ ts, vals s.kind ts = [] → ents s.kind ts = [] := by
        intro ts h; apply List.length_eq_zero_iff.1; rw [ents_length, h]; rfl
      obtain ⟨tags, g1, g2⟩ := insertTag_spec s new hsplit
      rw [List.length_take, Nat.min_eq_left h1] at g1
      have hgd : ∀ tags : Tags, tags.data.map bare = (s.tags.data.take (s.initial 0).1 ++ new ::
          s.tags.data.drop (s.initial 0).1).map bare → GoodNames s.kind s.tags.data → GoodNames s.kind tags.data := by
        intro tags hb hg
        rw [hsplit] at hg
        obtain ⟨q1, q2⟩ := goodNames_append.1 hg
        exact goodNames_of_bare hb (goodNames_append.2 ⟨q1, goodNames_cons.2 ⟨hh.2, q2⟩⟩)
      refine .inr (.inl ⟨_, _, _, 0, new, g1, ⟨hsplit, ⟨_, rfl⟩, ⟨_, hh.1⟩, apart_of_bare g2, hgd tags g2,
        fun _ => allRenumbered_of_bare g2, hnew ▸ initial_new s 0 loc hgt⟩, by rw [← hnew]; rfl,
        fun h => absurd hloc h, ?_, ?_, ?_⟩)
      · rw [hp0, hva.1]; rfl
      · intro _
        obtain ⟨u, q1, q2⟩ := get_of_bare g2.symm (j := (s.tags.data.take (s.initial 0).1).length) (t := new) (by simp)
        exact ⟨u, q1, q2.symm⟩
      · intro _ _ _ ns hns p hp
        rw [hents _ hv.1] at hns hp
        simp only [numberEntries] at hns
        subst hns
        rw [hp0] at *
        simp only [List.getElem?_nil, Option.getD_none, nextOf] at hp
        subst hp
        simp only
        rw [ents_of_bare g2, ents_append, hents _ hva.1, ents_cons_some hh.1, hents _ hva.2]
        split <;> rfl
    · have hl' : s.lists.isEmpty = false := by simpa using hl
      rw [hl']
      simp only [Bool.not_false, if_true]
      obtain ⟨la, l, hla⟩ : ∃ la l, s.lists = la ++ [l] := ⟨_, _, (List.dropLast_concat_getLast hl).symm⟩
      refine .inr (.inr ⟨_, la, [], l, l.data, [], ⟨loc, ⟨[], []⟩, true⟩, rfl, ⟨hla, by simp, ?_, rfl, ?_⟩, rfl,
        fun h => absurd hloc h, ?_⟩)
      · rw [hla]
        have : (la ++ [l]).length - 1 = la.length := by simp
        rw [this, Tags.modify_append]
      · have := hv.2
        rw [hla] at this
        simp only [listLocations, List.flatMap_append, List.append_eq_nil_iff, List.flatMap_cons, List.flatMap_nil,
          List.append_nil, List.map_eq_nil_iff] at this
        rw [this.2]; rfl
      · rw [hp0]
        have := hv.2
        rw [hla] at this
        simp only [listLocations, List.flatMap_append, List.append_eq_nil_iff, List.flatMap_cons, List.flatMap_nil,
          List.append_nil] at this
        rw [hv.1]
        simp only [listLocations, this.1]
        have := congrArg List.length this.2
        simpa using this
  · rw [show (!decide (N = 0)) = true by simp [h0]]
    simp only [if_true]
    have hne : s.locations ≠ [] := hnil.2 (by omega)
    by_cases hi : (N : Int) ≤ i
    · have hj : (if i > (N : Int) then (N : Int) else i) = N := by split <;> omega
      rw [hj]
      simp only [if_true]
      have hlast : s.items[N - 1]? = s.items.getLast? := by rw [List.getLast?_eq_getElem?, hNi]
      cases hx : s.items.getLast? with
      | none =>
        rw [List.getLast?_eq_none_iff] at hx
        rw [hx] at hNi; simp at hNi; omega
      | some x =>
        rw [hx] at hlast
        have hpos : insertPos N i = N - 1 + 1 := by unfold insertPos; rw [if_pos (by omega)]; omega
        simp only
        rw [hpos]
        rcases insertNext_spec s N loc hlast (off := 1) (.inr ⟨rfl, by omega⟩) (.inl (by omega)) with
          ⟨s', a, b, new, g1, g2, g3, g4, g6, g5⟩ | ⟨s', la, lb, l, a, b, new, g1, g2, g3, g4⟩
        · exact .inr (.inl ⟨s', a, b, _, new, g1, g2, g3, fun _ => by omega, g4, fun _ => g6 (by omega), fun _ => g5 (by omega)⟩)
        · exact .inr (.inr ⟨s', la, lb, l, a, b, new, g1, g2, g3, fun _ => by omega, g4⟩)
    · have hj : (if i > (N : Int) then (N : Int) else i) = i := by rw [if_neg (by omega)]
      rw [hj, if_neg (by omega)]
      unfold get
      rw [hNi]
      cases hp : pyIndex N i with
      | none =>
        have := pyIndex_eq_none hp
        exact .inl ⟨by omega, hne, rfl⟩
      | some k =>
        obtain ⟨e1, e2, e3⟩ := insertPos_of_pyIndex hp
        have hkN := pyIndex_lt hp
        have hx := List.getElem?_eq_getElem (l := s.items) (i := k) (by omega)
        simp only
        rw [hx, e1]
        simp only
        have hik : 0 ≤ i → i = (k + 0 : Nat) := by
          intro h; unfold pyIndex at hp; rw [if_pos h, if_pos (by omega)] at hp
          simp only [Option.some.injEq] at hp; omega
        rcases insertNext_spec s i loc hx (off := 0) (.inl rfl) (by
            by_cases h : 0 ≤ i
            · exact .inl (hik h)
            · exact .inr (by omega)) with
          ⟨s', a, b, new, g1, g2, g3, g4, g6, g5⟩ | ⟨s', la, lb, l, a, b, new, g1, g2, g3, g4⟩
        · exact .inr (.inl ⟨s', a, b, _, new, g1, g2, g3, fun _ => e2, g4, fun h => g6 (hik h), fun h => g5 (hik h)⟩)
        · exact .inr (.inr ⟨s', la, lb, l, a, b, new, g1, g2, g3, fun _ => e2, g4⟩)

end Specfile.Sources
