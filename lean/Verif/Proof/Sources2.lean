import Verif.Proof.Sources
/-
Sources: names and renumbering.
-/
namespace Specfile.Sources
open Py Regex Spec

variable [Uni]

/-! ### written names -/

/-- the two kinds of sources -/
def IsKind (k : Str) : Prop := k = s% "Source" ∨ k = s% "Patch"

omit [Uni] in
theorem kind_isKind (s : Sources) : IsKind s.kind := by
  unfold kind
  split
  · exact .inr rfl
  · exact .inl rfl

omit [Uni] in
theorem zeroPad_digits (d n : Nat) : ∀ c ∈ zeroPad d n, isAsciiDigit c = true := by
  intro c hc
  unfold zeroPad at hc
  rw [List.mem_append] at hc
  rcases hc with hc | hc
  · rw [List.eq_of_mem_replicate hc]; decide
  · exact natStr_digits n c hc

omit [Uni] in
theorem zeroPad_ne_nil (d n : Nat) : zeroPad d n ≠ [] := by
  unfold zeroPad
  intro h
  exact natStr_ne_nil n (List.append_eq_nil_iff.1 h).2

theorem decVal_zero (n : Nat) (s : Str) : decVal (List.replicate n '0' ++ s) = decVal s := by
  induction n with
  | zero => rfl
  | succ n ih =>
    rw [← ih]
    have h0 : Uni.decimalVal '0' = 0 := by rw [Uni.decimalVal_ascii '0' (by decide)]; decide
    simp [List.replicate_succ, decVal, h0]

theorem decVal_zeroPad (d n : Nat) : decVal (zeroPad d n) = n := by
  unfold zeroPad
  rw [decVal_zero, decVal_natStr]

omit [Uni] in
theorem digit_lower {c : Char} (h : isAsciiDigit c = true) : asciiLowerC c = c := by
  unfold asciiLowerC
  rw [if_neg]
  simp [isAsciiDigit, isAsciiUpper] at *
  omega

theorem capitalize_kind {k d : Str} (hk : IsKind k) (hd : ∀ c ∈ d, isAsciiDigit c = true) :
    Uni.capitalize (k ++ d) = k ++ d := by
  have hm : d.map asciiLowerC = d := by
    conv => rhs; rw [← List.map_id d]
    apply List.map_congr_left
    intro c hc
    exact digit_lower (hd c hc)
  have ha : ∀ c ∈ d, isAscii c = true := fun c hc => isAscii_of_digit (hd c hc)
  rcases hk with rfl | rfl
  · rw [show (['S', 'o', 'u', 'r', 'c', 'e'] : Str) ++ d = 'S' :: (s% "ource" ++ d) by rfl,
      Uni.capitalize_ascii _ _ (by decide) (by
        rw [List.all_append, Bool.and_eq_true, List.all_eq_true (l := d)]
        exact ⟨by decide, ha⟩), List.map_append, hm]
    rfl
  · rw [show (['P', 'a', 't', 'c', 'h'] : Str) ++ d = 'P' :: (s% "atch" ++ d) by rfl,
      Uni.capitalize_ascii _ _ (by decide) (by
        rw [List.all_append, Bool.and_eq_true, List.all_eq_true (l := d)]
        exact ⟨by decide, ha⟩), List.map_append, hm]
    rfl

omit [Uni] in
theorem kind_no_newline {k d : Str} (hk : IsKind k) (hd : ∀ c ∈ d, isAsciiDigit c = true) : '\n' ∉ k ++ d := by
  rw [List.mem_append]
  rintro (h | h)
  · rcases hk with rfl | rfl <;> revert h <;> decide
  · have := hd _ h; revert this; decide

theorem trailing_kind {k d : Str} (hk : IsKind k) (hd : ∀ c ∈ d, isAsciiDigit c = true) :
    trailingDigits (k ++ d) = d := by
  unfold trailingDigits
  rw [List.reverse_append, List.takeWhile_append_of_pos]
  · have : (k.reverse).takeWhile Uni.isDecimal = [] := by
      rcases hk with rfl | rfl
      · have : Uni.isDecimal 'e' = false := by rw [Uni.decimal_ascii _ (by decide)]; decide
        simp [this]
      · have : Uni.isDecimal 'h' = false := by rw [Uni.decimal_ascii _ (by decide)]; decide
        simp [this]
    rw [this, List.append_nil, List.reverse_reverse]
  · intro c hc
    exact isDecimal_of_asciiDigit (hd c (List.mem_reverse.1 hc))

theorem entryM_kind {k : Str} (hk : IsKind k) {t : Tag} (h : t.name = k) : entryM k t = some none := by
  unfold entryM Tags.normalizedName
  have := capitalize_kind (d := []) hk (by simp)
  rw [List.append_nil] at this
  rw [h, this, if_pos rfl]

theorem sourceEntry_digits {k d : Str} (hk : IsKind k) (hd : ∀ c ∈ d, isAsciiDigit c = true) (hne : d ≠ []) {t : Tag}
    (h : t.name = k ++ d) : sourceEntry k t = some (some (decVal d)) := by
  unfold sourceEntry
  rw [h, capitalize_kind hk hd, if_neg, if_pos, trailing_kind hk hd]
  · rw [Bool.and_eq_true, List.isPrefixOf_iff_prefix, List.drop_left]
    refine ⟨⟨d, rfl⟩, ?_⟩
    cases d with
    | nil => exact absurd rfl hne
    | cons c d => simpa using isDecimal_of_asciiDigit (hd c (by simp))
  · intro he
    exact hne (List.append_right_eq_self.1 he)

theorem entryM_digits {k d : Str} (hk : IsKind k) (hd : ∀ c ∈ d, isAsciiDigit c = true) (hne : d ≠ []) {t : Tag}
    (h : t.name = k ++ d) : entryM k t = some (some (decVal d)) := by
  rw [entryM_eq (by rw [h]; exact kind_no_newline hk hd), sourceEntry_digits hk hd hne h]

/-! ### renumbering -/

/-- the name after renumbering -/
def reName (kind : Str) (t : Tag) (n : Nat) : Str :=
  kind ++ if numberDigits ⟨0, t, none⟩ == 0 then [] else zeroPad (numberDigits ⟨0, t, none⟩) n

/-- a renumbered tag -/
def reTag (kind : Str) (t : Tag) (n : Nat) : Tag :=
  { t with name := reName kind t n, sep := adjustSep t.sep t.name.length (reName kind t n).length }

/-- renumbering of the tags that follow: `p` is the number before, `next` the number that would have been next -/
def dedupData (kind : Str) : Nat → Nat → List Tag → List Tag
  | _, _, [] => []
  | p, next, t :: ts =>
    match entryM kind t with
    | none => t :: dedupData kind p next ts
    | some none => t :: dedupData kind (if next = p then p + 1 else next) (next + 1) ts
    | some (some n) =>
      if n = p then reTag kind t (p + 1) :: dedupData kind (number ⟨0, reTag kind t (p + 1), none⟩) (n + 1) ts
      else t :: dedupData kind n (n + 1) ts

theorem detect_false {s : Sources} {a b : List Tag} {t : Tag} {n : Nat} (h : s.tags.data = a ++ t :: b)
    (ht : entryM s.kind t = some (some n)) : s.detectImplicit = false := by
  unfold detectImplicit
  rw [if_pos]
  rw [List.any_eq_true]
  refine ⟨srcOf (0 + a.length) (nextOf 0 (ents s.kind a)) t (some n), ?_, rfl⟩
  unfold getTags
  rw [h, tagLoop_append, tagLoop_cons_some ht]
  simp

omit [Uni] in
theorem modify_mid {α : Type} (a : List α) (x : α) (b : List α) (f : α → α) :
    (a ++ x :: b).modify a.length f = a ++ f x :: b := Tags.modify_append a x b f

theorem dedupLoop_eq (post : List Tag) : ∀ (s : Sources) (pre : List Tag) (ts0 : TagSource) (next : Nat),
    s.tags.data = pre ++ post →
    dedupLoop s ts0 (tagLoop s.kind next pre.length post) =
      { s with tags := { s.tags with data := pre ++ dedupData s.kind (number ts0) next post } } := by
  induction post with
  | nil =>
    intro s pre ts0 next h
    obtain ⟨⟨data, rem⟩, _, _, _, _, _⟩ := s
    simp only [List.append_nil] at h
    subst h
    simp [tagLoop, dedupLoop, dedupData]
  | cons t ts ih =>
    intro s pre ts0 next h
    have h' : s.tags.data = (pre ++ [t]) ++ ts := by simp [h]
    cases he : entryM s.kind t with
    | none =>
      rw [tagLoop_cons_none he]
      have := ih s (pre ++ [t]) ts0 next h'
      rw [List.length_append, List.length_singleton] at this
      rw [this]
      simp [dedupData, he]
    | some e =>
      rw [tagLoop_cons_some he, dedupLoop]
      have hnum := number_srcOf he pre.length next
      cases e with
      | none =>
        simp only at hnum
        have key := fun ts' => ih s (pre ++ [t]) ts' (next + 1) h'
        simp only [List.length_append, List.length_singleton] at key
        rw [hnum]
        by_cases hp : next = number ts0
        · rw [if_pos hp, if_pos (show (srcOf pre.length next t none).implicit.isSome = true by rfl)]
          simp only [nextOf]
          rw [key]
          have : number { srcOf pre.length next t none with implicit := some (number ts0 + 1) } = number ts0 + 1 := rfl
          rw [this]
          simp [dedupData, he, hp]
        · rw [if_neg hp]
          simp only [nextOf]
          rw [key, hnum]
          simp [dedupData, he, hp]
      | some n =>
        simp only at hnum
        rw [hnum]
        by_cases hp : n = number ts0
        · rw [if_pos hp, if_neg (show ¬ (srcOf pre.length next t (some n)).implicit.isSome = true by
            simp [srcOf])]
          have hf : s.tagFormat (srcOf pre.length next t (some n)) (number ts0 + 1) none =
              (reName s.kind t (number ts0 + 1), adjustSep t.sep t.name.length (reName s.kind t (number ts0 + 1)).length) := by
            unfold tagFormat
            rw [detect_false h he]
            rfl
          simp only [hf]
          have hren : s.rename (srcOf pre.length next t (some n)).idx
              (reName s.kind t (number ts0 + 1), adjustSep t.sep t.name.length (reName s.kind t (number ts0 + 1)).length) =
              { s with tags := { s.tags with data := pre ++ reTag s.kind t (number ts0 + 1) :: ts } } := by
            unfold rename
            rw [h]
            simp only [srcOf]
            rw [modify_mid]
            rfl
          rw [hren]
          have key := ih { s with tags := { s.tags with data := pre ++ reTag s.kind t (number ts0 + 1) :: ts } }
            (pre ++ [reTag s.kind t (number ts0 + 1)])
          simp only [List.length_append, List.length_singleton, List.append_assoc, List.singleton_append,
            forall_const, nextOf] at key ⊢
          have hk : kind { s with tags := { s.tags with data := pre ++ reTag s.kind t (number ts0 + 1) :: ts } } = s.kind := rfl
          rw [hk] at key
          rw [key]
          simp only [dedupData, he, hp, if_true]
          rfl
        · rw [if_neg hp]
          have key := fun ts' => ih s (pre ++ [t]) ts' (n + 1) h'
          simp only [List.length_append, List.length_singleton] at key
          simp only [nextOf]
          rw [key, hnum]
          simp [dedupData, he, hp]

/-- the number of an entry -/
def entryNumber (next : Nat) : Option Nat → Nat
  | none => next
  | some n => n

/-- the sources with other tags -/
def putData (s : Sources) (data : List Tag) : Sources := { s with tags := { s.tags with data := data } }

/-- what renumbering from a position on does -/
theorem dedup_spec (s : Sources) (start : Int) :
    (s.getTags = [] ∧ s.dedup start = (s, none)) ∨
    (s.getTags ≠ [] ∧ clampBound s.getTags.length start = s.getTags.length ∧ s.dedup start = (s, some .indexError)) ∨
    (∃ a t b e, s.tags.data = a ++ t :: b ∧ entryM s.kind t = some e ∧
      (vals s.kind a).length = clampBound s.getTags.length start ∧
      s.dedup start = (putData s (a ++ t :: dedupData s.kind
        (entryNumber (nextOf 0 (ents s.kind a)) e) (nextOf (nextOf 0 (ents s.kind a)) [e]) b), none)) := by
  unfold dedup
  simp only
  cases hg : s.getTags with
  | nil => exact .inl ⟨rfl, rfl⟩
  | cons x xs =>
    refine .inr ?_
    rw [← hg]
    have hne : s.getTags.isEmpty = false := by rw [hg]; rfl
    rw [hne]
    simp only [Bool.false_eq_true, if_false]
    generalize hk : clampBound s.getTags.length start = k
    have hle : k ≤ s.getTags.length := by
      rw [← hk]; unfold clampBound; split <;> omega
    cases hd : s.getTags.drop k with
    | nil =>
      refine .inl ⟨by rw [hg]; simp, ?_, rfl⟩
      rw [List.drop_eq_nil_iff] at hd
      omega
    | cons ts rest =>
      refine .inr ?_
      have hget : s.getTags[k]? = some ts := by
        have := congrArg (fun l => l[0]?) hd
        simpa using this
      obtain ⟨a, t, b, e, h1, h2, h3, h4⟩ := tagLoop_get hget
      refine ⟨a, t, b, e, h1, h2, h3, ?_⟩
      have hrest : rest = tagLoop s.kind (nextOf (nextOf 0 (ents s.kind a)) [e]) (a ++ [t]).length b := by
        have hlen : (tagLoop s.kind 0 0 a).length = k := by
          have := congrArg List.length (tagLoop_numbers s.kind 0 0 a).2
          rw [List.length_map] at this
          omega
        unfold getTags at hd
        rw [h1, tagLoop_append, tagLoop_cons_some h2, ← hlen, List.drop_left] at hd
        simp only [List.cons.injEq] at hd
        rw [← hd.2]
        simp
      simp only
      rw [hrest, dedupLoop_eq b s (a ++ [t]) ts _ (by simp [h1])]
      have hnum : number ts = entryNumber (nextOf 0 (ents s.kind a)) e := by
        rw [h4, number_srcOf h2]; cases e <;> rfl
      rw [hnum]
      simp [putData]

theorem reTag_source {k : Str} (hk : IsKind k) (t : Tag) (n : Nat) : ∃ e, entryM k (reTag k t n) = some e := by
  by_cases h : (numberDigits ⟨0, t, none⟩ == 0) = true
  · exact ⟨none, entryM_kind hk (by simp [reTag, reName, h])⟩
  · exact ⟨_, entryM_digits (d := zeroPad (numberDigits ⟨0, t, none⟩) n) hk (zeroPad_digits _ _) (zeroPad_ne_nil _ _)
      (by simp only [reTag, reName]; rw [if_neg h])⟩

theorem dedupData_vals {k : Str} (hk : IsKind k) (ts : List Tag) : ∀ (p next : Nat),
    vals k (dedupData k p next ts) = vals k ts := by
  induction ts with
  | nil => intros; rfl
  | cons t ts ih =>
    intro p next
    unfold dedupData
    split
    · rename_i h; rw [vals_cons_none h, vals_cons_none h, ih]
    · rename_i h; rw [vals_cons_some h, vals_cons_some h, ih]
    · rename_i n h
      split
      · obtain ⟨e, he⟩ := reTag_source hk t (p + 1)
        rw [vals_cons_some he, vals_cons_some h, ih]
        rfl
      · rw [vals_cons_some h, vals_cons_some h, ih]

/-- renumbering does not change locations, other tags, or anything but names and separators -/
theorem dedup_locations (s : Sources) (start : Int) :
    (s.dedup start).1.locations = s.locations ∧ (s.dedup start).1.lists = s.lists ∧
    (s.dedup start).1.kind = s.kind := by
  rcases dedup_spec s start with ⟨_, h⟩ | ⟨_, _, h⟩ | ⟨a, t, b, e, h1, h2, h3, h⟩
  · rw [h]; exact ⟨rfl, rfl, rfl⟩
  · rw [h]; exact ⟨rfl, rfl, rfl⟩
  · rw [h]
    refine ⟨?_, rfl, rfl⟩
    rw [locations_eq, locations_eq, h1]
    show vals s.kind (a ++ t :: _) ++ _ = _
    rw [vals_append, vals_cons_some h2, dedupData_vals (kind_isKind s), vals_append, vals_cons_some h2]
    rfl

/-! ### numbers -/

/-- renumbering of entries -/
def dedupA : Nat → Nat → List (Option Nat) → List (Option Nat)
  | _, _, [] => []
  | p, next, none :: es => none :: dedupA (if next = p then p + 1 else next) (next + 1) es
  | p, _, some n :: es => if n = p then some (p + 1) :: dedupA (p + 1) (n + 1) es else some n :: dedupA n (n + 1) es

/-- the number is at the end of the name -/
def GoodM (kind : Str) (ts : List Tag) : Prop :=
  ∀ t ∈ ts, ∀ n, entryM kind t = some (some n) → numberDigits ⟨0, t, none⟩ ≠ 0

theorem goodM_of {kind : Str} {ts : List Tag} (h : GoodNames kind ts) : GoodM kind ts := by
  intro t ht n hn
  obtain ⟨h1, h2⟩ := h t ht
  rw [entryM_eq h1] at hn
  have h2 := h2 n hn
  unfold numberDigits
  simp only [extractNumber_eq h1, if_neg h2]
  split
  · intro h; exact h2 (List.length_eq_zero_iff.1 h)
  · simp

theorem reTag_entry {k : Str} (hk : IsKind k) {t : Tag} (n : Nat) (h : numberDigits ⟨0, t, none⟩ ≠ 0) :
    entryM k (reTag k t n) = some (some n) ∧ number ⟨0, reTag k t n, none⟩ = n := by
  have hb : ¬ (numberDigits ⟨0, t, none⟩ == 0) = true := by simpa using h
  have he := entryM_digits (d := zeroPad (numberDigits ⟨0, t, none⟩) n) (t := reTag k t n) hk (zeroPad_digits _ _)
    (zeroPad_ne_nil _ _) (by simp only [reTag, reName]; rw [if_neg hb])
  rw [decVal_zeroPad] at he
  refine ⟨he, ?_⟩
  have := number_srcOf he 0 0
  simpa [srcOf] using this

theorem dedupData_ents {k : Str} (hk : IsKind k) (ts : List Tag) : ∀ (p next : Nat), GoodM k ts →
    ents k (dedupData k p next ts) = dedupA p next (ents k ts) := by
  induction ts with
  | nil => intros; rfl
  | cons t ts ih =>
    intro p next hg
    have ih := fun p next => ih p next (fun t ht => hg t (.tail _ ht))
    unfold dedupData
    split
    · rename_i h; rw [ents_cons_none h, ents_cons_none h, ih]
    · rename_i h; rw [ents_cons_some h, ents_cons_some h, ih]; rfl
    · rename_i n h
      rw [ents_cons_some h, dedupA]
      split
      · obtain ⟨he, hn⟩ := reTag_entry hk (p + 1) (hg t (.head _) n h)
        rw [ents_cons_some he, ih, hn]
      · rw [ents_cons_some h, ih]

/-- strictly increasing from `next` on -/
def Inc : Nat → List (Option Nat) → Prop
  | _, [] => True
  | next, none :: es => Inc (next + 1) es
  | next, some n :: es => next ≤ n ∧ Inc (n + 1) es

omit [Uni] in
theorem inc_iff (next : Nat) (es : List (Option Nat)) :
    Inc next es ↔ (numberEntries next es).Pairwise (· < ·) ∧ ∀ n ∈ numberEntries next es, next ≤ n := by
  induction es generalizing next with
  | nil => simp [Inc, numberEntries]
  | cons e es ih =>
    cases e with
    | none =>
      simp only [Inc, numberEntries, List.pairwise_cons, List.mem_cons, ih]
      constructor
      · rintro ⟨h1, h2⟩
        refine ⟨⟨fun n hn => h2 n hn, h1⟩, ?_⟩
        rintro n (rfl | hn)
        · omega
        · have := h2 n hn; omega
      · rintro ⟨⟨h1, h2⟩, h3⟩
        exact ⟨h2, fun n hn => h1 n hn⟩
    | some m =>
      simp only [Inc, numberEntries, List.pairwise_cons, List.mem_cons, ih]
      constructor
      · rintro ⟨h0, h1, h2⟩
        refine ⟨⟨fun n hn => h2 n hn, h1⟩, ?_⟩
        rintro n (rfl | hn)
        · exact h0
        · have := h2 n hn; omega
      · rintro ⟨⟨h1, h2⟩, h3⟩
        exact ⟨h3 m (.inl rfl), h2, fun n hn => h1 n hn⟩

omit [Uni] in
theorem inc_append {next : Nat} {a b : List (Option Nat)} :
    Inc next (a ++ b) ↔ Inc next a ∧ Inc (nextOf next a) b := by
  induction a generalizing next with
  | nil => simp [Inc, nextOf]
  | cons e es ih => cases e <;> simp [Inc, nextOf, ih, and_assoc]

omit [Uni] in
/-- renumbering makes room for the number before -/
theorem dedupA_numbers (es : List (Option Nat)) : ∀ (p o next : Nat), (o = p ∨ o = p + 1) → (next = p ∨ next = p + 1) →
    o ≤ next → Inc o es →
    numberEntries (p + 1) (dedupA p next es) = makeRoom p (numberEntries o es) := by
  induction es with
  | nil => intros; rfl
  | cons e es ih =>
    intro p o next ho hn hon hi
    cases e with
    | none =>
      have hq : (if next = p then p + 1 else next) = p + 1 := by split <;> omega
      simp only [dedupA, numberEntries, makeRoom, hq]
      simp only [Inc] at hi
      by_cases h : o ≤ p
      · rw [if_pos h, ih (p + 1) (o + 1) (next + 1) (by omega) (by omega) (by omega) hi]
      · have e1 : o = p + 1 := by omega
        have e2 : next = p + 1 := by omega
        subst e1 e2
        rw [if_neg h, ih (p + 1) (p + 2) (p + 2) (by omega) (by omega) (by omega) hi]
    | some n =>
      simp only [Inc] at hi
      simp only [dedupA, numberEntries, makeRoom]
      by_cases h : n = p
      · subst h
        rw [if_pos rfl, if_pos (Nat.le_refl _)]
        simp only [numberEntries]
        rw [ih (n + 1) (n + 1) (n + 1) (by omega) (by omega) (by omega) hi.2]
      · rw [if_neg h, if_neg (by omega)]
        simp only [numberEntries]
        rw [ih n (n + 1) (n + 1) (by omega) (by omega) (by omega) hi.2]

omit [Uni] in
theorem makeRoom_inc (ns : List Nat) : ∀ p, ns.Pairwise (· < ·) → (∀ n ∈ ns, p ≤ n) →
    (makeRoom p ns).Pairwise (· < ·) ∧ (∀ n ∈ makeRoom p ns, p < n) := by
  induction ns with
  | nil => intros; simp [makeRoom]
  | cons m ms ih =>
    intro p hp hge
    rw [List.pairwise_cons] at hp
    have hm := hge m (.head _)
    unfold makeRoom
    split
    · obtain ⟨h1, h2⟩ := ih (p + 1) hp.2 (fun n hn => by have := hp.1 n hn; omega)
      refine ⟨List.pairwise_cons.2 ⟨h2, h1⟩, ?_⟩
      intro n hn
      rcases List.mem_cons.1 hn with rfl | hn
      · omega
      · have := h2 n hn; omega
    · obtain ⟨h1, h2⟩ := ih m hp.2 (fun n hn => by have := hp.1 n hn; omega)
      refine ⟨List.pairwise_cons.2 ⟨h2, h1⟩, ?_⟩
      intro n hn
      rcases List.mem_cons.1 hn with rfl | hn
      · omega
      · have := h2 n hn; omega

end Specfile.Sources
