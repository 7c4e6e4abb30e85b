import Verif.Spec.Changelog
import Verif.Proof.Sections2
import Verif.Py.Lemmas
import Verif.Proof.Tags5
/-
Reading, writing and deleting changelog entries.
-/
namespace Specfile.Changelog
open Py Spec

theorem isBlank_iff {l : Str} : isBlank l = true ↔ BlankLine l := by simp [isBlank, BlankLine]

theorem isBlank_flatten {c : List Str} : isBlank c.flatten = true ↔ ∀ l ∈ c, BlankLine l := by
  simp only [isBlank, List.all_eq_true, List.mem_flatten, BlankLine]
  constructor
  · intro h l hl x hx; exact h x ⟨l, hl, hx⟩
  · rintro h x ⟨l, hl, hx⟩; exact h l hl x hx

theorem star_iff {l : Str} : startsWith l ['*'] = true ↔ StarLine l := Sections.startsWith_iff_head

theorem mkEntry_lines (h : Str) (c : List Str) : logLines (mkEntry h c) = h :: c := by
  simp only [logLines, mkEntry]
  rw [← List.reverse_append, List.takeWhile_append_dropWhile, List.reverse_reverse]

theorem mkEntry_of {h : Str} {c f : List Str} (hc : ∀ l ∈ c.getLast?, ¬ BlankLine l) (hf : ∀ l ∈ f, BlankLine l) :
    mkEntry h (c ++ f) = ⟨h, c, f⟩ := by
  have key : ∀ (r s : List Str), (∀ l ∈ r, BlankLine l) → (∀ l ∈ s.head?, ¬ BlankLine l) →
      (r ++ s).takeWhile isBlank = r ∧ (r ++ s).dropWhile isBlank = s := by
    intro r s hr hs
    induction r with
    | nil =>
      cases s with
      | nil => simp
      | cons x xs =>
        have : isBlank x = false := by
          have := hs x (by simp)
          rw [← isBlank_iff] at this
          simpa using this
        simp [this]
    | cons x r ih =>
      have := isBlank_iff.mpr (hr x (by simp))
      have := ih (fun l hl => hr l (by simp [hl]))
      simp_all
  have := key f.reverse c.reverse (by simpa using hf) (by simpa using hc)
  simp [mkEntry, this.1, this.2]

/-- the state of the loop -/
structure Inv (cur : Option (Str × List Str)) (data : List ChangelogEntry) (pred : List Str) : Prop where
  ipred : ∀ l ∈ pred, ¬ StarLine l
  idata : ∀ e ∈ data, GoodLogEntry e ∧ e.content ≠ []
  inone : cur = none → data = []
  isome : ∀ h c, cur = some (h, c) → StarLine h ∧ ∀ a l b, c = a ++ l :: b → StarLine l → ∀ x ∈ a, BlankLine x

def curLines : Option (Str × List Str) → List Str
  | none => []
  | some (h, c) => h :: c

theorem good_mkEntry {h : Str} {c : List Str} (hh : StarLine h)
    (hc : ∀ a l b, c = a ++ l :: b → StarLine l → ∀ x ∈ a, BlankLine x) : GoodLogEntry (mkEntry h c) := by
  have e := mkEntry_lines h c
  simp only [logLines, List.cons.injEq] at e
  refine ⟨hh, ?_, ?_, ?_⟩
  · intro a l b he hl
    apply hc a l (b ++ (mkEntry h c).following) _ hl
    rw [← List.cons_append, ← List.append_assoc, ← he, e.2]
  · intro l hl
    simp only [mkEntry, List.getLast?_reverse] at hl
    have := List.head?_dropWhile_not isBlank c.reverse
    rw [hl] at this
    rw [← isBlank_iff]
    simpa using this
  · intro l hl
    simp only [mkEntry, List.mem_reverse] at hl
    exact isBlank_iff.mp (List.all_eq_true.mp List.all_takeWhile l hl)

theorem content_ne {h : Str} {c : List Str} (hb : ¬ ∀ l ∈ c, BlankLine l) : (mkEntry h c).content ≠ [] := by
  intro he
  apply hb
  have e := mkEntry_lines h c
  simp only [logLines, List.cons.injEq, he, List.nil_append] at e
  intro l hl
  rw [← e.2] at hl
  simp only [mkEntry, List.mem_reverse] at hl
  exact isBlank_iff.mp (List.all_eq_true.mp List.all_takeWhile l hl)

theorem parseLoop_good {ls : List Str} {cur data pred} (hi : Inv cur data pred) :
    GoodChangelog (parseLoop cur data pred ls) ∧
    changelogLines (parseLoop cur data pred ls) =
      pred ++ (data.reverse.map logLines).flatten ++ curLines cur ++ ls := by
  induction ls generalizing cur data pred with
  | nil =>
    cases cur with
    | none =>
      have := hi.inone rfl
      subst this
      exact ⟨⟨hi.ipred, by simp [parseLoop], by simp [parseLoop]⟩, by simp [parseLoop, changelogLines, curLines]⟩
    | some x =>
      obtain ⟨h, c⟩ := x
      obtain ⟨h1, h2⟩ := hi.isome h c rfl
      refine ⟨⟨hi.ipred, ?_, ?_⟩, ?_⟩
      · intro e he
        simp only [parseLoop, List.mem_cons] at he
        rcases he with rfl | he
        · exact good_mkEntry h1 h2
        · exact (hi.idata e he).1
      · intro e he
        simp only [parseLoop, List.tail_cons] at he
        exact (hi.idata e he).2
      · simp [parseLoop, changelogLines, curLines, mkEntry_lines]
  | cons l ls ih =>
    unfold parseLoop
    by_cases hs : StarLine l
    · rw [if_pos (star_iff.mpr hs)]
      cases cur with
      | none =>
        have hd := hi.inone rfl
        have := ih (cur := some (l, [])) (data := data) (pred := pred) ⟨hi.ipred, hi.idata, by simp, by
          intro h c hc
          simp only [Option.some.injEq, Prod.mk.injEq] at hc
          obtain ⟨rfl, rfl⟩ := hc
          exact ⟨hs, by simp⟩⟩
        refine ⟨this.1, ?_⟩
        rw [this.2]; simp [curLines]
      | some x =>
        obtain ⟨h, c⟩ := x
        obtain ⟨h1, h2⟩ := hi.isome h c rfl
        simp only
        by_cases hb : ∀ l ∈ c, BlankLine l
        · rw [if_neg (by rw [isBlank_flatten.mpr hb]; simp)]
          have := ih (cur := some (h, c ++ [l])) (data := data) (pred := pred) ⟨hi.ipred, hi.idata, by simp, by
            intro h' c' hc
            simp only [Option.some.injEq, Prod.mk.injEq] at hc
            obtain ⟨rfl, rfl⟩ := hc
            refine ⟨h1, ?_⟩
            intro a l' b he hl' x hx
            have : x ∈ c := by
              rcases List.eq_nil_or_concat b with rfl | ⟨b', y, rfl⟩
              · rw [List.append_eq_append_iff] at he
                rcases he with ⟨u, e1, e2⟩ | ⟨u, e1, e2⟩
                · cases u with
                  | nil => simp at e1; rw [← e1]; exact hx
                  | cons z u => simp at e2
                · rw [e1]; simp [hx]
              · rw [List.concat_eq_append, ← List.cons_append, ← List.append_assoc] at he
                have := List.append_inj_left' he rfl
                rw [this]; simp [hx]
            exact hb x this⟩
          refine ⟨this.1, ?_⟩
          rw [this.2]; simp [curLines]
        · rw [if_pos (by
            have : isBlank c.flatten = false := by
              rw [← Bool.not_eq_true, isBlank_flatten]; exact hb
            simp [this])]
          have := ih (cur := some (l, [])) (data := mkEntry h c :: data) (pred := pred) ⟨hi.ipred, by
            intro e he
            rcases List.mem_cons.mp he with rfl | he
            · exact ⟨good_mkEntry h1 h2, content_ne hb⟩
            · exact hi.idata e he, by simp, by
            intro h c hc
            simp only [Option.some.injEq, Prod.mk.injEq] at hc
            obtain ⟨rfl, rfl⟩ := hc
            exact ⟨hs, by simp⟩⟩
          refine ⟨this.1, ?_⟩
          rw [this.2]; simp [curLines, mkEntry_lines]
    · rw [if_neg (by rw [star_iff]; exact hs)]
      cases cur with
      | none =>
        have hd := hi.inone rfl
        have := ih (cur := none) (data := data) (pred := pred ++ [l]) ⟨by
          intro x hx
          rcases List.mem_append.mp hx with hx | hx
          · exact hi.ipred x hx
          · simp only [List.mem_singleton] at hx; subst hx; exact hs, hi.idata, fun _ => hd, by simp⟩
        refine ⟨this.1, ?_⟩
        rw [this.2, hd]; simp [curLines]
      | some x =>
        obtain ⟨h, c⟩ := x
        obtain ⟨h1, h2⟩ := hi.isome h c rfl
        have := ih (cur := some (h, c ++ [l])) (data := data) (pred := pred) ⟨hi.ipred, hi.idata, by simp, by
          intro h' c' hc
          simp only [Option.some.injEq, Prod.mk.injEq] at hc
          obtain ⟨rfl, rfl⟩ := hc
          refine ⟨h1, ?_⟩
          intro a l' b he hl'
          rcases List.eq_nil_or_concat b with rfl | ⟨b', y, rfl⟩
          · have e2 := List.append_inj_right' he rfl
            simp only [List.cons.injEq, and_true] at e2
            rw [← e2] at hl'
            exact absurd hl' hs
          · rw [List.concat_eq_append, ← List.cons_append, ← List.append_assoc] at he
            have := List.append_inj_left' he rfl
            exact h2 a l' b' this hl'⟩
        refine ⟨this.1, ?_⟩
        rw [this.2]; simp [curLines]

theorem raw_eq (c : Changelog) : raw c = changelogLines c := rfl

/-- lines that belong to the current entry -/
theorem absorb {h : Str} {a b rest : List Str} {data pred}
    (hs : ∀ x l y, a ++ b = x ++ l :: y → StarLine l → ∀ z ∈ x, BlankLine z) :
    parseLoop (some (h, a)) data pred (b ++ rest) = parseLoop (some (h, a ++ b)) data pred rest := by
  induction b generalizing a with
  | nil => simp
  | cons l b ih =>
    rw [List.cons_append]
    conv => lhs; unfold parseLoop
    have e : a ++ l :: b = a ++ [l] ++ b := by simp
    by_cases hl : StarLine l
    · rw [if_pos (star_iff.mpr hl)]
      simp only
      rw [if_neg (by
        rw [isBlank_flatten.mpr (hs a l b rfl hl)]; simp)]
      rw [ih (by rw [← e]; exact hs), ← e]
    · rw [if_neg (by rw [star_iff]; exact hl)]
      simp only
      rw [ih (by rw [← e]; exact hs), ← e]

theorem absorb_pred {a rest : List Str} {pred} (hs : ∀ l ∈ a, ¬ StarLine l) :
    parseLoop none [] pred (a ++ rest) = parseLoop none [] (pred ++ a) rest := by
  induction a generalizing pred with
  | nil => simp
  | cons l a ih =>
    rw [List.cons_append]
    conv => lhs; unfold parseLoop
    rw [if_neg (by rw [star_iff]; exact hs l (by simp))]
    simp only
    rw [ih (fun x hx => hs x (by simp [hx]))]
    simp

theorem entry_split {e : ChangelogEntry} (h : GoodLogEntry e) :
    ∀ x l y, e.content ++ e.following = x ++ l :: y → StarLine l → ∀ z ∈ x, BlankLine z := by
  intro x l y he hl z hz
  rw [List.append_eq_append_iff] at he
  rcases he with ⟨u, e1, e2⟩ | ⟨u, e1, e2⟩
  · exfalso
    have hb := h.following l (by rw [e2]; simp)
    cases l with
    | nil => simp [StarLine] at hl
    | cons c cs =>
      simp only [StarLine, List.head?_cons, Option.some.injEq] at hl
      subst hl
      exact absurd (hb '*' (by simp)) (by decide)
  · cases u with
    | nil =>
      exfalso
      simp only [List.nil_append] at e2
      have hb := h.following l (by rw [← e2]; simp)
      cases l with
      | nil => simp [StarLine] at hl
      | cons c cs =>
        simp only [StarLine, List.head?_cons, Option.some.injEq] at hl
        subst hl
        exact absurd (hb '*' (by simp)) (by decide)
    | cons w u =>
      simp only [List.cons_append, List.cons.injEq] at e2
      obtain ⟨rfl, _⟩ := e2
      exact h.content x l u e1 hl z hz

/-- the entries with the current one -/
def closed (cur : Option (Str × List Str)) (data : List ChangelogEntry) : List ChangelogEntry :=
  match cur with
  | none => data
  | some (h, c) => mkEntry h c :: data

/-- entries, the newest one first -/
theorem parse_entries {es : List ChangelogEntry} (hg : ∀ e ∈ es, GoodLogEntry e)
    (hc : ∀ e ∈ es.dropLast, e.content ≠ []) {cur : Option (Str × List Str)} {data pred}
    (hcur : ∀ h c, cur = some (h, c) → ¬ ∀ l ∈ c, BlankLine l) (hne : es ≠ []) :
    parseLoop cur data pred (es.map logLines).flatten =
      ⟨es.reverse ++ closed cur data, pred⟩ := by
  induction es generalizing cur data with
  | nil => exact absurd rfl hne
  | cons e es ih =>
    have hge := hg e (by simp)
    rw [List.map_cons, List.flatten_cons]
    simp only [logLines, List.cons_append]
    -- the header
    have step : ∀ rest, parseLoop cur data pred (e.header :: rest) =
        parseLoop (some (e.header, [])) (closed cur data) pred rest := by
      intro rest
      conv => lhs; unfold parseLoop
      rw [if_pos (star_iff.mpr hge.header)]
      cases cur with
      | none => rfl
      | some x =>
        obtain ⟨h, c⟩ := x
        simp only
        rw [if_pos (by
          have := hcur h c rfl
          rw [← isBlank_flatten] at this
          simp [this])]
        rfl
    rw [step, absorb (a := []) (by rw [List.nil_append]; exact entry_split hge), List.nil_append]
    cases es with
    | nil =>
      simp only [List.map_nil, List.flatten_nil]
      unfold parseLoop
      simp only
      rw [mkEntry_of hge.contentLast hge.following]
      simp
    | cons e2 es =>
      have hce := hc e (by simp)
      have := ih (cur := some (e.header, e.content ++ e.following)) (data := closed cur data) (fun x hx => hg x (by simp [hx]))
        (fun x hx => hc x (by rw [List.dropLast_cons_cons]; simp [hx])) (by
          intro h c he hb
          simp only [Option.some.injEq, Prod.mk.injEq] at he
          obtain ⟨rfl, rfl⟩ := he
          cases hl : e.content.getLast? with
          | none => rw [List.getLast?_eq_none_iff] at hl; exact hce hl
          | some x => exact hge.contentLast x hl (hb x (by simp [List.mem_of_getLast? hl]))) (by simp)
      rw [this]
      simp [closed, mkEntry_of hge.contentLast hge.following]

theorem parse_good {c : Changelog} (h : GoodChangelog c) : parse (changelogLines c) = c := by
  unfold parse changelogLines
  rw [absorb_pred h.predecessor, List.nil_append]
  by_cases hne : c.data = []
  · obtain ⟨d, p⟩ := c
    simp only at hne
    subst hne
    simp [parseLoop]
  · have := parse_entries (es := c.data.reverse) (by simpa using h.entries) (by
      intro e he
      rw [List.dropLast_reverse] at he
      simp only [List.mem_reverse] at he
      exact h.content e he) (cur := none) (data := []) (pred := c.predecessor) (by simp) (by simpa using hne)
    rw [this]
    simp [closed]

theorem parse_iff {lines : List Str} {c : Changelog} :
    parse lines = c ↔ GoodChangelog c ∧ changelogLines c = lines := by
  constructor
  · rintro rfl
    have := parseLoop_good (ls := lines) (cur := none) (data := []) (pred := []) ⟨by simp, by simp, fun _ => rfl, by simp⟩
    exact ⟨this.1, by unfold parse; rw [this.2]; simp [curLines]⟩
  · rintro ⟨h, rfl⟩; exact parse_good h

/-! ### deleting -/

/-- what is left of the lines of an entry that is deleted -/
theorem delete_nat {c : Changelog} {k : Nat} {e : ChangelogEntry} (hk : c.data[k]? = some e) :
    ∃ c', delete c k = (c', none) ∧
      c'.data.take k = c.data.take k ∧
      (c'.data.drop k).map (fun x => (x.header, x.content)) = (c.data.drop (k + 1)).map (fun x => (x.header, x.content)) ∧
      c'.predecessor ++ ((c'.data.drop k).reverse.map logLines).flatten =
        c.predecessor ++ ((c.data.drop (k + 1)).reverse.map logLines).flatten ++ e.following.drop 1 := by
  obtain ⟨hlt, he⟩ := List.getElem?_eq_some_iff.mp hk
  have hsplit : c.data = c.data.take k ++ e :: c.data.drop (k + 1) := by
    rw [← he]; simp
  have hl : (c.data.take k).length = k := by simp; omega
  generalize ha : c.data.take k = a at hsplit hl
  generalize hb : c.data.drop (k + 1) = b at hsplit
  have her : c.data.eraseIdx k = a ++ b := by
    rw [hsplit, List.eraseIdx_append_of_length_le (by omega)]
    simp [hl]
  unfold delete
  rw [pyIndex_ofNat hlt]
  simp only [hk, Option.map_some, Option.getD_some, her]
  cases b with
  | nil =>
    rw [if_neg (by simp; omega)]
    refine ⟨_, rfl, ?_, ?_, ?_⟩
    · simp only [List.append_nil]; rw [← hl, List.take_length]
    · simp only [List.append_nil]; rw [← hl, List.drop_length]
    · simp only [List.append_nil]; rw [← hl, List.drop_length]; simp
  | cons x b =>
    rw [if_pos (by simp; omega), pyIndex_ofNat (by simp; omega)]
    simp only
    have hm : (a ++ x :: b).modify k (fun e' => { e' with following := e'.following ++ e.following.drop 1 }) =
        a ++ { x with following := x.following ++ e.following.drop 1 } :: b := by
      rw [← hl, Tags.modify_append]
    refine ⟨_, rfl, ?_, ?_, ?_⟩
    · rw [hm]; simp [hl]
    · rw [hm]; simp [hl]
    · rw [hm]
      simp [hl, logLines]

/-- deleting several entries, from the newest one on -/
theorem deleteAll_spec {ks : List Nat} {c : Changelog} (hp : ks.Pairwise (· > ·)) (hk : ∀ k ∈ ks, k < c.data.length) :
    ∃ c', deleteAll ks c = (c', none) ∧
      c'.data.map (fun x => (x.header, x.content)) =
        (c.data.mapIdx (fun i e => if i ∈ ks then none else some (e.header, e.content))).filterMap _root_.id ∧
      changelogLines c' = c.predecessor ++
        (c.data.mapIdx (fun i e => if i ∈ ks then e.following.drop 1 else logLines e)).reverse.flatten := by
  induction ks generalizing c with
  | nil =>
    refine ⟨c, rfl, ?_, ?_⟩
    · simp only [List.not_mem_nil, if_false]
      rw [List.mapIdx_eq_zipIdx_map]
      simp only [List.filterMap_map]
      have : ∀ (l : List ChangelogEntry) (k : Nat), (l.zipIdx k).filterMap (_root_.id ∘ fun x => some (x.1.header, x.1.content)) =
          l.map (fun x => (x.header, x.content)) := by
        intro l
        induction l with
        | nil => intro k; rfl
        | cons x xs ih => intro k; simp only [List.zipIdx_cons, List.map_cons]; rw [List.filterMap_cons]; simp only [Function.comp, _root_.id]; rw [← ih (k + 1)]
      exact (this c.data 0).symm
    · simp only [List.not_mem_nil, if_false, changelogLines]
      congr 2
      rw [List.map_reverse]
      congr 1
      apply List.ext_getElem <;> simp
  | cons k ks ih =>
    have hlt := hk k (by simp)
    obtain ⟨c1, h1, h2, h3, h4⟩ := delete_nat (c := c) (k := k) (e := c.data[k]) (by simp [hlt])
    rw [List.pairwise_cons] at hp
    have hlen : (c1.data.take k).length = k := by rw [h2]; simp; omega
    obtain ⟨c', h5, h6, h7⟩ := ih (c := c1) hp.2 (by
      intro j hj
      have := hp.1 j hj
      rw [List.length_take] at hlen
      omega)
    refine ⟨c', ?_, ?_, ?_⟩
    · unfold deleteAll
      rw [h1]
      exact h5
    · rw [h6]
      have e1 : c1.data = c.data.take k ++ c1.data.drop k := by rw [← h2, List.take_append_drop]
      have e2 : c.data = c.data.take k ++ c.data[k] :: c.data.drop (k + 1) := by simp
      have ht : (c.data.take k).length = k := by rw [← h2]; exact hlen
      conv => lhs; rw [e1]
      conv => rhs; rw [e2]
      rw [List.mapIdx_append, List.mapIdx_append, List.mapIdx_cons, List.filterMap_append, List.filterMap_append]
      congr 1
      · congr 1
        apply List.ext_getElem
        · simp
        · intro i hi _
          rw [List.length_mapIdx, ht] at hi
          have : i ≠ k := by omega
          simp [this]
      · have hk' : k ∈ k :: ks := by simp
        rw [ht]
        simp only [Nat.zero_add, hk', if_true, List.filterMap_cons, _root_.id]
        have gen : ∀ (l l' : List ChangelogEntry) (f g : Nat → Nat), (∀ i, f i ∉ ks) → (∀ i, g i ∉ k :: ks) →
            l.map (fun x => (x.header, x.content)) = l'.map (fun x => (x.header, x.content)) →
            (l.mapIdx (fun i e => if f i ∈ ks then none else some (e.header, e.content))).filterMap _root_.id =
            (l'.mapIdx (fun i e => if g i ∈ k :: ks then none else some (e.header, e.content))).filterMap _root_.id := by
          intro l
          induction l with
          | nil =>
            intro l' f g hf hg he
            cases l' with
            | nil => rfl
            | cons y ys => simp at he
          | cons x xs ihl =>
            intro l' f g hf hg he
            cases l' with
            | nil => simp at he
            | cons y ys =>
              simp only [List.map_cons, List.cons.injEq] at he
              rw [List.mapIdx_cons, List.mapIdx_cons]
              rw [List.filterMap_cons, List.filterMap_cons]
              simp only [hf 0, hg 0, if_false, _root_.id]
              rw [he.1, ihl ys (fun i => f (i + 1)) (fun i => g (i + 1)) (fun i => hf _) (fun i => hg _) he.2]
        apply gen _ _ (fun i => i + k) (fun i => i + 1 + k)
        · intro i hi; have := hp.1 _ hi; omega
        · intro i hi
          rcases List.mem_cons.mp hi with hi | hi
          · omega
          · have := hp.1 _ hi; omega
        · exact h3
    · rw [h7]
      have e1 : c1.data = c.data.take k ++ c1.data.drop k := by rw [← h2, List.take_append_drop]
      have e2 : c.data = c.data.take k ++ c.data[k] :: c.data.drop (k + 1) := by simp
      have ht : (c.data.take k).length = k := by rw [← h2]; exact hlen
      conv => lhs; rw [e1]
      conv => rhs; rw [e2]
      rw [List.mapIdx_append, List.mapIdx_append, List.mapIdx_cons]
      have m1 : (c1.data.drop k).mapIdx (fun i e => if i + (c.data.take k).length ∈ ks then e.following.drop 1 else logLines e) =
          (c1.data.drop k).map logLines := by
        rw [ht]
        apply List.ext_getElem
        · simp
        · intro i h1 h2
          have : i + k ∉ ks := fun hi => by have := hp.1 _ hi; omega
          simp [this]
      have m2 : (c.data.drop (k + 1)).mapIdx (fun i e => if i + 1 + (c.data.take k).length ∈ k :: ks then e.following.drop 1 else logLines e) =
          (c.data.drop (k + 1)).map logLines := by
        rw [ht]
        apply List.ext_getElem
        · simp
        · intro i h1 h2
          have : i + 1 + k ∉ k :: ks := fun hi => by
            rcases List.mem_cons.mp hi with hi | hi
            · omega
            · have := hp.1 _ hi; omega
          simp only [List.getElem_mapIdx, List.getElem_map, this, if_false]
      have m3 : (c.data.take k).mapIdx (fun i e => if i ∈ ks then e.following.drop 1 else logLines e) =
          (c.data.take k).mapIdx (fun i e => if i ∈ k :: ks then e.following.drop 1 else logLines e) := by
        apply List.ext_getElem
        · simp
        · intro i hi _
          rw [List.length_mapIdx, ht] at hi
          have : i ≠ k := by omega
          simp [this]
      rw [m1, m2, m3, ht]
      simp only [Nat.zero_add, List.mem_cons, true_or, if_true, List.reverse_append, List.reverse_cons, List.flatten_append,
        ← List.append_assoc, List.flatten_cons, List.flatten_nil, List.append_nil, ← List.map_reverse]
      rw [h4]

end Specfile.Changelog
