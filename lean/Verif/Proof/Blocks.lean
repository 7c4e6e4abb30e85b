import Verif.Spec.Blocks
import Verif.Proof.Sections5
/-
Blocks that access different sections, for C99.
-/
namespace Specfile.Proof.Blocks
open Py Spec Update Specfile.Blocks

section
variable [Uni] {α : Type} {W : World}

theorem find_first {ss : Sections} {name : Str} {i : Nat} : Sections.find ss name = .ok i ↔ FirstNamed ss name i := by
  unfold Sections.find FirstNamed
  cases h : ss.findIdx? (fun s => Sections.normalizedId s == Uni.lower name) with
  | none =>
    rw [List.findIdx?_eq_none_iff] at h
    simp only [reduceCtorEq, false_iff, not_and]
    rintro ⟨s, hs, he⟩
    have := h s (List.mem_of_getElem? hs)
    simp [he] at this
  | some k =>
    rw [List.findIdx?_eq_some_iff_getElem] at h
    obtain ⟨hk, h1, h2⟩ := h
    simp only [Except.ok.injEq]
    constructor
    · rintro rfl
      refine ⟨⟨ss[k], List.getElem?_eq_getElem hk, by simpa using h1⟩, fun j s hj hs => ?_⟩
      have := h2 j hj
      obtain ⟨hl, rfl⟩ := List.getElem?_eq_some_iff.1 hs
      simpa using this
    · rintro ⟨⟨s, hs, he⟩, h3⟩
      obtain ⟨hl, rfl⟩ := List.getElem?_eq_some_iff.1 hs
      rcases Nat.lt_trichotomy k i with h | h | h
      · exact absurd (by simpa using h1) (h3 k _ h (List.getElem?_eq_getElem hk))
      · exact h
      · have := h2 i h
        simp [he] at this

theorem find_none {ss : Sections} {name : Str} (h : ∀ s ∈ ss, Sections.normalizedId s ≠ Uni.lower name) :
    Sections.find ss name = .error .valueError := by
  unfold Sections.find
  rw [List.findIdx?_eq_none_iff.2]
  intro s hs
  simpa using h s hs

theorem first_or_none (ss : Sections) (name : Str) :
    (∃ i, FirstNamed ss name i) ∨ ∀ s ∈ ss, Sections.normalizedId s ≠ Uni.lower name := by
  cases h : ss.findIdx? (fun s => Sections.normalizedId s == Uni.lower name) with
  | none =>
    right
    rw [List.findIdx?_eq_none_iff] at h
    intro s hs
    simpa using h s hs
  | some k => exact .inl ⟨k, find_first.1 (by unfold Sections.find; rw [h])⟩

theorem first_unique {ss : Sections} {a b : Str} {i : Nat} (ha : FirstNamed ss a i) (hb : FirstNamed ss b i) :
    Uni.lower a = Uni.lower b := by
  obtain ⟨s, hs, h1⟩ := ha.1
  obtain ⟨t, ht, h2⟩ := hb.1
  rw [hs] at ht
  cases ht
  rw [← h1, h2]

theorem first_index {ss : Sections} {a : Str} {i j : Nat} (hi : FirstNamed ss a i) (hj : FirstNamed ss a j) : i = j := by
  have h1 := find_first.2 hi
  rw [find_first.2 hj] at h1
  cases h1
  rfl

theorem first_alike {ss ss' : Sections} (h : ∀ i : Nat, (ss'[i]?).map Sections.normalizedId = (ss[i]?).map Sections.normalizedId)
    {name : Str} {i : Nat} (hf : FirstNamed ss name i) : FirstNamed ss' name i := by
  obtain ⟨⟨s, hs, he⟩, hb⟩ := hf
  constructor
  · have := h i
    rw [hs] at this
    cases ht : ss'[i]? with
    | none => rw [ht] at this; cases this
    | some t =>
      rw [ht] at this
      simp only [Option.map_some, Option.some.injEq] at this
      exact ⟨t, rfl, this.trans he⟩
  · intro j t hj ht
    have := h j
    rw [ht] at this
    cases hx : ss[j]? with
    | none => rw [hx] at this; cases this
    | some x =>
      rw [hx] at this
      simp only [Option.map_some, Option.some.injEq] at this
      rw [this]
      exact hb j x hj hx

theorem makes_unique {l : List Str} {b : Block α} {data d d' : List Str} {r r' : Except Err α} (h : BlockMakes W l b data d r)
    (h' : BlockMakes W l b data d' r') : d = d' ∧ r = r' := by
  cases h <;> cases h' <;> simp_all

theorem makes_alike {l l' : List Str} {b : Block α} {data d : List Str} {r : Except Err α} (h : BlockMakes W l b data d r)
    (ht : ∀ name body, b = .tags name body → Tags.parse W.names (W.oracle l) data = Tags.parse W.names (W.oracle l') data) :
    BlockMakes W l' b data d r := by
  cases h with
  | tags hp => exact .tags (by rw [← ht _ _ rfl]; exact hp)
  | noTags hp => exact .noTags (by rw [← ht _ _ rfl]; exact hp)
  | changelog => exact .changelog
  | prep hp => exact .prep hp
  | noPrep hp => exact .noPrep hp

omit [Uni] in
theorem set_same {ss : Sections} {i : Nat} {s : Section} (h : ss[i]? = some s) : ss.set i { s with data := s.data } = ss := by
  apply List.ext_getElem?
  intro j
  rw [List.getElem?_set]
  obtain ⟨hl, he⟩ := List.getElem?_eq_some_iff.1 h
  split
  · subst_vars
    simp [hl]
  · rfl

theorem run_first {l : List Str} {ss : Sections} (hp : Sections.parse (W.oracle l) l = .ok ss) {b : Block α} {i : Nat}
    {s : Section} (hf : FirstNamed ss (sectionOf b) i) (hs : ss[i]? = some s) :
    ∃ d r, BlockMakes W l b s.data d r ∧ run W b l = (Sections.raw (ss.set i { s with data := d }), r) := by
  have hi := find_first.2 hf
  cases b with
  | tags name body =>
    simp only [sectionOf] at hi
    simp only [run, withSections, hp, inTags, hi, hs]
    cases ht : Tags.parse W.names (W.oracle l) s.data with
    | error e => exact ⟨_, _, .noTags ht, by rw [set_same hs]⟩
    | ok t => exact ⟨_, _, .tags ht, rfl⟩
  | changelog body absent =>
    simp only [sectionOf] at hi
    simp only [run, withSections, hp, inChangelog, hi, hs]
    exact ⟨_, _, .changelog, rfl⟩
  | prep body absent =>
    simp only [sectionOf] at hi
    simp only [run, withSections, hp, inPrep, hi, hs]
    cases ht : Prep.parse s.data with
    | error e => exact ⟨_, _, .noPrep ht, by rw [set_same hs]⟩
    | ok t => exact ⟨_, _, .prep ht, rfl⟩

theorem run_none {l : List Str} {ss : Sections} (hp : Sections.parse (W.oracle l) l = .ok ss) {b : Block α}
    (hn : ∀ s ∈ ss, Sections.normalizedId s ≠ Uni.lower (sectionOf b)) :
    run W b l = (Sections.raw ss, withoutSection b) := by
  have hi := find_none hn
  cases b <;> simp only [sectionOf] at hi <;>
    simp only [run, withSections, hp, inTags, inChangelog, inPrep, hi, withoutSection]

theorem good_set {ss : Sections} (h : GoodSections ss) {i : Nat} {s : Section} (hs : ss[i]? = some s) {d : List Str}
    (hd : ∀ l ∈ d, OneLine l ∧ ¬ HeaderLine l) : GoodSections (ss.set i { s with data := d }) := by
  obtain ⟨data, rest, rfl, h1, h2⟩ := h
  cases i with
  | zero =>
    simp only [List.getElem?_cons_zero, Option.some.injEq] at hs
    subst hs
    exact ⟨d, rest, rfl, hd, h2⟩
  | succ i =>
    simp only [List.getElem?_cons_succ] at hs
    refine ⟨data, rest.set i { s with data := d }, rfl, h1, fun t ht => ?_⟩
    rcases List.mem_or_eq_of_mem_set ht with ht | rfl
    · exact h2 t ht
    · have g := h2 s (List.mem_of_getElem? hs)
      exact ⟨g.name, g.known, g.optstring, g.defaults, g.options, g.separator, g.oneLine, g.notPackage, hd⟩

theorem merged_ids {lines : List Str} {bs : List (Block α)} {ss ss' : Sections} (h : Merged W lines bs ss ss') (i : Nat) :
    (ss'[i]?).map Sections.normalizedId = (ss[i]?).map Sections.normalizedId := by
  by_cases hb : ∃ b ∈ bs, FirstNamed ss (sectionOf b) i
  · obtain ⟨b, hb, hf⟩ := hb
    obtain ⟨s, hs, -⟩ := hf.1
    obtain ⟨d, r, -, h2⟩ := h.edited b hb i s hf hs
    rw [h2, hs]
    rfl
  · rw [h.kept i fun b hm hf => hb ⟨b, hm, hf⟩]

theorem merged_unique {lines : List Str} {bs bs' : List (Block α)} (he : ∀ b, b ∈ bs ↔ b ∈ bs') {ss ss' ss'' : Sections}
    (h : Merged W lines bs ss ss') (h' : Merged W lines bs' ss ss'') : ss' = ss'' := by
  apply List.ext_getElem?
  intro i
  by_cases hb : ∃ b ∈ bs, FirstNamed ss (sectionOf b) i
  · obtain ⟨b, hb, hf⟩ := hb
    obtain ⟨s, hs, -⟩ := hf.1
    obtain ⟨d, r, h1, h2⟩ := h.edited b hb i s hf hs
    obtain ⟨d', r', h1', h2'⟩ := h'.edited b ((he b).1 hb) i s hf hs
    rw [h2, h2', (makes_unique h1 h1').1]
  · rw [h.kept i fun b hm hf => hb ⟨b, hm, hf⟩, h'.kept i fun b hm hf => hb ⟨b, (he b).2 hm, hf⟩]

theorem merged_nil {lines : List Str} (ss : Sections) : Merged (α := α) W lines [] ss ss :=
  ⟨rfl, fun b hb => absurd hb (by simp), fun _ _ => rfl⟩

/-- the blocks `todo` after the blocks `done` -/
theorem runAll_from {lines : List Str} {ss : Sections} {all : List (Block α)}
    (sep : Separate W lines ss all) : ∀ (todo done : List (Block α)) (cur : List Str) (now : Sections), todo ⊆ all → done ⊆ all →
    todo.Pairwise (fun a b => Uni.lower (sectionOf a) ≠ Uni.lower (sectionOf b)) →
    (∀ a ∈ todo, ∀ b ∈ done, Uni.lower (sectionOf a) ≠ Uni.lower (sectionOf b)) →
    Sections.parse (W.oracle cur) cur = .ok now → Merged W lines done ss now → GoodSections now →
    (∀ name body, Block.tags name body ∈ all → ∀ s ∈ ss, Sections.normalizedId s = Uni.lower name →
      Tags.parse W.names (W.oracle cur) s.data = Tags.parse W.names (W.oracle lines) s.data) →
    (cur = Sections.raw now ∨ done = []) →
    ∃ ss', Merged W lines (todo ++ done) ss ss' ∧ ((runAll W todo cur).1 = Sections.raw ss' ∨ todo ++ done = []) ∧
      (runAll W todo cur).2.length = todo.length ∧
      ∀ (k : Nat) (b : Block α) r, todo[k]? = some b → (runAll W todo cur).2[k]? = some r → BlockEnds W lines ss b r
  | [], done, cur, now, _, _, _, _, _, hm, _, _, hc =>
    ⟨now, hm, by simpa [runAll] using hc, rfl, fun k b r h => by simp at h⟩
  | b :: bs, done, cur, now, ht, hd, hpw, hdis, hp, hm, hg, ha, hc => by
    rw [List.pairwise_cons] at hpw
    have hball : b ∈ all := ht (by simp)
    -- the state after this block
    have key : ∃ next, Merged W lines (b :: done) ss next ∧ GoodSections next ∧ (run W b cur).1 = Sections.raw next ∧
        BlockEnds W lines ss b (run W b cur).2 := by
      rcases first_or_none ss (sectionOf b) with ⟨i, hf⟩ | hn
      · obtain ⟨s, hs, hid⟩ := hf.1
        have hkept : now[i]? = some s := by
          rw [hm.kept i fun b' hb' hf' => hdis b (by simp) b' hb' (first_unique hf hf')]
          exact hs
        obtain ⟨d, r, h1, h2⟩ := run_first hp (first_alike (merged_ids hm) hf) hkept
        have h3 : BlockMakes W lines b s.data d r := by
          refine makes_alike h1 ?_
          rintro name body rfl
          exact ha name body hball s (List.mem_of_getElem? hs) hid
        have hlt : i < now.length := (List.getElem?_eq_some_iff.1 hkept).1
        refine ⟨now.set i { s with data := d }, ⟨?_, ?_, ?_⟩, ?_, ?_, ?_⟩
        · rw [List.length_set, hm.length]
        · intro c hc j t hfj htj
          rcases List.mem_cons.1 hc with rfl | hc
          · have := first_index hf hfj
            subst this
            rw [hs] at htj
            cases htj
            exact ⟨d, r, h3, by simp [hlt]⟩
          · have hne : i ≠ j := by
              rintro rfl
              exact hdis b (by simp) c hc (first_unique hf hfj)
            rw [List.getElem?_set_ne hne]
            exact hm.edited c hc j t hfj htj
        · intro j hj
          have hne : i ≠ j := by
            rintro rfl
            exact hj b (by simp) hf
          rw [List.getElem?_set_ne hne]
          exact hm.kept j fun c hc => hj c (by simp [hc])
        · exact good_set hg hkept (sep.text b hball s (List.mem_of_getElem? hs) hid d r h3)
        · rw [h2]
        · rw [h2]
          exact .inl ⟨i, s, d, hf, hs, h3⟩
      · have hn' : ∀ s ∈ now, Sections.normalizedId s ≠ Uni.lower (sectionOf b) := by
          intro s hs he
          obtain ⟨j, hj⟩ := List.getElem?_of_mem hs
          have := merged_ids hm j
          rw [hj] at this
          cases hx : ss[j]? with
          | none => rw [hx] at this; cases this
          | some x =>
            rw [hx] at this
            simp only [Option.map_some, Option.some.injEq] at this
            exact hn x (List.mem_of_getElem? hx) (this ▸ he)
        have hno : ∀ i, ¬ FirstNamed ss (sectionOf b) i := by
          rintro i ⟨⟨s, hs, he⟩, -⟩
          exact hn s (List.mem_of_getElem? hs) he
        rw [run_none hp hn']
        refine ⟨now, ⟨hm.length, ?_, ?_⟩, hg, rfl, .inr ⟨hn, rfl⟩⟩
        · intro c hc j t hfj htj
          rcases List.mem_cons.1 hc with rfl | hc
          · exact absurd hfj (hno j)
          · exact hm.edited c hc j t hfj htj
        · exact fun j hj => hm.kept j fun c hc => hj c (by simp [hc])
    obtain ⟨next, k1, k2, k3, k4⟩ := key
    have hpart : b :: done ⊆ all := by
      intro x hx
      rcases List.mem_cons.1 hx with rfl | hx
      · exact hball
      · exact hd hx
    have hout := sep.outside _ _ hpart k1
    obtain ⟨ss', m1, m2, m3, m4⟩ := runAll_from sep bs (b :: done) (Sections.raw next) next
      (fun x hx => ht (by simp [hx])) hpart hpw.2
      (by
        intro x hx y hy
        rcases List.mem_cons.1 hy with rfl | hy
        · exact fun e => hpw.1 x hx e.symm
        · exact hdis x (by simp [hx]) y hy)
      (Sections.parse_good k2 hout) k1 k2 (sep.alike _ _ hpart k1) (.inl rfl)
    refine ⟨ss', ⟨m1.length, fun c hc => m1.edited c ?_, fun j hj => m1.kept j fun c hc => hj c ?_⟩, ?_, ?_, ?_⟩
    · simp only [List.cons_append, List.mem_cons, List.mem_append] at hc ⊢
      rcases hc with rfl | hc | hc <;> simp_all
    · simp only [List.cons_append, List.mem_cons, List.mem_append] at hc ⊢
      rcases hc with hc | rfl | hc <;> simp_all
    · left
      simp only [runAll, k3]
      rcases m2 with m2 | m2
      · exact m2
      · simp at m2
    · simp [runAll, k3, m3]
    · intro k c r hk hr
      cases k with
      | zero =>
        simp only [List.getElem?_cons_zero, Option.some.injEq, runAll] at hk hr
        subst hk
        rw [← hr]
        exact k4
      | succ k =>
        simp only [List.getElem?_cons_succ, runAll, k3] at hk hr
        exact m4 k c r hk hr

end
end Specfile.Proof.Blocks
