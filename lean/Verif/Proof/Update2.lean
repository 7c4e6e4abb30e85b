import Verif.Proof.Update
import Verif.Proof.Find
import Verif.Spec.Update
/-
`update`: lines and results; writing the entities back.
-/
namespace Specfile.Update
open Py Regex Template Spec ValueParser

theorem construct_captures [Uni] {isIdent : Str → Bool} {ex : Str → Except Err Str} {entities flippable : List Str}
    {value requested : Str} {B : Built} {flips : List Str} {m : St Str}
    (h : construct isIdent ex entities flippable value = .ok (B, flips)) (hm : rmatch B.re requested = some m) :
    Captures m B.groups := by
  have h0 : Captures (init requested : St Str) [] := ⟨by simp [init, St.get], by simp [init, St.get]⟩
  obtain ⟨nodes, f, ps, ts, -, -, -, -, -, hc⟩ := Props.construct_cases h
  rcases hc with ⟨-, rfl, rfl⟩ | ⟨ts', b, -, hb, rfl, rfl⟩
  · have := mem_of_rmatch hm
    rw [mem_cat] at this
    obtain ⟨u, hu, ht⟩ := this
    rw [mem_bos] at hu
    rw [mem_eos] at ht
    obtain ⟨rfl, -⟩ := hu
    obtain ⟨rfl, -⟩ := ht
    exact h0
  · have := mem_of_rmatch hm
    rw [mem_cat] at this
    obtain ⟨u, hu, ht⟩ := this
    rw [mem_bos] at hu
    obtain ⟨rfl, -⟩ := hu
    simpa using build_captures hb h0 ht

theorem groupItems_line {B : Built} {m : St Str} (h : Captures m B.groups) : ∀ gv ∈ groupItems B m, '\n' ∉ gv.2 := by
  intro gv hgv
  simp only [groupItems, List.mem_filterMap] at hgv
  obtain ⟨g, -, hg⟩ := hgv
  cases hm : m.get g with
  | none => simp [hm] at hg
  | some w =>
    simp only [hm, Option.map_some, Option.some.injEq] at hg
    subst hg
    exact (h.2 g w hm).2

/-- values of macros are single lines -/
def Lines (es : List Entity) : Prop := ∀ e ∈ es, e.isTag = false → '\n' ∉ e.value

theorem lines_modify {es : List Entity} {i : Nat} {f : Entity → Entity} (h : Lines es)
    (hf : ∀ e, es[i]? = some e → (f e).isTag = false → '\n' ∉ (f e).value) : Lines (es.modify i f) := by
  intro e he ht
  obtain ⟨j, hj⟩ := List.mem_iff_getElem?.mp he
  rw [List.getElem?_modify] at hj
  cases hx : es[j]? with
  | none => simp [hx] at hj
  | some x =>
    rw [hx] at hj
    simp only [Option.map_eq_map, Option.map_some, Option.some.injEq] at hj
    by_cases hij : i = j
    · subst hij
      simp only [if_true] at hj
      subst hj
      exact hf x hx ht
    · simp only [hij, if_false] at hj
      subst hj
      exact h x (List.mem_of_getElem? hx) ht

theorem updateGroups_lines [Uni] {rec : Rec} {pos : Nat}
    (hk : ∀ v q p es v' es', rec v q p es = .ok (v', es') → Kept (Step p) es es')
    (hrec : ∀ v q p es v' es', rec v q p es = .ok (v', es') → Lines es →
      Lines es' ∧ ('\n' ∉ v → '\n' ∉ q → '\n' ∉ v')) :
    ∀ {d : List (Str × Str)} {es es' : List Entity} {b : Bool}, (∀ gv ∈ d, '\n' ∉ gv.2) → Lines es →
      updateGroups rec pos d es = .ok (b, es') → Lines es' := by
  intro d
  induction d with
  | nil =>
    intro es es' b _ hl h
    simp only [updateGroups] at h
    cases h
    exact hl
  | cons gv d ih =>
    intro es es' b hd hl h
    obtain ⟨g, w⟩ := gv
    unfold updateGroups at h
    have hw : '\n' ∉ w := hd (g, w) (by simp)
    have hd' : ∀ gv ∈ d, '\n' ∉ gv.2 := fun gv h => hd gv (by simp [h])
    split at h
    · exact ih hd' hl h
    · split at h
      · cases h
      · rename_i i hi
        obtain ⟨e, he, ht, -⟩ := closest_some hi
        rw [he] at h
        simp only at h
        split at h
        · cases h; exact hl
        · split at h
          · cases h
          · cases h; exact hl
          · split at h
            · cases h
            · rename_i v es1 hr
              have hl1 : Lines (es.modify i (fun e => { e with locked := true })) :=
                lines_modify hl (fun e he => hl e (List.mem_of_getElem? he))
              obtain ⟨h1, h2⟩ := hrec _ _ _ _ _ _ hr hl1
              refine ih hd' (lines_modify h1 (fun x hx hxt => ?_)) h
              simp only at hxt ⊢
              refine h2 (hl e (List.mem_of_getElem? he) ?_) hw
              have := (hk _ _ _ _ _ _ hr).each i { e with locked := true } x
                (by rw [List.getElem?_modify, he]; simp) hx
              rw [← hxt, this.isTag]

theorem substitute_line [Uni] {isIdent : Str → Bool} {ex : Str → Except Err Str} {entities flippable : List Str}
    {value requested v : Str} {B : Built} {flips : List Str} {m : St Str}
    (h : construct isIdent ex entities flippable value = .ok (B, flips)) (hm : rmatch B.re requested = some m)
    (hs : substitute m.get B.template = .ok v) (hv : '\n' ∉ value) : '\n' ∉ v := by
  obtain ⟨nodes, hn, -, hc⟩ := Props.C73_match_partial h hm
  rcases hc with ⟨_, _, _, _, _, _, hs'⟩ | ⟨ps, text, reading, hp, -, hr, hs', -⟩
  · rw [hs'] at hs
    cases hs
    exact hv
  · rw [hs'] at hs
    cases hs
    refine rewritten_line hr ?_
    rw [parts_text hp]
    exact parseF_line _ hv hn

theorem applyMatch_lines [Uni] {isIdent : Str → Bool} {ex : Str → Except Err Str} {entities flippable : List Str}
    {rec : Rec} {pos : Nat}
    (hk : ∀ v q p es v' es', rec v q p es = .ok (v', es') → Kept (Step p) es es')
    (hrec : ∀ v q p es v' es', rec v q p es = .ok (v', es') → Lines es →
      Lines es' ∧ ('\n' ∉ v → '\n' ∉ q → '\n' ∉ v'))
    {value q v : Str} {es es' : List Entity} {B : Built} {flips : List Str} {m : St Str}
    (hB : construct isIdent ex entities flippable value = .ok (B, flips)) (hm : rmatch B.re q = some m)
    (h : applyMatch rec q pos es B flips m = .ok (v, es')) (hl : Lines es) :
    Lines es' ∧ ('\n' ∉ value → '\n' ∉ q → '\n' ∉ v) := by
  have hd := groupItems_line (construct_captures hB hm)
  unfold applyMatch at h
  split at h
  · cases h
  · rename_i es1 hg
    cases h
    exact ⟨updateGroups_lines hk hrec hd hl hg, fun _ h => h⟩
  · rename_i es1 hg
    split at h
    · cases h
    · rename_i w hs
      cases h
      refine ⟨?_, fun hv _ => substitute_line hB hm hs hv⟩
      have := updateGroups_lines hk hrec hd hl hg
      intro e he ht
      simp only [flip, List.mem_map] at he
      obtain ⟨x, hx, rfl⟩ := he
      split at ht <;> split <;> exact this x hx ht

theorem update_lines [Uni] {isIdent : Str → Bool} {ex : Str → Except Err Str} : ∀ (fuel : Nat) {v q v' : Str} {p : Nat}
    {es es' : List Entity}, update isIdent ex fuel v q p es = .ok (v', es') → Lines es →
      Lines es' ∧ ('\n' ∉ v → '\n' ∉ q → '\n' ∉ v') := by
  intro fuel
  induction fuel with
  | zero => intro _ _ _ _ _ _ h; simp [update] at h
  | succ fuel ih =>
    intro v q v' p es es' h hl
    have hrec : ∀ v q p es v' es', update isIdent ex fuel v q p es = .ok (v', es') → Lines es →
      Lines es' ∧ ('\n' ∉ v → '\n' ∉ q → '\n' ∉ v') := fun _ _ _ _ _ _ h => ih h
    have hk : ∀ v q p es v' es', update isIdent ex fuel v q p es = .ok (v', es') → Kept (Step p) es es' :=
      fun _ _ _ _ _ _ h => update_kept fuel h
    unfold update at h
    split at h
    · cases h; exact ⟨hl, fun _ h => h⟩
    · split at h
      · cases h
      · rename_i hB
        split at h
        · rename_i hm
          exact applyMatch_lines hk hrec hB hm h hl
        · split at h
          · cases h
          · rename_i hB
            split at h
            · rename_i hm
              exact applyMatch_lines hk hrec hB hm h hl
            · cases h; exact ⟨hl, fun _ h => h⟩

/-! the entities -/

theorem macroEntities_spec {ex : Str → Except Err Str} {prot : Str → Bool} {m : MacroDefinitions} :
    ∀ {l : List MacroDefinition} {es : List Entity}, macroEntities ex prot m l = .ok es →
      ∀ e ∈ es, ∃ d ∈ l, eligible prot d = true ∧ m.position d = .ok e.position ∧ isDisabled ex d = .ok e.disabled ∧
        e = { name := d.name, value := d.body, isTag := false, position := e.position, disabled := e.disabled } := by
  intro l
  induction l with
  | nil => intro es h; simp only [macroEntities] at h; cases h; simp
  | cons d l ih =>
    intro es h e he
    unfold macroEntities at h
    split at h
    · rename_i hel
      split at h
      · cases h
      · rename_i p hp
        split at h
        · cases h
        · rename_i b hb
          split at h
          · cases h
          · rename_i es' hes
            cases h
            simp only [List.mem_cons] at he
            rcases he with rfl | he
            · exact ⟨d, by simp, hel, hp, hb, rfl⟩
            · obtain ⟨x, hx, r⟩ := ih hes e he
              exact ⟨x, by simp [hx], r⟩
    · obtain ⟨x, hx, r⟩ := ih h e he
      exact ⟨x, by simp [hx], r⟩

theorem tagEntities_spec [Uni] {prot : Str → Bool} {t : Tags} :
    ∀ {l : List Tag} {es : List Entity}, tagEntities prot t l = .ok es →
      ∀ e ∈ es, ∃ x ∈ l, x.valid = true ∧ prot x.name = false ∧ t.position x = .ok e.position ∧
        e = { name := Uni.lower x.name, value := x.value, isTag := true, position := e.position } := by
  intro l
  induction l with
  | nil => intro es h; simp only [tagEntities] at h; cases h; simp
  | cons d l ih =>
    intro es h e he
    unfold tagEntities at h
    split at h
    · rename_i hel
      simp only [Bool.and_eq_true, Bool.not_eq_true'] at hel
      split at h
      · cases h
      · rename_i p hp
        split at h
        · cases h
        · rename_i es' hes
          cases h
          simp only [List.mem_cons] at he
          rcases he with rfl | he
          · exact ⟨d, by simp, hel.1, hel.2, hp, rfl⟩
          · obtain ⟨x, hx, r⟩ := ih hes e he
            exact ⟨x, by simp [hx], r⟩
    · obtain ⟨x, hx, r⟩ := ih h e he
      exact ⟨x, by simp [hx], r⟩

theorem mem_insertEntity {e x : Entity} {es : List Entity} : x ∈ insertEntity e es ↔ x = e ∨ x ∈ es := by
  induction es with
  | nil => simp [insertEntity]
  | cons y ys ih =>
    unfold insertEntity
    split
    · simp
    · simp only [List.mem_cons, ih]
      exact or_left_comm

theorem mem_sortEntities {x : Entity} {es : List Entity} : x ∈ sortEntities es ↔ x ∈ es := by
  have : ∀ acc, x ∈ es.foldl (fun acc e => insertEntity e acc) acc ↔ x ∈ es ∨ x ∈ acc := by
    induction es with
    | nil => simp
    | cons e es ih =>
      intro acc
      rw [List.foldl_cons, ih, mem_insertEntity, List.mem_cons]
      exact or_left_comm.trans (or_assoc.symm)
  simpa [sortEntities] using this []

/-! the place of a macro definition -/

theorem eqv_iff {a b : MacroDefinition} : a.eqv b = true ↔ { a with valid := b.valid } = b := by
  cases a; cases b
  simp only [MacroDefinition.eqv, Bool.and_eq_true, beq_iff_eq, MacroDefinition.mk.injEq, true_and]
  constructor
  · rintro ⟨⟨⟨⟨⟨⟨⟨h1, h2⟩, h3⟩, h4⟩, h5⟩, ⟨⟨⟨h6, h7⟩, h8⟩, h9⟩⟩, h10⟩, h11⟩
    exact ⟨h1, h2, h3, h4, h5, h6, h7, h8, h9, h10, h11⟩
  · rintro ⟨h1, h2, h3, h4, h5, h6, h7, h8, h9, h10, h11⟩
    exact ⟨⟨⟨⟨⟨⟨⟨h1, h2⟩, h3⟩, h4⟩, h5⟩, ⟨⟨⟨h6, h7⟩, h8⟩, h9⟩⟩, h10⟩, h11⟩

theorem findPos_spec {m : MacroDefinitions} {name : Str} {p : Nat} : ∀ {l : List MacroDefinition} {i k : Nat},
    MacroDefinitions.findPosLoop m name p i l = .ok k → i ≤ k ∧ ∃ d, l[k - i]? = some d ∧ d.name = name ∧
      m.position d = .ok p ∧ ∀ (j : Nat) x, j < k - i → l[j]? = some x → x.name = name → m.position x ≠ .ok p := by
  intro l
  induction l with
  | nil => intro i k h; simp [MacroDefinitions.findPosLoop] at h
  | cons x xs ih =>
    intro i k h
    have next : MacroDefinitions.findPosLoop m name p (i + 1) xs = .ok k → (x.name = name → m.position x ≠ .ok p) →
        i ≤ k ∧ ∃ d, (x :: xs)[k - i]? = some d ∧ d.name = name ∧
          m.position d = .ok p ∧ ∀ (j : Nat) y, j < k - i → (x :: xs)[j]? = some y → y.name = name → m.position y ≠ .ok p := by
      intro h hx
      obtain ⟨h1, d, h2, h3, h4, h5⟩ := ih h
      refine ⟨by omega, d, ?_, h3, h4, ?_⟩
      · rw [show k - i = (k - (i + 1)) + 1 by omega, List.getElem?_cons_succ]; exact h2
      · intro j y hj hy
        cases j with
        | zero => simp only [List.getElem?_cons_zero, Option.some.injEq] at hy; subst hy; exact hx
        | succ j => exact h5 j y (by omega) (by simpa using hy)
    unfold MacroDefinitions.findPosLoop at h
    split at h
    · rename_i hn
      split at h
      · cases h
      · rename_i q hq
        split at h
        · rename_i hqp
          cases h
          refine ⟨Nat.le_refl _, x, by simp, by simpa using hn, by rw [hq, hqp], by simp⟩
        · rename_i hqp
          exact next h (fun _ h' => hqp (by rw [hq] at h'; cases h'; rfl))
    · rename_i hn
      exact next h (fun h' => absurd (by simpa using h') hn)

/-- what is found at a position begins on that line -/
theorem find_position {m : MacroDefinitions} {name : Str} {p k : Nat} (h : m.find name (some p) = .ok k) :
    ∃ d, m.data[k]? = some d ∧ d.name = name ∧ definitionLine m k = p := by
  simp only [MacroDefinitions.find] at h
  obtain ⟨-, d, h1, h2, h3, h4⟩ := findPos_spec h
  rw [Nat.sub_zero] at h1 h4
  refine ⟨d, h1, h2, ?_⟩
  unfold MacroDefinitions.position at h3
  split at h3
  · cases h3
  · rename_i j hj
    unfold MacroDefinitions.index at hj
    rw [Find.findIdx_iff] at hj
    obtain ⟨y, j1, j2, j3⟩ := hj
    have hy := eqv_iff.mp j2
    have hjk : j ≤ k := by
      rcases Nat.lt_or_ge k j with hlt | hge
      · have := j3 k d hlt h1
        rw [eqv_iff.mpr rfl] at this
        cases this
      · exact hge
    rcases Nat.lt_or_ge j k with hlt | hge
    · exfalso
      refine h4 j y hlt j1 (by rw [← h2, ← hy]) ?_
      have : MacroDefinitions.index m.data y = some j := by
        unfold MacroDefinitions.index
        rw [Find.findIdx_iff]
        refine ⟨y, j1, eqv_iff.mpr rfl, fun i x hi hx => ?_⟩
        cases hc : x.eqv y with
        | false => rfl
        | true =>
          have h' := eqv_iff.mp hc
          have : x.eqv d = true := by
            rw [eqv_iff, ← hy, ← h']
          rw [j3 i x hi hx] at this
          cases this
      simp only [MacroDefinitions.position, this]
      rw [← h3]
      rw [← hy]
    · have : j = k := by omega
      subst this
      simp only [definitionLine, h1, Option.map_some, Option.getD_some]
      cases h3
      rfl

end Specfile.Update
