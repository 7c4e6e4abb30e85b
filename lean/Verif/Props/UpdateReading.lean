import Verif.Proof.Update7
import Verif.Props.UpdateValue
/-
`update_value`: which macros and tags are looked at, what is written back, and that the value reads as requested.
-/
namespace Specfile.Props
open Py Regex Spec Update Template

/-- a spec file that is not changed by reading it and writing it back, as macro definitions, as sections and as tags -/
structure Stable [Uni] (W : World) (lines : List Str) : Prop where
  macros : withMacros W lines (fun m => (m, .ok ())) = (lines, .ok ())
  sections : withSections W lines (fun ss => (ss, .ok ())) = (lines, .ok ())
  tags : withTags W lines (fun t => (t, .ok ())) = (lines, .ok ())

/-- `t'` is read from the first package section of `l` with `t` in place of its tags -/
def TagsReplaced [Uni] (W : World) (l : List Str) (t t' : Tags) (l' : List Str) : Prop :=
  ∃ ss i s, Sections.parse (W.oracle l) l = .ok ss ∧ Sections.find ss (s% "package") = .ok i ∧ ss[i]? = some s ∧
    Tags.parse W.names (W.oracle l) s.data = .ok t ∧ l' = Sections.raw (ss.set i { s with data := t'.raw })

/-- the steps of a call that succeeds -/
theorem updateValue_steps [Uni] {W : World} {prot : Str → Bool} {value requested v : Str} {pos : Nat}
    {lines l' : List Str} (h : updateValue W prot value requested pos lines = (l', .ok v)) (hs : Stable W lines) :
    ∃ m t es es' m' t1 t1', MacroDefinitions.parse (W.oracle lines) true lines = .ok m ∧ TagsOf W lines t ∧
      Collected (W.expand lines) prot m t es ∧
      update W.isIdent (W.expand lines) (es.length + 1) value requested pos es = .ok (v, es') ∧
      syncMacros es' m = (m', none) ∧ TagsReplaced W m'.raw t1 t1' l' ∧ syncTags es' t1 = (t1', none) := by
  unfold updateValue at h
  split at h
  · cases h
  · rename_i l1 ms h1
    have e1 : l1 = lines := macros_read hs.macros l1 (withMacros_read h1)
    split at h
    · cases h
    · rename_i l2 ts h2
      have e2 : l2 = l1 := by
        subst e1
        exact tags_read hs.sections hs.tags l2 (withTags_read h2)
      subst e2
      subst e1
      split at h
      · cases h
      · rename_i w es' hu
        split at h
        · cases h
        · rename_i l3 h3
          rcases withMacros_cases h1 with ⟨e, -, -, hc⟩ | ⟨m, hm, -, hms⟩
          · cases hc
          rcases withTags_cases h2 with ⟨e, -, -, hc⟩ | ⟨ss, e, -, -, hc⟩ | ⟨ss, i, s, t, g1, g2, g3, g4, -, hts⟩
          · cases hc
          · cases hc
          rcases withMacros_cases h3 with ⟨e, -, -, hc⟩ | ⟨m', hm', hl3, hr3⟩
          · cases hc
          rw [hm] at hm'
          cases hm'
          have h3' : syncMacros es' m = ((syncMacros es' m).1, none) := by
            cases hx : (syncMacros es' m).2 with
            | none => rw [← hx]
            | some e => rw [hx] at hr3; simp [result] at hr3
          rcases withTags_cases h with ⟨e, -, -, hc⟩ | ⟨ss, e, -, -, hc⟩ | ⟨ss', i', s', t1, k1, k2, k3, k4, k5, hr4⟩
          · cases hc
          · cases hc
          have hr4' : v = w ∧ (syncTags es' t1).2 = none := by
            cases hx : (syncTags es' t1).2 with
            | none => rw [hx] at hr4; simp [result] at hr4; exact ⟨hr4, rfl⟩
            | some e => rw [hx] at hr4; simp [result] at hr4
          obtain ⟨rfl, hr4'⟩ := hr4'
          refine ⟨m, t, sortEntities (ms ++ ts), es', _, t1, _, hm, ⟨ss, i, s, g1, g2, g3, g4⟩,
            ⟨ms, ts, macros_collected (fun _ h => h) hms.symm, tags_collected (fun _ h => h) hts.symm,
              sortEntities_inOrder _⟩, hu, h3', ⟨ss', i', s', ?_, k2, k3, ?_, k5⟩, ?_⟩
          · rw [← hl3]; exact k1
          · rw [← hl3]; exact k4
          · rw [← hr4']

theorem macrosCollected_names {ex : Str → Except Err Str} {prot : Str → Bool} {m : MacroDefinitions}
    {ds : List MacroDefinition} {es : List Entity} (h : MacrosCollected ex prot m ds es) :
    (∀ e ∈ es, e.isTag = false ∧ e.locked = false ∧ e.updated = false ∧ e.flipPending = false) ∧
      (es.map (·.name)).Sublist (ds.map (·.name)) := by
  induction h with
  | nil => simp
  | skip _ _ ih => exact ⟨ih.1, ih.2.cons _⟩
  | take _ _ _ _ _ _ ih =>
    refine ⟨fun e he => ?_, ih.2.cons_cons _⟩
    rcases List.mem_cons.mp he with rfl | he
    · exact ⟨rfl, rfl, rfl, rfl⟩
    · exact ih.1 e he

theorem tagsCollected_names [Uni] {prot : Str → Bool} {t : Tags} {xs : List Tag} {es : List Entity}
    (h : TagsCollected prot t xs es) :
    (∀ e ∈ es, e.isTag = true ∧ e.locked = false ∧ e.updated = false ∧ e.flipPending = false) ∧
      (es.map (·.name)).Sublist (xs.map (fun x => Uni.lower x.name)) := by
  induction h with
  | nil => simp
  | skip _ _ ih => exact ⟨ih.1, ih.2.cons _⟩
  | take _ _ _ _ ih =>
    refine ⟨fun e he => ?_, ih.2.cons_cons _⟩
    rcases List.mem_cons.mp he with rfl | he
    · exact ⟨rfl, rfl, rfl, rfl⟩
    · exact ih.1 e he

theorem collected_distinct [Uni] {ex : Str → Except Err Str} {prot : Str → Bool} {m : MacroDefinitions} {t : Tags}
    {es : List Entity} (h : Collected ex prot m t es) :
    (∀ e ∈ es, e.locked = false ∧ e.updated = false ∧ e.flipPending = false) ∧
      ((m.data.map (·.name)).Nodup → ((es.filter (fun e => !e.isTag)).map (·.name)).Nodup) ∧
      ((t.data.map (fun x => Uni.capitalize (Uni.lower x.name))).Nodup →
        ((es.filter (fun e => e.isTag)).map (fun e => Uni.capitalize e.name)).Nodup) := by
  obtain ⟨ms, ts, h1, h2, h3⟩ := h
  obtain ⟨a1, a2⟩ := macrosCollected_names h1
  obtain ⟨b1, b2⟩ := tagsCollected_names h2
  refine ⟨fun e he => ?_, fun hn => ?_, fun hn => ?_⟩
  · rcases List.mem_append.mp (h3.perm.mem_iff.mp he) with he | he
    · exact (a1 e he).2
    · exact (b1 e he).2
  · have hp := (h3.perm.filter (fun e => !e.isTag)).map (·.name)
    rw [hp.nodup_iff, List.filter_append, List.filter_eq_self.mpr (fun e he => by simp [(a1 e he).1]),
      List.filter_eq_nil_iff.mpr (fun e he => by simp [(b1 e he).1]), List.append_nil]
    exact a2.nodup hn
  · have hp := (h3.perm.filter (fun e => e.isTag)).map (fun e => Uni.capitalize e.name)
    rw [hp.nodup_iff, List.filter_append, List.filter_eq_nil_iff.mpr (fun e he => by simp [(a1 e he).1]),
      List.filter_eq_self.mpr (fun e he => by simp [(b1 e he).1]), List.nil_append]
    have := (b2.map Uni.capitalize).nodup (by simpa [List.map_map, Function.comp_def] using hn)
    simpa [List.map_map, Function.comp_def] using this

theorem shape_names {es es' : List Entity} (h : Kept Shape es es') : ∀ (p : Bool → Bool) (f : Str → Str),
    (es'.filter (fun e => p e.isTag)).map (fun e => f e.name) = (es.filter (fun e => p e.isTag)).map (fun e => f e.name) := by
  intro p f
  induction es generalizing es' with
  | nil => have := h.length; cases es' <;> simp_all
  | cons e es ih =>
    cases es' with
    | nil => have := h.length; simp at this
    | cons e' es' =>
      have hs := h.each 0 e e' rfl rfl
      have := ih (es' := es') ⟨by simpa using h.length, fun i a b ha hb => h.each (i + 1) a b (by simpa using ha) (by simpa using hb)⟩
      simp only [List.filter_cons, hs.isTag]
      split
      · simp only [List.map_cons, hs.name]; exact congrArg _ this
      · exact this

/-- C79 (full claim: a successful call looks at exactly the valid, unprotected macro definitions without options and tags, in
the order of their lines, and writes exactly the updated values back). Missing: names have to be distinct, otherwise the
wrong definition or tag may be written, see `C37_violation_twin`. -/
theorem C79_written_partial [Uni] {W : World} {prot : Str → Bool} {value requested v : Str} {pos : Nat}
    {lines l' : List Str} (h : updateValue W prot value requested pos lines = (l', .ok v)) (hs : Stable W lines) :
    ∃ m t es es' m' t1 t1', MacroDefinitions.parse (W.oracle lines) true lines = .ok m ∧ TagsOf W lines t ∧
      Collected (W.expand lines) prot m t es ∧
      update W.isIdent (W.expand lines) (es.length + 1) value requested pos es = .ok (v, es') ∧
      TagsReplaced W m'.raw t1 t1' l' ∧ (DistinctMacros m → MacrosSynced es' m m') ∧
      (DistinctTagNames t1 → (t.data.map (fun x => Uni.capitalize (Uni.lower x.name))).Nodup → TagsSynced es' t1 t1') := by
  obtain ⟨m, t, es, es', m', t1, t1', h1, h2, h3, h4, h5, h6, h7⟩ := updateValue_steps h hs
  obtain ⟨-, d1, d2⟩ := collected_distinct h3
  have hk := (update_kept _ h4).shape
  refine ⟨m, t, es, es', m', t1, t1', h1, h2, h3, h4, h6, fun hd => ?_, fun hd hn => ?_⟩
  · refine syncMacros_synced h5 hd ?_
    have := shape_names hk (fun b => !b) id
    simp only [id] at this
    rw [this]
    exact d1 hd
  · refine syncTags_synced h7 hd ?_
    have := shape_names hk (fun b => b) Uni.capitalize
    rw [this]
    exact d2 hn

/-- C80, on the level of macros and tags: if they depend on each other like a tree, an update makes the value read as
requested. -/
theorem C80_reading [Uni] {isIdent : Str → Bool} {ex : Str → Except Err Str} {value requested v : Str} {pos depth : Nat}
    {es es' : List Entity} (h : update isIdent ex depth value requested pos es = .ok (v, es'))
    (hf : ∀ e ∈ es, e.flipPending = false) (ht : TreeLike es pos value) (hne : requested ≠ []) (hl : '\n' ∉ requested) :
    Reading ex es es' pos value v requested := by
  refine (update_guarantee ht depth (s := none) ⟨rfl, rfl⟩ hne hl h (Kept.refl Shape.refl es) ?_ ?_).2
  · intro x _ i _ e e' he he'
    rw [he] at he'; cases he'; rfl
  · intro z _ e he _
    exact hf e he

/-- C80 (full claim: after a successful call the value that is returned reads as requested in the new spec file). Missing:
macros and tags that are referred to more than once, see `C80_violation_shared`; requests that are empty or have several
lines; and other macros are taken to expand as before. -/
theorem C80_value_partial [Uni] {W : World} {prot : Str → Bool} {value requested v : Str} {pos : Nat}
    {lines l' : List Str} (h : updateValue W prot value requested pos lines = (l', .ok v)) (hs : Stable W lines)
    (hne : requested ≠ []) (hl : '\n' ∉ requested) :
    ∃ m t es es' m' t1 t1', MacroDefinitions.parse (W.oracle lines) true lines = .ok m ∧ TagsOf W lines t ∧
      Collected (W.expand lines) prot m t es ∧ (TreeLike es pos value → Reading (W.expand lines) es es' pos value v requested) ∧
      TagsReplaced W m'.raw t1 t1' l' ∧ (DistinctMacros m → MacrosSynced es' m m') ∧
      (DistinctTagNames t1 → (t.data.map (fun x => Uni.capitalize (Uni.lower x.name))).Nodup → TagsSynced es' t1 t1') := by
  obtain ⟨m, t, es, es', m', t1, t1', h1, h2, h3, h4, h5, h6, h7⟩ := C79_written_partial h hs
  exact ⟨m, t, es, es', m', t1, t1', h1, h2, h3,
    fun ht => C80_reading h4 (fun e he => ((collected_distinct h3).1 e he).2.2) ht hne hl, h5, h6, h7⟩

/-- C80: macros are kept whenever this is possible without enabling or disabling any of them. If some choice of values for
the references makes the value read as requested, then a call that succeeds returns the value with other literal text only,
unless an entity would refer to itself. -/
theorem C80_keeps_partial [Uni] {isIdent : Str → Bool} {ex : Str → Except Err Str} {value requested v : Str} {pos depth : Nat}
    {es es' : List Entity} (h : update isIdent ex depth value requested pos es = .ok (v, es'))
    (hf : ∀ e ∈ es, e.flipPending = false ∧ e.locked = false)
    (hsub : ∀ x, Available es pos x → ¬ s% "sub_" <+: x) (hv : '\n' ∉ value) (hne : requested ≠ []) (hl : '\n' ∉ requested)
    {entities : List Str} (hent : ∀ x, x ∈ entities ↔ Available es pos x) {nodes : List Node}
    (hn : ValueParser.parse value = .ok nodes) {ps : List Part} (hp : Parts ex entities [] nodes ps) (hun : ¬ Unseparated ps)
    {d : Str → Option Str} {w : Str} (hr : Rewritten d false ps w requested) :
    v = value ∨ ∃ flips ps d w, Parts ex entities flips nodes ps ∧ Rewritten d false ps w requested ∧ (v = w ∨
      ∃ x s y i e, Part.reference x s ∈ ps ∧ d x = some y ∧ Closest es x pos i ∧ es[i]? = some e ∧ ¬ Independent e y) := by
  have hmod : ∀ x, x ∈ modifiable es pos ↔ x ∈ entities := fun x =>
    (mem_modifiable (fun e he _ => (hf e he).1)).trans (hent x).symm
  have fin : ∀ {flips}, KeptOrCyclic ex es es' pos (modifiable es pos) flips nodes v requested →
      ∃ flips ps d w, Parts ex entities flips nodes ps ∧ Rewritten d false ps w requested ∧ (v = w ∨
      ∃ x s y i e, Part.reference x s ∈ ps ∧ d x = some y ∧ Closest es x pos i ∧ es[i]? = some e ∧ ¬ Independent e y) := by
    rintro flips ⟨ps, d, w, k1, k2, k3⟩
    exact ⟨flips, ps, d, w, parts_congr hmod k1, k2, k3.imp_left (·.1)⟩
  have hu : Unlocked es := fun e he => (hf e he).2
  cases depth with
  | zero => simp [update] at h
  | succ fuel =>
    have hk : ∀ v q p es v' es', update isIdent ex fuel v q p es = .ok (v', es') → Kept (Step p) es es' :=
      fun _ _ _ _ _ _ h => update_kept _ h
    unfold update at h
    split at h
    · rename_i heq
      cases h
      exact .inl heq.symm
    · right
      split at h
      · cases h
      · rename_i B flips hB
        split at h
        · rename_i m hm
          exact fin (applyMatch_keeps hk (fun _ h => h) hn hB hm hne hl hu h)
        · split at h
          · cases h
          · rename_i B' flips' hB'
            split at h
            · rename_i m hm
              exact fin (applyMatch_keeps hk (by simp) hn hB' hm hne hl hu h)
            · rename_i hnone
              exfalso
              obtain ⟨nodes', f, qs, ts, c1, c2, c3, -, c4, c5⟩ := construct_cases hB'
              rw [hn] at c1; cases c1
              have hflip : f.toFlip = [] := by
                cases hf' : f.toFlip with
                | nil => rfl
                | cons x xs =>
                  have := (c2.allowed x (by rw [hf']; exact .head _)).1
                  cases this
              rw [hflip] at c3
              have hqs := parts_unique hp (parts_congr hmod c3)
              subst hqs
              rcases c5 with ⟨hs, -, -⟩ | ⟨ts', b, hs, hb, rfl, -⟩
              · exact hun (c4 ▸ squash_none hs)
              · subst c4
                obtain ⟨m, hm⟩ := built_complete hv (fun x hx => hsub x ((hent x).mp ((hmod x).mp hx))) hn c3 hs hb hr
                rw [hm] at hnone; cases hnone

/-- C80: macros are enabled and disabled if this is needed. Unless nothing is to be done, there are `flips`: the macros before
the value, for which the first conditional on them does not succeed. If some choice of values for the references makes the
value read as requested after these have been enabled or disabled, then a call that succeeds enables or disables all of them,
and returns the value with other literal text only, unless an entity would refer to itself. -/
theorem C80_enables_partial [Uni] {isIdent : Str → Bool} {ex : Str → Except Err Str} {value requested v : Str} {pos depth : Nat}
    {es es' : List Entity} (h : update isIdent ex depth value requested pos es = .ok (v, es'))
    (hf : ∀ e ∈ es, e.flipPending = false ∧ e.locked = false)
    (hsub : ∀ x, Available es pos x → ¬ s% "sub_" <+: x) (hv : '\n' ∉ value) (hne : requested ≠ []) (hl : '\n' ∉ requested)
    {entities : List Str} (hent : ∀ x, x ∈ entities ↔ Available es pos x) {nodes : List Node}
    (hn : ValueParser.parse value = .ok nodes) :
    (value = requested ∧ v = value ∧ es' = es) ∨ ∃ flips ps,
      Chosen ex entities (fun x => ∃ e ∈ es, e.position < pos ∧ e.isTag = false ∧ e.name = x) nodes flips ∧
      Parts ex entities flips nodes ps ∧
      (¬ Unseparated ps → ∀ d w, Rewritten d false ps w requested → ∃ d w, Rewritten d false ps w requested ∧
        ((v = w ∧ ∀ x ∈ flips, Pending es' pos x) ∨
          ∃ x s y i e, Part.reference x s ∈ ps ∧ d x = some y ∧ Closest es x pos i ∧ es[i]? = some e ∧ ¬ Independent e y)) := by
  have hmod : ∀ x, x ∈ modifiable es pos ↔ x ∈ entities := fun x =>
    (mem_modifiable (fun e he _ => (hf e he).1)).trans (hent x).symm
  have hfl : ∀ x, x ∈ flippable es pos ↔ ∃ e ∈ es, e.position < pos ∧ e.isTag = false ∧ e.name = x := by
    intro x
    simp only [flippable, List.mem_map, List.mem_filter, Bool.and_eq_true, decide_eq_true_eq, Bool.not_eq_true']
    constructor
    · rintro ⟨e, ⟨k1, ⟨k2, k3⟩, -⟩, k4⟩; exact ⟨e, k1, k2, k3, k4⟩
    · rintro ⟨e, k1, k2, k3, k4⟩; exact ⟨e, ⟨k1, ⟨k2, k3⟩, (hf e k1).1⟩, k4⟩
  have hu : Unlocked es := fun e he => (hf e he).2
  cases depth with
  | zero => simp [update] at h
  | succ fuel =>
    have hk : ∀ v q p es v' es', update isIdent ex fuel v q p es = .ok (v', es') → Kept (Step p) es es' :=
      fun _ _ _ _ _ _ h => update_kept _ h
    unfold update at h
    split at h
    · rename_i heq
      cases h
      exact .inl ⟨heq, heq.symm, rfl⟩
    · right
      split at h
      · cases h
      · rename_i B flips hB
        obtain ⟨nodes', f, ps, ts, c1, c2, c3, ⟨rs, r1, r2⟩, c4, c5⟩ := construct_cases hB
        rw [hn] at c1; cases c1
        refine ⟨f.toFlip, ps, ⟨rs, reached_congr hmod r1, fun x => (r2 x).trans (and_congr_left fun _ => hfl x)⟩, parts_congr hmod c3, ?_⟩
        intro hun d w hr
        rcases c5 with ⟨hs, -, -⟩ | ⟨ts', b, hs, hb, rfl, rfl⟩
        · exact absurd (c4 ▸ squash_none hs) hun
        · subst c4
          obtain ⟨m, hm⟩ := built_complete hv (fun x hx => hsub x ((hent x).mp ((hmod x).mp hx))) hn c3 hs hb hr
          rw [hm] at h
          obtain ⟨ps', d', w', k1, k2, k3⟩ := applyMatch_keeps hk (fun _ h => h) hn hB hm hne hl hu h
          have := parts_unique c3 k1
          subst this
          exact ⟨d', w', k2, k3⟩

/-- the texts of `Text` as a list -/
def textList (es : List Entity) (p : Nat) (v : Str) : List (Option Nat × Str) :=
  (none, v) :: (es.zipIdx.filter (fun e => e.1.position < p)).map (fun e => (some e.2, e.1.value))

theorem textList_mem {es : List Entity} {p : Nat} {v t : Str} {s : Option Nat} {q : Nat} (h : Text es p v s t q) :
    (s, t) ∈ textList es p v := by
  cases s with
  | none => obtain ⟨rfl, -⟩ := h; exact .head _
  | some i =>
    obtain ⟨e, he, hp, rfl, -⟩ := h
    refine .tail _ (List.mem_map.mpr ⟨(e, i), List.mem_filter.mpr ⟨?_, by simpa using hp⟩, rfl⟩)
    rw [List.mem_zipIdx_iff_getElem?]
    exact he

/-- a way to check that texts depend on each other like a tree -/
theorem treeLike_of [Uni] {es : List Entity} {p : Nat} {v : Str}
    (h1 : ∀ a ∈ textList es p v, ∀ b ∈ textList es p v, ∀ x ∈ (references a.2).zipIdx, ∀ y ∈ (references b.2).zipIdx,
      Uni.lower x.1 = Uni.lower y.1 → a.1 = b.1 ∧ x.2 = y.2)
    (h2 : ∀ a ∈ textList es p v, ∀ b ∈ textList es p v, ∀ x ∈ tests a.2, x ∈ tests b.2 ∨ x ∈ references b.2 → a.1 = b.1)
    (h3 : ∀ a ∈ textList es p v, ∀ x ∈ references a.2, ¬ s% "sub_" <+: x) : TreeLike es p v where
  once {s s' t t' _ _ a b x y} ha hb hx hy hxy :=
    h1 (s, t) (textList_mem ha) (s', t') (textList_mem hb) (x, a) (List.mem_zipIdx_iff_getElem?.mpr hx) (y, b)
      (List.mem_zipIdx_iff_getElem?.mpr hy) hxy
  apart {s s' t t' _ _ x} ha hb hx hy := h2 (s, t) (textList_mem ha) (s', t') (textList_mem hb) x hx hy
  names {s t _ x} ha hx := h3 (s, t) (textList_mem ha) x hx

section
attribute [local instance] asciiUni

/-- `C79_written_partial` applies to the sample: it is stable -/
theorem sample_stable : Stable sampleWorld sampleSpec := ⟨by decide +kernel, by decide +kernel, by decide +kernel⟩

/-- macros `major` and `base`, on which `major` depends, and the tag `Name`; `beta` is commented out -/
def sampleEntities : List Entity :=
  [⟨s% "base", s% "4", false, 0, false, false, false, false⟩,
   ⟨s% "beta", s% "b1", false, 1, true, false, false, false⟩,
   ⟨s% "major", s% "v%{base}", false, 2, false, false, false, false⟩,
   ⟨s% "release", s% "1", true, 3, false, false, false, false⟩]

/-- they depend on each other like a tree, when this value on the fifth line is updated -/
example : TreeLike sampleEntities 4 (s% "%{major}.0-%{RELEASE}%{?beta:~%{beta}}") :=
  treeLike_of (by decide +kernel) (by decide +kernel) (by decide +kernel)

/-- The request is met by changing `base`, the tag and `beta`, which is enabled; `major` keeps its macro. -/
theorem sampleEntities_update :
    update anyName sampleExpand 5 (s% "%{major}.0-%{RELEASE}%{?beta:~%{beta}}") (s% "v5.0-2~b7") 4 sampleEntities =
      .ok (s% "%{major}.0-%{RELEASE}%{?beta:~%{beta}}",
        [⟨s% "base", s% "5", false, 0, false, false, true, false⟩,
         ⟨s% "beta", s% "b7", false, 1, true, false, true, true⟩,
         ⟨s% "major", s% "v%{base}", false, 2, false, false, true, false⟩,
         ⟨s% "release", s% "2", true, 3, false, false, true, false⟩]) := by decide +kernel

/-- in this sample `beta` is to be flipped: the only conditional on it fails -/
example : Chosen sampleExpand [s% "beta"] (· = s% "beta") [.lit (s% "1"), .cond (s% "?") (s% "beta") [.lit (s% "~b")]]
    [s% "beta"] := by
  have hd : sampleExpand (s% "%{?" ++ s% "beta" ++ s% ":1}") = .ok [] := by decide +kernel
  refine ⟨[(s% "?", s% "beta")], .other (by rintro _ _ _ ⟨⟩) ?_, fun x => ?_⟩
  · exact .opened (qs := []) (rs := []) (by simp) ⟨[], hd, by simp⟩ (.other (by rintro _ _ _ ⟨⟩) .nil) .nil
  · have hs : ¬ Succeeds sampleExpand [] (s% "?") (s% "beta") := by
      rintro ⟨d, h1, h2⟩
      rw [hd] at h1; cases h1
      simp at h2
    constructor
    · intro hx
      have hx : x = s% "beta" := by simpa using hx
      subst hx
      exact ⟨rfl, s% "?", by decide, hs⟩
    · rintro ⟨rfl, -⟩; simp

/-- C80 fails for a macro on which two others depend: it gets the value that the second one needs, so that the returned value
reads as `2.2`, not as `1.2`. -/
theorem C80_violation_shared : updateValue sampleWorld protectNames (s% "%{a}.%{b}") (s% "1.2") 4
    [s% "%global c 0", s% "%global a %{c}", s% "%global b %{c}", s% "Name: foo", s% "Version: %{a}.%{b}"] =
    ([s% "%global c 2", s% "%global a %{c}", s% "%global b %{c}", s% "Name: foo", s% "Version: %{a}.%{b}"],
      .ok (s% "%{a}.%{b}")) := by decide +kernel

/-- C80 fails for a macro whose name begins with `sub_`: it keeps its value, although another one is needed. -/
theorem C80_violation_name : updateValue sampleWorld protectNames (s% "1.%{sub_a}") (s% "1.7") 2
    [s% "%global sub_a 0", s% "Name: foo", s% "Version: 1.%{sub_a}"] =
    ([s% "%global sub_a 0", s% "Name: foo", s% "Version: 1.%{sub_a}"], .ok (s% "1.%{sub_a}")) := by decide +kernel

/-- C79 fails for macro definitions that are equal: the value refers to the second one, but the first one is written. -/
theorem C79_violation : updateValue sampleWorld protectNames (s% "%{a}") (s% "2") 4
    [s% "%global a 1", s% "%global b 0", s% "%global a 1", s% "Name: foo", s% "Version: %{a}"] =
    ([s% "%global a 2", s% "%global b 0", s% "%global a 1", s% "Name: foo", s% "Version: %{a}"],
      .ok (s% "%{a}")) := by decide +kernel

/-- the hypotheses of `C80_keeps_partial` hold for a value with one reference -/
example : Parts sampleExpand [s% "minor"] [] [.lit (s% "1."), .encl [] (s% "minor") []]
      [.literal (s% "1."), .reference (s% "minor") (s% "%{minor}")] ∧
    ¬ Unseparated [.literal (s% "1."), .reference (s% "minor") (s% "%{minor}")] ∧
    Rewritten (fun _ => some (s% "7")) false [.literal (s% "1."), .reference (s% "minor") (s% "%{minor}")]
      (s% "2.%{minor}") (s% "2.7") := by
  refine ⟨.lit (.reference (.braced rfl) (by simp) .nil), ?_, ?_⟩
  · rintro ⟨a, x, s, y, t, b, h⟩
    rcases a with _ | ⟨a1, _ | ⟨a2, _ | ⟨a3, a⟩⟩⟩ <;> simp at h
  · refine .literal (s := s% "1.") (w := s% "2.") (t := s% "%{minor}") (r := s% "7")
      (.replaced (p := []) (m := s% "1") (q := s% ".") (w := s% "2")
        ⟨.inl rfl, by decide, rfl, ⟨'.', [], rfl, by simp, by decide⟩⟩ (by decide) (by decide) (by decide)) ?_
    exact .reference (w := s% "7") (t := []) (r := []) rfl (by decide) (by decide) .nil

end

end Specfile.Props
