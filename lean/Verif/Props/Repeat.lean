import Verif.Proof.Repeat2
import Verif.Proof.Repeat3
import Verif.Props.UpdateTag
/-
Repeating `update_value` with the same request.
-/
namespace Specfile.Props
open Py Regex Spec Update Template Ops

/-- C97, on the level of macros and tags (full claim: an update that is repeated changes nothing). The second time the same
value is returned, no value of a macro or a tag changes, nothing is to be enabled or disabled, and only what was updated the
first time is marked as updated. Missing: conditionals and macros that are not enclosed, see `C97_violation_conditional` and
`C97_violation_name`; shared references; requests with macros, that are empty or have several lines. -/
theorem C97_entities_partial [Uni] {isIdent : Str → Bool} {ex ex' : Str → Except Err Str} {value requested v : Str}
    {pos depth : Nat} {es es' es2 : List Entity} (h : update isIdent ex depth value requested pos es = .ok (v, es'))
    (hf : ∀ e ∈ es, e.flipPending = false) (ht : TreeLike es pos value)
    (hsimple : ∀ s t q, Text es pos value s t q → Simple t) (hne : requested ≠ []) (hl : '\n' ∉ requested)
    (hp : '%' ∉ requested) (hex : SameConstants es pos value ex ex') (hsame : SameEntities pos es' es2) :
    ∃ es3, update isIdent ex' depth v requested pos es2 = .ok (v, es3) ∧ es3.length = es2.length ∧
      ∀ (i : Nat) e' e2 e3, es'[i]? = some e' → es2[i]? = some e2 → es3[i]? = some e3 →
        e3 = { e2 with updated := e3.updated } ∧ (e3.updated = true → e'.updated = true) := by
  have hrest : Resting es := hf
  obtain ⟨c1, c2⟩ := update_settles ht (fun {s t p} => hsimple s t p) hex depth (s := none) ⟨rfl, rfl⟩ hne hl hp h
    (Kept.refl Shape.refl es) hrest (fun x _ i _ e e' he he' => by rw [he] at he'; cases he'; rfl)
  have hal : Kept (Alike pos) es' es2 := ⟨hsame.length, fun i e e' he he' => by
    have s := hsame.each i e e' he he'
    exact ⟨⟨s.name, s.isTag, s.position⟩, s.value, s.flipPending, fun hu => by rw [s.updated] at hu; cases hu⟩⟩
  have hfree : Free es2 pos := by
    intro e2 he2 _
    obtain ⟨i, hi⟩ := List.getElem?_of_mem he2
    obtain ⟨e', he', -⟩ := hal.back hi
    exact (hsame.each i e' e2 he' hi).locked
  obtain ⟨es3, k1, k2, k3⟩ := settled_update c2 c1.shape (hrest.change c1) (Nat.le_refl _) hal hfree
  have hk := update_kept _ k1
  refine ⟨es3, k1, hk.length, fun i e' e2 e3 he' he2 he3 => ?_⟩
  have a := k2.each i e' e3 he' he3
  have b := hk.each i e2 e3 he2 he3
  have s := hsame.each i e' e2 he' he2
  refine ⟨?_, a.updated⟩
  by_cases hlt : e'.position < pos
  case neg => rw [b.later (by rw [s.position]; omega)]
  have hv := (a.value hlt).trans (s.value hlt).symm
  obtain ⟨n2, v2, t2, p2, d2, l2, u2, f2⟩ := e2
  obtain ⟨n3, v3, t3, p3, d3, l3, u3, f3⟩ := e3
  simp only [Entity.mk.injEq]
  exact ⟨b.name, hv, b.isTag, b.position, b.disabled, b.locked, trivial,
    a.flipPending.trans s.flipPending.symm⟩

/-- the second call, on the lines that the first one left -/
theorem updateValue_again [Uni] {W : World} {prot : Str → Bool} {value requested v : Str} {pos : Nat}
    {lines l' : List Str} (hs' : Stable W l') (hne : requested ≠ []) (hl : '\n' ∉ requested) (hp : '%' ∉ requested)
    {m m2 : MacroDefinitions} {t t2 : Tags} {ms ts es' : List Entity}
    (hms : macroEntities (W.expand lines) prot m m.data = .ok ms) (hts : tagEntities prot t t.data = .ok ts)
    (hu : update W.isIdent (W.expand lines) ((sortEntities (ms ++ ts)).length + 1) value requested pos
      (sortEntities (ms ++ ts)) = .ok (v, es'))
    (hm2 : MacroDefinitions.parse (W.oracle l') true l' = .ok m2) (ht2 : TagsOf W l' t2) (hdm : DistinctMacros m)
    (hdt : DistinctTagNames t) (hcap : ∀ x ∈ t.data, Uni.capitalize (Uni.lower x.name) = Uni.capitalize x.name)
    (htree : TreeLike (sortEntities (ms ++ ts)) pos value)
    (hsimple : ∀ s u q, Text (sortEntities (ms ++ ts)) pos value s u q → Simple u)
    (hex : SameConstants (sortEntities (ms ++ ts)) pos value (W.expand lines) (W.expand l'))
    (hwm : DefinitionsWritten pos es' m m2) (hwt : TagsWritten pos es' t t2)
    (hxp : ∀ d ∈ m2.data, ∃ x, W.expand l' d.body = .ok x) : updateValue W prot v requested pos l' = (l', .ok v) := by
  obtain ⟨ms2, a1, a2⟩ := macroEntities_again (t2 := t2) hdm hwm hxp hms
  obtain ⟨ts2, b1, b2⟩ := tagEntities_again (m2 := m2) hdt hwt hcap hts
  have hboth := (a2.append b2).sort (fun a b h => h.position)
  have hcol := collected_distinct (ex := W.expand lines) (m := m) (t := t) ⟨ms, ts, macros_collected (fun _ h => h) hms,
    tags_collected (fun _ h => h) hts, sortEntities_inOrder _⟩
  have hk := update_kept _ hu
  have hvalue : ∀ (i : Nat) e e' e2, (sortEntities (ms ++ ts))[i]? = some e → es'[i]? = some e' →
      (sortEntities (ms2 ++ ts2))[i]? = some e2 → e.position < pos → e2.value = e'.value := by
    intro i e e' e2 he he' he2 hpos
    have r := hboth.each he he2
    have st := hk.each i e e' he he'
    cases hb : e.isTag with
    | false =>
      obtain ⟨k, d2, c1, c2, c3, c4⟩ := r.definition hb
      obtain ⟨c5, c6⟩ := c4 e' (List.mem_of_getElem? he') (st.isTag.trans hb) st.name
      cases hup : e'.updated with
      | true => rw [c3, (c5 hup).1]
      | false => rw [c3, c6 hup hpos, st.same hup]
    | true =>
      obtain ⟨k, d2, c1, c2, c3, c4⟩ := r.tag hb
      obtain ⟨c5, c6⟩ := c4 e' (List.mem_of_getElem? he') (st.isTag.trans hb) st.name
      cases hup : e'.updated with
      | true => rw [c3, c5 hup]
      | false => rw [c3, c6 hup hpos, st.same hup]
  have hlen : (sortEntities (ms2 ++ ts2)).length = (sortEntities (ms ++ ts)).length := hboth.length
  have hsame : SameEntities pos es' (sortEntities (ms2 ++ ts2)) := by
    refine ⟨by rw [hlen, hk.length], fun i e' e2 he' he2 => ?_⟩
    obtain ⟨e, he, -⟩ := hk.back he'
    have r := hboth.each he he2
    have st := hk.each i e e' he he'
    exact ⟨r.name.trans st.name.symm, r.isTag.trans st.isTag.symm, r.position.trans st.position.symm,
      (fun hpos => hvalue i e e' e2 he he' he2 (st.position ▸ hpos)), r.flipPending, r.locked, r.updated⟩
  obtain ⟨es3, u1, u2, u3⟩ := C97_entities_partial hu (fun e he => (hcol.1 e he).2.2) htree hsimple hne hl hp hex hsame
  have horigin : ∀ e3 ∈ es3, ∃ (i : Nat) (e e' e2 : Entity), (sortEntities (ms ++ ts))[i]? = some e ∧ es'[i]? = some e' ∧
      (sortEntities (ms2 ++ ts2))[i]? = some e2 ∧ e3 = { e2 with updated := e3.updated } ∧
      (e3.updated = true → e'.updated = true) := by
    intro e3 he3
    obtain ⟨i, hi⟩ := List.getElem?_of_mem he3
    have hi2 : i < (sortEntities (ms2 ++ ts2)).length := by rw [← u2]; exact (List.getElem?_eq_some_iff.mp hi).1
    have hi1 : i < (sortEntities (ms ++ ts)).length := by rw [← hlen]; exact hi2
    have hi' : i < es'.length := by rw [hk.length]; exact hi1
    obtain ⟨w1, w2⟩ := u3 i _ _ e3 (List.getElem?_eq_getElem hi') (List.getElem?_eq_getElem hi2) hi
    exact ⟨i, _, _, _, List.getElem?_eq_getElem hi1, List.getElem?_eq_getElem hi', List.getElem?_eq_getElem hi2, w1, w2⟩
  have hsm : syncMacros es3 m2 = (m2, none) := by
    refine syncMacros_same fun e3 he3 hb3 => ?_
    obtain ⟨i, e, e', e2, he, he', he2, w1, w2⟩ := horigin e3 he3
    have r := hboth.each he he2
    have st := hk.each i e e' he he'
    have hb : e.isTag = false := by rw [← r.isTag]; rw [w1] at hb3; exact hb3
    obtain ⟨k, d2, c1, c2, c3, c4⟩ := r.definition hb
    refine ⟨k, d2, c1, by rw [w1]; exact c2, ?_⟩
    unfold syncMacro
    have hv : e3.value = d2.body := by rw [w1]; exact c3
    have hf : e3.flipPending = false := by rw [w1]; exact r.flipPending
    split
    · rename_i hup
      obtain ⟨c5, -⟩ := c4 e' (List.mem_of_getElem? he') (st.isTag.trans hb) st.name
      have hc := (c5 (w2 hup)).2
      obtain ⟨a, b, c, d, e, f, g, h, i, j, k, l⟩ := d2
      simp only at hc hv ⊢
      rw [hv, hc]
    · rw [if_neg (by rw [hf]; simp)]
  have hst : syncTags es3 t2 = (t2, none) := by
    refine syncTags_same fun e3 he3 hb3 => ?_
    obtain ⟨i, e, e', e2, he, he', he2, w1, w2⟩ := horigin e3 he3
    have r := hboth.each he he2
    have hb : e.isTag = true := by rw [← r.isTag]; rw [w1] at hb3; exact hb3
    obtain ⟨k, x2, c1, c2, c3, c4⟩ := r.tag hb
    exact ⟨k, x2, c1, by rw [w1]; exact c2, fun _ => by rw [w1]; exact c3.symm⟩
  have rm : ∀ {α : Type} (f : MacroDefinitions → MacroDefinitions × Except Err α) r, f m2 = (m2, r) → withMacros W l' f = (l', r) := by
    intro α f r hf
    have := hs'.macros
    unfold withMacros at this ⊢
    rw [hm2] at this ⊢
    simp only [Prod.mk.injEq, and_true] at this
    simp only [hf, this]
  have rt : ∀ {α : Type} (f : Tags → Tags × Except Err α) r, f t2 = (t2, r) → withTags W l' f = (l', r) := by
    intro α f r hf
    have := hs'.tags
    obtain ⟨ss, i, s, g1, g2, g3, g4⟩ := ht2
    unfold withTags withSections at this ⊢
    rw [g1] at this ⊢
    simp only [tagsBlock, g2, g3, g4, Prod.mk.injEq, and_true] at this ⊢
    simp only [hf, this, and_self]
  unfold updateValue
  rw [rm (fun m => (m, macroEntities (W.expand l') prot m m.data)) (.ok ms2) (by rw [a1])]
  simp only
  rw [rt (fun t => (t, tagEntities prot t t.data)) (.ok ts2) (by rw [b1])]
  simp only
  rw [hlen, u1]
  simp only
  rw [rm (fun m => ((syncMacros es3 m).1, result () (syncMacros es3 m).2)) (.ok ()) (by rw [hsm]; rfl)]
  simp only
  exact rt (fun t => ((syncTags es3 t).1, result v (syncTags es3 t).2)) (.ok v) (by rw [hst]; rfl)

/-- what the first call did -/
theorem updateValue_first [Uni] {W : World} {prot : Str → Bool} {value requested v : Str} {pos : Nat}
    {lines l' : List Str} (h : updateValue W prot value requested pos lines = (l', .ok v)) (hs : Stable W lines) :
    ∃ m t ms ts es', MacroDefinitions.parse (W.oracle lines) true lines = .ok m ∧ TagsOf W lines t ∧
      macroEntities (W.expand lines) prot m m.data = .ok ms ∧ tagEntities prot t t.data = .ok ts ∧
      update W.isIdent (W.expand lines) ((sortEntities (ms ++ ts)).length + 1) value requested pos
        (sortEntities (ms ++ ts)) = .ok (v, es') := by
  unfold updateValue at h
  split at h
  · cases h
  · rename_i l1 ms h1
    have e1 : l1 = lines := macros_read hs.macros l1 (withMacros_read h1)
    split at h
    · cases h
    · rename_i l2 ts h2
      have e2 : l2 = l1 := by
        subst e1
        exact tags_read hs.sections hs.tags l2 (withTags_read h2)
      subst e2
      subst e1
      split at h
      · cases h
      · rename_i w es' hu
        rcases withMacros_cases h1 with ⟨e, -, -, hc⟩ | ⟨m, hm, -, hms⟩
        · cases hc
        rcases withTags_cases h2 with ⟨e, -, -, hc⟩ | ⟨ss, e, -, -, hc⟩ | ⟨ss, i, s, t, g1, g2, g3, g4, -, hts⟩
        · cases hc
        · cases hc
        split at h
        · cases h
        · rename_i l3 h3
          rcases withTags_cases h with ⟨e, -, -, hc⟩ | ⟨ss, e, -, -, hc⟩ | ⟨ss', i', s', t1, k1, k2, k3, k4, k5, hr4⟩
          · cases hc
          · cases hc
          have hr : v = w := by
            cases hx : (syncTags es' t1).2 with
            | none => rw [hx] at hr4; simpa [result] using hr4
            | some e => rw [hx] at hr4; simp [result] at hr4
          subst hr
          exact ⟨m, t, ms, ts, es', hm, ⟨ss, i, s, g1, g2, g3, g4⟩, hms.symm, hts.symm, hu⟩

/-- C97 (full claim: an update that is repeated changes nothing). The second call returns the same value and leaves the spec
file as it is. Missing: see `C97_entities_partial`; names have to be distinct; and the spec file that the first call left
has to read as the old one with the updated values in their places. If conditions depend on what was updated, it does not,
see `C97_violation_condition`. -/
theorem C97_repeat_partial [Uni] {W : World} {prot : Str → Bool} {value requested v : Str} {pos : Nat}
    {lines l' : List Str} (h : updateValue W prot value requested pos lines = (l', .ok v)) (hs : Stable W lines)
    (hs' : Stable W l') (hne : requested ≠ []) (hl : '\n' ∉ requested) (hp : '%' ∉ requested) :
    ∃ m t es es', MacroDefinitions.parse (W.oracle lines) true lines = .ok m ∧ TagsOf W lines t ∧
      Collected (W.expand lines) prot m t es ∧
      update W.isIdent (W.expand lines) (es.length + 1) value requested pos es = .ok (v, es') ∧
      ∀ m2 t2, MacroDefinitions.parse (W.oracle l') true l' = .ok m2 → TagsOf W l' t2 → DistinctMacros m →
        DistinctTagNames t → (∀ x ∈ t.data, Uni.capitalize (Uni.lower x.name) = Uni.capitalize x.name) →
        TreeLike es pos value → (∀ s u q, Text es pos value s u q → Simple u) →
        SameConstants es pos value (W.expand lines) (W.expand l') → DefinitionsWritten pos es' m m2 → TagsWritten pos es' t t2 →
        (∀ d ∈ m2.data, ∃ x, W.expand l' d.body = .ok x) →
        updateValue W prot v requested pos l' = (l', .ok v) := by
  obtain ⟨m, t, ms, ts, es', hm, ht, hms, hts, hu⟩ := updateValue_first h hs
  refine ⟨m, t, sortEntities (ms ++ ts), es', hm, ht, ⟨ms, ts, macros_collected (fun _ h => h) hms,
    tags_collected (fun _ h => h) hts, sortEntities_inOrder _⟩, hu, ?_⟩
  intro m2 t2 hm2 ht2 hdm hdt hcap htree hsimple hex hwm hwt hxp
  exact updateValue_again hs' hne hl hp hms hts hu hm2 ht2 hdm hdt hcap htree hsimple hex hwm hwt hxp

theorem best_same {α : Type} {p v : α → Prop} {l l' : List α} {k : Nat} (hl : l'.length = l.length)
    (hs : ∀ (i : Nat) x x', l[i]? = some x → l'[i]? = some x' → (p x' ↔ p x) ∧ (v x' ↔ v x)) (h : Best p v l k) : Best p v l' k := by
  have back : ∀ (i : Nat) x', l'[i]? = some x' → ∃ x, l[i]? = some x ∧ (p x' ↔ p x) ∧ (v x' ↔ v x) := by
    intro i x' hx'
    have hi : i < l.length := by rw [← hl]; exact (List.getElem?_eq_some_iff.mp hx').1
    exact ⟨_, List.getElem?_eq_getElem hi, hs i _ x' (List.getElem?_eq_getElem hi) hx'⟩
  obtain ⟨d, h1, h2, h3⟩ := h
  have hk : k < l'.length := by rw [hl]; exact (List.getElem?_eq_some_iff.mp h1).1
  have h1' := List.getElem?_eq_getElem hk
  obtain ⟨c1, c2⟩ := hs k d _ h1 h1'
  refine ⟨_, h1', c1.mpr h2, ?_⟩
  rcases h3 with ⟨h3, h4⟩ | ⟨h3, h4⟩
  · refine .inl ⟨c2.mpr h3, fun j x' hj hx' hp hv => ?_⟩
    obtain ⟨x, hx, a, b⟩ := back j x' hx'
    exact h4 j x hj hx (a.mp hp) (b.mp hv)
  · refine .inr ⟨fun x' hx' hp hv => ?_, fun j x' hj hx' hp => ?_⟩
    · obtain ⟨j, hj⟩ := List.getElem?_of_mem hx'
      obtain ⟨x, hx, a, b⟩ := back j x' hj
      exact h3 x (List.mem_of_getElem? hx) (a.mp hp) (b.mp hv)
    · obtain ⟨x, hx, a, -⟩ := back j x' hx'
      exact h4 j x hj hx (a.mp hp)

/-- C97 for `update_tag`: the second call leaves the spec file as it is. `t` and `t2` are the tags before the first and after
it; the tag that was updated, on line `p`, has the value `v` that `update_value` gave. Missing: as for `C97_repeat_partial`,
see `C97_violation_tag`. -/
theorem C97_tag_partial [Uni] {W : World} {prot : Str → Bool} {name requested : Str} {lines l' : List Str}
    (h : updateTag W prot name requested lines = (l', .ok ())) (hs : Stable W lines) (hs' : Stable W l')
    (hne : requested ≠ []) (hl : '\n' ∉ requested) (hp : '%' ∉ requested) :
    ∃ m t k x p v es es', MacroDefinitions.parse (W.oracle lines) true lines = .ok m ∧ TagsOf W lines t ∧
      TagNamed name t k ∧ t.data[k]? = some x ∧ (DistinctTagNames t → p = tagLine t k) ∧
      Collected (W.expand lines) prot m t es ∧
      update W.isIdent (W.expand lines) (es.length + 1) x.value requested p es = .ok (v, es') ∧
      ∀ m2 t2 x2, MacroDefinitions.parse (W.oracle l') true l' = .ok m2 → TagsOf W l' t2 → DistinctMacros m →
        DistinctTagNames t → (∀ x ∈ t.data, Uni.capitalize (Uni.lower x.name) = Uni.capitalize x.name) →
        TreeLike es p x.value → (∀ s u q, Text es p x.value s u q → Simple u) →
        SameConstants es p x.value (W.expand lines) (W.expand l') → DefinitionsWritten p es' m m2 →
        TagsWritten p es' t t2 → t2.data[k]? = some x2 → x2.value = v →
        (∀ d ∈ m2.data, ∃ y, W.expand l' d.body = .ok y) → updateTag W prot name requested l' = (l', .ok ()) := by
  unfold updateTag at h
  split at h
  · cases h
  rename_i l1 original p h1
  have e1 : l1 = lines := tags_read hs.sections hs.tags l1 (withTags_read h1)
  subst e1
  rcases withTags_cases h1 with ⟨e, -, -, hc⟩ | ⟨ss, e, -, -, hc⟩ | ⟨ss, i, s, t, g1, g2, g3, g4, -, ht⟩
  · cases hc
  · cases hc
  have hto : TagsOf W l1 t := ⟨ss, i, s, g1, g2, g3, g4⟩
  split at h
  · cases h
  rename_i l v h2
  have hk : ∃ k x, TagNamed name t k ∧ t.data[k]? = some x ∧ x.value = original ∧ t.position x = .ok p := by
    rcases named_or name t with ⟨k, hk⟩ | hk
    · obtain ⟨x, hx, -⟩ := named_get hk
      refine ⟨k, x, hk, hx, ?_⟩
      simp only [tagPlace, getTag_ok hk, hx] at ht
      split at ht
      · cases ht
      · rename_i p' hp
        cases ht
        exact ⟨rfl, hp⟩
    · simp only [tagPlace, getTag_none hk] at ht; cases ht
  obtain ⟨k, x, hk, hx, rfl, hpx⟩ := hk
  obtain ⟨m, t', ms, ts, es', hm, ht', hms, hts, hu⟩ := updateValue_first h2 hs
  cases tagsOf_unique hto ht'
  refine ⟨m, t, k, x, p, v, sortEntities (ms ++ ts), es', hm, hto, hk, hx, fun hd => ?_, ⟨ms, ts,
    macros_collected (fun _ h => h) hms, tags_collected (fun _ h => h) hts, sortEntities_inOrder _⟩, hu, ?_⟩
  · rw [tagPosition_index hd hx] at hpx
    cases hpx
    rfl
  intro m2 t2 x2 hm2 ht2 hdm hdt hcap htree hsimple hex hwm hwt hx2 hv hxp
  have hp' : p = tagLine t k := by
    rw [tagPosition_index hdt hx] at hpx
    cases hpx
    rfl
  have hagain := updateValue_again hs' hne hl hp hms hts hu hm2 ht2 hdm hdt hcap htree hsimple hex hwm hwt hxp
  have hk2 : TagNamed name t2 k := best_same hwt.length (fun i x x' a b => by
    obtain ⟨s1, s2, -⟩ := hwt.same i x x' a b
    rw [s1, s2]; exact ⟨Iff.rfl, Iff.rfl⟩) hk
  have hd2 : DistinctTagNames t2 := by
    have back : ∀ (i : Nat) x2, t2.data[i]? = some x2 → ∃ x, t.data[i]? = some x ∧ x2.name = x.name := by
      intro i x2 h2
      have hi : i < t.data.length := by rw [← hwt.length]; exact (List.getElem?_eq_some_iff.mp h2).1
      exact ⟨_, List.getElem?_eq_getElem hi, (hwt.same i _ x2 (List.getElem?_eq_getElem hi) h2).1⟩
    intro i j x y hx hy hxy
    obtain ⟨x', a1, a2⟩ := back i x hx
    obtain ⟨y', b1, b2⟩ := back j y hy
    exact hdt i j x' y' a1 b1 (by rw [← a2, ← b2]; exact hxy)
  have rt : ∀ {α : Type} (f : Tags → Tags × Except Err α) r, f t2 = (t2, r) → withTags W l' f = (l', r) := by
    intro α f r hf
    have := hs'.tags
    obtain ⟨ss, i, s, g1, g2, g3, g4⟩ := ht2
    unfold withTags withSections at this ⊢
    rw [g1] at this ⊢
    simp only [tagsBlock, g2, g3, g4, Prod.mk.injEq, and_true] at this ⊢
    simp only [hf, this, and_self]
  have hplace : tagPlace name t2 = .ok (v, p) := by
    simp only [tagPlace, getTag_ok hk2, hx2, tagPosition_index hd2 hx2, hv]
    rw [(hwt.same k x x2 hx hx2).2.2, hp']
  unfold updateTag
  rw [rt (fun t => (t, tagPlace name t)) (.ok (v, p)) (by rw [hplace])]
  simp only
  rw [hagain]
  simp only
  refine rt _ _ ?_
  rw [assignTag_named v hk2]
  unfold Tags.setValueAt
  rw [modify_same hx2 (by rw [← hv])]

section
attribute [local instance] asciiUni

/-- only what is defined is expanded: `pre` if its definition is not commented out, and `x` is `7` -/
def switchWorld : World :=
  ⟨fun ls s => .ok (if s = s% "%{?pre:1}" ∧ ls.all (fun l => !startsWith (lstrip l) (s% "%global pre")) then [] else
      if s = s% "%x" then s% "7" else s),
    fun _ => sampleOracle, [s% "name", s% "version", s% "release"], anyName⟩

/-- C97 fails for conditionals: the first time nothing fits and the conditional is left alone. The second time part of the
text that was written is taken for the value of `pre`, which is enabled, and another value is returned. -/
theorem C97_violation_conditional :
    updateValue switchWorld protectNames (s% "%{?pre:%{pre}}-5") (s% "1.1.3") 2
      [s% "%dnl %global pre rc1", s% "Name: foo", s% "Version: %{?pre:%{pre}}-5"] =
      ([s% "%dnl %global pre rc1", s% "Name: foo", s% "Version: %{?pre:%{pre}}-5"], .ok (s% "%{?pre:%{pre}}1.1.3")) ∧
    updateValue switchWorld protectNames (s% "%{?pre:%{pre}}1.1.3") (s% "1.1.3") 2
      [s% "%dnl %global pre rc1", s% "Name: foo", s% "Version: %{?pre:%{pre}}1.1.3"] =
      ([s% " %global pre 1.", s% "Name: foo", s% "Version: %{?pre:%{pre}}1.1.3"], .ok (s% "%{?pre:%{pre}}1.3")) := by
  decide +kernel

/-- The same with `update_tag`: the spec file changes twice. -/
theorem C97_violation_tag :
    updateTag switchWorld protectNames (s% "version") (s% "1.1.3")
      [s% "%dnl %global pre rc1", s% "Name: foo", s% "Version: %{?pre:%{pre}}-5"] =
      ([s% "%dnl %global pre rc1", s% "Name: foo", s% "Version: %{?pre:%{pre}}1.1.3"], .ok ()) ∧
    updateTag switchWorld protectNames (s% "version") (s% "1.1.3")
      [s% "%dnl %global pre rc1", s% "Name: foo", s% "Version: %{?pre:%{pre}}1.1.3"] =
      ([s% " %global pre 1.", s% "Name: foo", s% "Version: %{?pre:%{pre}}1.3"], .ok ()) := by
  decide +kernel

/-- C97 fails for macros that are not enclosed: the text written after `%x` continues its name, so that it is another
macro the second time, which is given up. -/
theorem C97_violation_name :
    updateValue switchWorld protectNames (s% "%x-5") (s% "71.2") 1 [s% "Name: foo", s% "Version: %x-5"] =
      ([s% "Name: foo", s% "Version: %x-5"], .ok (s% "%x1.2")) ∧
    updateValue switchWorld protectNames (s% "%x1.2") (s% "71.2") 1 [s% "Name: foo", s% "Version: %x1.2"] =
      ([s% "Name: foo", s% "Version: %x1.2"], .ok (s% "71.2")) := by
  decide +kernel

/-- macros `base` and `major`, on which the value depends, and the tag `Release` -/
def repeatEntities : List Entity :=
  [⟨s% "base", s% "4", false, 0, false, false, false, false⟩,
   ⟨s% "major", s% "v%{base}", false, 2, false, false, false, false⟩,
   ⟨s% "release", s% "1", true, 3, false, false, false, false⟩]

/-- the macro `a` decides whether `b` is defined -/
def conditionWorld : World :=
  ⟨fun _ s => .ok s,
    fun ls _ s => .ok (if s = s% "%{expr:%{a}}" then (if ls.contains (s% "%global a 1") then s% "1" else s% "0") else s),
    [s% "name", s% "version", s% "release"], anyName⟩

/-- C97 fails if a condition depends on what was updated: the second time `b` is not defined, and all macros in the value
are given up. -/
theorem C97_violation_condition :
    updateValue conditionWorld protectNames (s% "%{a}.%{b}") (s% "0.7") 5
      [s% "%global a 1", s% "%if %{a}", s% "%global b 5", s% "%endif", s% "Name: foo", s% "Version: %{a}.%{b}"] =
      ([s% "%global a 0", s% "%if %{a}", s% "%global b 7", s% "%endif", s% "Name: foo", s% "Version: %{a}.%{b}"],
        .ok (s% "%{a}.%{b}")) ∧
    updateValue conditionWorld protectNames (s% "%{a}.%{b}") (s% "0.7") 5
      [s% "%global a 0", s% "%if %{a}", s% "%global b 7", s% "%endif", s% "Name: foo", s% "Version: %{a}.%{b}"] =
      ([s% "%global a 0", s% "%if %{a}", s% "%global b 7", s% "%endif", s% "Name: foo", s% "Version: %{a}.%{b}"],
        .ok (s% "0.7")) := by
  decide +kernel

/-- definitions, tags and entities of `sampleSpec` with the versions `a` and `b` -/
def versionDefinitions (a b : Str) : MacroDefinitions :=
  ⟨[⟨s% "major", a, true, false, .dnl, [], [' '], [' '], [], [], true, []⟩,
    ⟨s% "minor", b, true, false, .dnl, [], [' '], [' '], [], [], true, []⟩],
    [s% "Name: foo", s% "Version: %{major}.%{minor}", s% "Release: 1"]⟩

def versionTags (a b : Str) : Tags :=
  ⟨[⟨s% "Name", s% "foo", s% ": ", ⟨[], [s% "%global major " ++ a, s% "%global minor " ++ b]⟩, true, [], []⟩,
    ⟨s% "Version", s% "%{major}.%{minor}", s% ": ", ⟨[], []⟩, true, [], []⟩,
    ⟨s% "Release", s% "1", s% ": ", ⟨[], []⟩, true, [], []⟩], []⟩

def versionEntities (a b : Str) (u : Bool) : List Entity :=
  [⟨s% "major", a, false, 0, false, false, u, false⟩, ⟨s% "minor", b, false, 1, false, false, u, false⟩,
   ⟨s% "version", s% "%{major}.%{minor}", true, 3, false, false, false, false⟩,
   ⟨s% "release", s% "1", true, 4, false, false, false, false⟩]

/-- `sampleSpec` after both macros were updated -/
def sampleSpec2 : List Str :=
  [s% "%global major 3", s% "%global minor 4", s% "Name: foo", s% "Version: %{major}.%{minor}", s% "Release: 1"]

theorem good_encl [Uni] {n : Str} (h1 : n ≠ []) (h2 : NoFlagStart n) (h3 : ∀ c ∈ n, isSpace c = false) (h4 : ':' ∉ n)
    (h5 : '{' ∉ n) (h6 : '}' ∉ n) : GoodNode (.encl [] n []) := by
  unfold GoodNode
  refine ⟨rfl, h2, ?_, ?_, ?_⟩
  · intro w hw
    have : w = n := by simpa using hw
    subst this
    exact ⟨h1, h3, h4⟩
  · intro q hq
    have hq : q <+: n := by simpa [joinC] using hq
    rw [List.count_eq_zero.mpr (fun h => h6 (hq.subset h))]
    omega
  · simp [joinC, List.count_eq_zero.mpr h5, List.count_eq_zero.mpr h6]

theorem sample_simple (a b : Str) (ha : a ≠ [] ∧ '%' ∉ a ∧ '\n' ∉ a) (hb : b ≠ [] ∧ '%' ∉ b ∧ '\n' ∉ b) :
    ∀ s t q, Text (versionEntities a b false) 3 (s% "%{major}.%{minor}") s t q → Simple t := by
  intro s t q h
  have lit : ∀ s : Str, s ≠ [] ∧ '%' ∉ s ∧ '\n' ∉ s → Simple s := fun s ⟨h1, h2, h3⟩ =>
    ⟨[.lit s], by simp [Node.strs, Node.str], by unfold GoodNodes GoodNodes GoodNode Follows; simp [h1, h2, Node.strs], by
      simpa [Unconditional] using h3⟩
  have encl : ∀ n : Str, (n ≠ [] ∧ (∀ c ∈ n.head?, isFlag c = false) ∧ (∀ c ∈ n, isSpace c = false) ∧ ':' ∉ n ∧ '{' ∉ n ∧
      '}' ∉ n) → GoodNode (.encl [] n []) := fun n ⟨a, b, c, d, e, f⟩ => good_encl a b c d e f
  have ht := textList_mem h
  have ht : t ∈ (textList (versionEntities a b false) 3 (s% "%{major}.%{minor}")).map (·.2) := List.mem_map.mpr ⟨_, ht, rfl⟩
  have e : (textList (versionEntities a b false) 3 (s% "%{major}.%{minor}")).map (·.2) = [s% "%{major}.%{minor}", a, b] := rfl
  rw [e] at ht
  simp only [List.mem_cons, List.not_mem_nil, or_false] at ht
  rcases ht with rfl | rfl | rfl
  · refine ⟨[.encl [] (s% "major") [], .lit (s% "."), .encl [] (s% "minor") []], by decide +kernel, ?_, ?_⟩
    · unfold GoodNodes GoodNodes GoodNodes GoodNodes
      refine ⟨encl _ (by decide +kernel), ⟨?_, ⟨encl _ (by decide +kernel), trivial, ?_⟩, ?_⟩, ?_⟩
      · unfold GoodNode; decide
      · unfold Follows; trivial
      · unfold Follows; decide +kernel
      · unfold Follows; trivial
    · simp [Unconditional]
  · exact lit _ ha
  · exact lit _ hb

/-- `C97_repeat_partial` applies to the sample: all hypotheses hold for its definitions, tags and entities -/
example : Stable sampleWorld sampleSpec2 ∧
    MacroDefinitions.parse (sampleWorld.oracle sampleSpec) true sampleSpec = .ok (versionDefinitions (s% "1") (s% "2")) ∧
    TagsOf sampleWorld sampleSpec (versionTags (s% "1") (s% "2")) ∧
    Collected (sampleWorld.expand sampleSpec) protectNames (versionDefinitions (s% "1") (s% "2")) (versionTags (s% "1") (s% "2"))
      (versionEntities (s% "1") (s% "2") false) ∧
    update sampleWorld.isIdent (sampleWorld.expand sampleSpec) 5 (s% "%{major}.%{minor}") (s% "3.4") 3
      (versionEntities (s% "1") (s% "2") false) = .ok (s% "%{major}.%{minor}", versionEntities (s% "3") (s% "4") true) ∧
    MacroDefinitions.parse (sampleWorld.oracle sampleSpec2) true sampleSpec2 = .ok (versionDefinitions (s% "3") (s% "4")) ∧
    TagsOf sampleWorld sampleSpec2 (versionTags (s% "3") (s% "4")) ∧
    DistinctMacros (versionDefinitions (s% "1") (s% "2")) ∧ DistinctTagNames (versionTags (s% "1") (s% "2")) ∧
    (∀ x ∈ (versionTags (s% "1") (s% "2")).data, Uni.capitalize (Uni.lower x.name) = Uni.capitalize x.name) ∧
    TreeLike (versionEntities (s% "1") (s% "2") false) 3 (s% "%{major}.%{minor}") ∧
    (∀ s u q, Text (versionEntities (s% "1") (s% "2") false) 3 (s% "%{major}.%{minor}") s u q → Simple u) ∧
    SameConstants (versionEntities (s% "1") (s% "2") false) 3 (s% "%{major}.%{minor}") (sampleWorld.expand sampleSpec)
      (sampleWorld.expand sampleSpec2) ∧
    DefinitionsWritten 3 (versionEntities (s% "3") (s% "4") true) (versionDefinitions (s% "1") (s% "2"))
      (versionDefinitions (s% "3") (s% "4")) ∧
    TagsWritten 3 (versionEntities (s% "3") (s% "4") true) (versionTags (s% "1") (s% "2")) (versionTags (s% "3") (s% "4")) ∧
    (∀ d ∈ (versionDefinitions (s% "3") (s% "4")).data, ∃ x, sampleWorld.expand sampleSpec2 d.body = .ok x) := by
  refine ⟨⟨by decide +kernel, by decide +kernel, by decide +kernel⟩, by decide +kernel, ?_, ?_, by decide +kernel,
    by decide +kernel, ?_, by unfold DistinctMacros; decide +kernel, ?_, by decide +kernel,
    treeLike_of (by decide +kernel) (by decide +kernel) (by decide +kernel),
    sample_simple _ _ (by decide) (by decide), fun _ _ _ _ _ _ _ _ _ _ => rfl, ?_, ?_, fun d _ => ⟨_, rfl⟩⟩
  · exact ⟨[⟨s% "package", ⟨[], s% "n:", []⟩, [], s% "\n", sampleSpec⟩], 0, _, by decide +kernel, by decide +kernel, rfl,
      by decide +kernel⟩
  · exact ⟨_, _, macros_collected (es := (versionEntities (s% "1") (s% "2") false).take 2) (fun _ h => h) (by decide +kernel),
      tags_collected (es := (versionEntities (s% "1") (s% "2") false).drop 2) (fun _ h => h) (by decide +kernel),
      sortEntities_inOrder _⟩
  · exact ⟨[⟨s% "package", ⟨[], s% "n:", []⟩, [], s% "\n", sampleSpec2⟩], 0, _, by decide +kernel, by decide +kernel, rfl,
      by decide +kernel⟩
  · intro i j x y hx hy h
    rcases i with _ | _ | _ | i <;> rcases j with _ | _ | _ | j <;> simp [versionTags] at hx hy <;> subst hx <;> subst hy <;>
      first | rfl | exact absurd h (by decide +kernel)
  · refine ⟨rfl, ?_, ?_, ?_⟩
    · intro i d d' hd hd'
      rcases i with _ | _ | i <;> simp [versionDefinitions] at hd hd' <;> subst hd <;> subst hd' <;>
        exact ⟨rfl, rfl, by decide +kernel⟩
    · intro i d d' e hd hd' he _ hn _
      simp [versionEntities] at he
      rcases i with _ | _ | i <;> simp [versionDefinitions] at hd hd' <;> subst hd <;> subst hd' <;>
        rcases he with rfl | rfl | rfl | rfl <;> simp_all
    · intro i d d' e hd hd' he _ hn _
      simp [versionEntities] at he
      rcases i with _ | _ | i <;> simp [versionDefinitions] at hd hd' <;> subst hd <;> subst hd' <;>
        rcases he with rfl | rfl | rfl | rfl <;> simp_all
  · refine ⟨rfl, ?_, ?_, ?_⟩
    · intro i d d' hd hd'
      rcases i with _ | _ | _ | i <;> simp [versionTags] at hd hd' <;> subst hd <;> subst hd' <;>
        exact ⟨rfl, rfl, by decide +kernel⟩
    · intro i d d' e hd hd' he ht hn hu
      simp [versionEntities] at he
      rcases he with rfl | rfl | rfl | rfl <;> simp_all
    · intro i d d' e hd hd' he ht hn _ _
      rcases i with _ | _ | _ | i <;> simp [versionTags] at hd hd' <;> subst hd <;> subst hd' <;> rfl

/-- and `C97_tag_partial` as well: the tag has the value that is returned, before and after -/
example : TagNamed (s% "version") (versionTags (s% "1") (s% "2")) 1 ∧
    (∃ x, (versionTags (s% "3") (s% "4")).data[1]? = some x ∧ x.value = s% "%{major}.%{minor}") ∧
    tagLine (versionTags (s% "1") (s% "2")) 1 = 3 ∧
    updateTag sampleWorld protectNames (s% "version") (s% "3.4") sampleSpec = (sampleSpec2, .ok ()) ∧
    updateTag sampleWorld protectNames (s% "version") (s% "3.4") sampleSpec2 = (sampleSpec2, .ok ()) := by
  refine ⟨⟨_, rfl, by decide +kernel, .inl ⟨rfl, ?_⟩⟩, ⟨_, rfl, rfl⟩, by decide +kernel, by decide +kernel, by decide +kernel⟩
  intro j x hj hx hp
  have : j = 0 := by omega
  subst this
  cases hx
  exact absurd hp (by decide +kernel)

theorem repeat_simple : ∀ s t q, Text repeatEntities 4 (s% "%{major}.0-%{RELEASE}") s t q → Simple t := by
  intro s t q h
  have lit : ∀ s : Str, s ≠ [] → '%' ∉ s → '\n' ∉ s → Simple s := fun s h1 h2 h3 =>
    ⟨[.lit s], by simp [Node.strs, Node.str], by unfold GoodNodes GoodNodes GoodNode Follows; simp [h1, h2, Node.strs], by
      simpa [Unconditional] using h3⟩
  have encl : ∀ n : Str, (n ≠ [] ∧ (∀ c ∈ n.head?, isFlag c = false) ∧ (∀ c ∈ n, isSpace c = false) ∧ ':' ∉ n ∧ '{' ∉ n ∧
      '}' ∉ n) → GoodNode (.encl [] n []) := fun n ⟨a, b, c, d, e, f⟩ => good_encl a b c d e f
  have ht := textList_mem h
  have ht : t ∈ (textList repeatEntities 4 (s% "%{major}.0-%{RELEASE}")).map (·.2) := List.mem_map.mpr ⟨_, ht, rfl⟩
  have e : (textList repeatEntities 4 (s% "%{major}.0-%{RELEASE}")).map (·.2) =
      [s% "%{major}.0-%{RELEASE}", s% "4", s% "v%{base}", s% "1"] := by decide +kernel
  rw [e] at ht
  simp only [List.mem_cons, List.not_mem_nil, or_false] at ht
  rcases ht with rfl | rfl | rfl | rfl
  · refine ⟨[.encl [] (s% "major") [], .lit (s% ".0-"), .encl [] (s% "RELEASE") []], by decide +kernel, ?_, ?_⟩
    · unfold GoodNodes GoodNodes GoodNodes GoodNodes
      refine ⟨encl _ (by decide +kernel), ⟨?_, ⟨encl _ (by decide +kernel), trivial, ?_⟩, ?_⟩, ?_⟩
      · unfold GoodNode; decide
      · unfold Follows; trivial
      · unfold Follows; decide +kernel
      · unfold Follows; trivial
    · simp [Unconditional]
  · exact lit _ (by decide) (by decide) (by decide)
  · refine ⟨[.lit (s% "v"), .encl [] (s% "base") []], by decide +kernel, ?_, ?_⟩
    · unfold GoodNodes GoodNodes GoodNodes
      refine ⟨?_, ⟨encl _ (by decide +kernel), trivial, ?_⟩, ?_⟩
      · unfold GoodNode; decide
      · unfold Follows; trivial
      · unfold Follows; decide +kernel
    · simp [Unconditional]
  · exact lit _ (by decide) (by decide) (by decide)

/-- `C97_entities_partial` applies: `base`, the tag and the literal text are changed, and the second time they are not. -/
example : ∃ v es' es3,
    update anyName sampleExpand 5 (s% "%{major}.0-%{RELEASE}") (s% "v5.7-2") 4 repeatEntities = .ok (v, es') ∧
    update anyName sampleExpand 5 v (s% "v5.7-2") 4 (es'.map (fun e => { e with updated := false, locked := false })) =
      .ok (v, es3) ∧ v = s% "%{major}.7-%{RELEASE}" := by
  have h : update anyName sampleExpand 5 (s% "%{major}.0-%{RELEASE}") (s% "v5.7-2") 4 repeatEntities =
      .ok (s% "%{major}.7-%{RELEASE}", [⟨s% "base", s% "5", false, 0, false, false, true, false⟩,
        ⟨s% "major", s% "v%{base}", false, 2, false, false, true, false⟩,
        ⟨s% "release", s% "2", true, 3, false, false, true, false⟩]) := by decide +kernel
  obtain ⟨es3, h3, -⟩ := C97_entities_partial h (by decide)
    (treeLike_of (by decide +kernel) (by decide +kernel) (by decide +kernel)) repeat_simple (by decide) (by decide) (by decide)
    (ex' := sampleExpand) (fun _ _ _ _ _ _ _ _ _ _ => rfl) (es2 := List.map (fun e : Entity => { e with updated := false, locked := false }) _)
    ⟨List.length_map _, fun i e e' he he' => by
      rw [List.getElem?_map, he] at he'
      cases he'
      have : e.flipPending = false := by
        have := List.mem_of_getElem? he
        simp only [List.mem_cons, List.not_mem_nil, or_false] at this
        rcases this with rfl | rfl | rfl <;> rfl
      exact ⟨rfl, rfl, rfl, fun _ => rfl, this, rfl, rfl⟩⟩
  exact ⟨_, _, es3, h, h3, rfl⟩

end

end Specfile.Props
