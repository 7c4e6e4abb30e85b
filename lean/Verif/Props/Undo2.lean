import Verif.Props.Undo
/-
C100: sources that are appended and deleted again.
-/
namespace Specfile.Props
open Py Spec Sources Proof.Undo

section
variable [Uni]

omit [Uni] in
theorem noListItems {ls : List Sourcelist} (h : ∀ l ∈ ls, l.data = []) (first k : Nat) : allListItems first k ls = [] := by
  induction ls generalizing k with
  | nil => rfl
  | cons l ls ih =>
    rw [allListItems, h l (by simp), ih (fun l hl => h l (by simp [hl]))]
    rfl

/-- the items if the last source is this tag -/
theorem items_last {s : Sources} {a b : List Tag} {t : Tag} {e : Option Nat} (h : s.tags.data = a ++ t :: b)
    (he : entryM s.kind t = some e) (hb : vals s.kind b = []) (hl : ∀ l ∈ s.lists, l.data = []) :
    s.getTags = tagLoop s.kind 0 0 a ++ [srcOf a.length (nextOf 0 (ents s.kind a)) t e] ∧
    s.items = (tagLoop s.kind 0 0 a).map .tag ++ [.tag (srcOf a.length (nextOf 0 (ents s.kind a)) t e)] ∧
    s.items.length = (vals s.kind a).length + 1 := by
  have hb' : ∀ n i, tagLoop s.kind n i b = [] := by
    intro n i
    have := congrArg List.length (tagLoop_numbers s.kind n i b).2
    rw [hb] at this
    exact List.length_eq_zero_iff.1 (by simpa using this)
  have hg : s.getTags = tagLoop s.kind 0 0 a ++ [srcOf a.length (nextOf 0 (ents s.kind a)) t e] := by
    unfold getTags
    rw [h, tagLoop_append, tagLoop_cons_some he, hb', Nat.zero_add]
  have hi : s.items = (tagLoop s.kind 0 0 a).map .tag ++ [.tag (srcOf a.length (nextOf 0 (ents s.kind a)) t e)] := by
    unfold items
    rw [noListItems hl, hg]
    simp
  refine ⟨hg, hi, ?_⟩
  have := congrArg List.length (tagLoop_numbers s.kind 0 0 a).2
  rw [List.length_map] at this
  rw [hi]
  simp [this]

/-- C100: a source that is appended as a tag, after the last one, and deleted again leaves the sources and all tags as they were,
exactly if there were no two empty lines where it went. -/
theorem C100_append_source_partial {s s' : Sources} {loc : Str} {a b : List Tag} {t : Tag} (h : s.tags.data = a ++ t :: b)
    (ht : (sourceEntry s.kind t).isSome = true) (hb : Spec.sourceTags s.kind b = []) (hl : ∀ l ∈ s.lists, l.data = [])
    (ha : s.append loc = (s', none)) :
    s'.del s.len = (s, none) ↔ ¬ BlankPair (linesAt s.tags (a.length + 1)) := by
  obtain ⟨e, he⟩ : ∃ e, entryM s.kind t = some e := by
    rw [← entryM_isSome] at ht
    exact Option.isSome_iff_exists.1 ht
  rw [sourceTags_nil] at hb
  obtain ⟨g1, g2, g3⟩ := items_last h he hb hl
  generalize hts : srcOf a.length (nextOf 0 (ents s.kind a)) t e = ts at g1 g2
  have hidx : ts.idx = a.length := by rw [← hts]; rfl
  have hlast : s.items.getLast? = some (.tag ts) := by rw [g2]; simp
  have hne : s.items.isEmpty = false := by rw [g2]; simp
  have hlen : s.len = s.items.length := rfl
  -- what was appended
  obtain ⟨n, hn⟩ : ∃ n, n = number ts + 1 := ⟨_, rfl⟩
  have ha : s.insertNext s.len loc (.tag ts) 1 n = (s', none) := by
    unfold Sources.append Sources.insert at ha
    by_cases hd : (!s.allowDuplicates && s.contains loc) = true
    · rw [if_pos hd] at ha
      simp at ha
    · rw [if_neg hd] at ha
      simp only [hne, Bool.not_false, if_true, hlast] at ha
      rw [if_neg (show ¬ ((s.len : Int) > (s.items.length : Int)) by omega), if_pos (by omega)] at ha
      rw [hn]
      exact ha
  simp only [insertNext] at ha
  generalize hnew : newTag (s.tagFormat ts n none).1 loc (s.tagFormat ts n none).2 ts.tag.valid = new at ha
  have hpre : new.comments.preceding = [] := by rw [← hnew]; rfl
  obtain ⟨-, -, ⟨e', he'⟩, -⟩ := tagFormat_near h he a.length (nextOf 0 (ents s.kind a)) n (new := new)
    (by rw [hts, ← hnew]; rfl)
  have hk : a.length + 1 ≤ s.tags.data.length := by rw [h]; simp
  obtain ⟨c1, c2⟩ := C100_insert_tag s.tags (a.length + 1) hk new hpre
  obtain ⟨tags, q1, q2⟩ := insertTag_spec s (a := a ++ [t]) (b := b) new (by simp [h])
  have hlen2 : (a ++ [t]).length = a.length + 1 := by simp
  rw [hlen2] at q1
  rw [hidx, q1] at ha
  have htags : tags = (s.tags.insert ((a.length + 1 : Nat) : Int) new).1 := by
    unfold insertTag at q1
    have := congrArg (fun r : Res => r.1.tags) q1
    exact this.symm
  rw [← htags] at c2
  -- the tags after it
  obtain ⟨A, N, B, hd, hA, hN, hB⟩ : ∃ A N B, tags.data = A ++ N :: B ∧ A.map bare = (a ++ [t]).map bare ∧ bare N = bare new ∧
      B.map bare = b.map bare := by
    rw [List.map_append, List.map_cons] at q2
    obtain ⟨A, R, hAR, hA, hR⟩ := List.map_eq_append_iff.1 q2
    obtain ⟨N, B, rfl, hN, hB⟩ := List.map_eq_cons_iff.1 hR
    exact ⟨A, N, B, hAR, hA, hN, hB⟩
  have hNe : entryM s.kind N = some e' := by rw [← entryM_bare, hN, entryM_bare]; exact he'
  have hBv : vals s.kind B = [] := by rw [vals_of_bare hB]; exact hb
  have hAl : A.length = a.length + 1 := by
    have := congrArg List.length hA
    simpa using this
  have hAv : (vals s.kind A).length = (vals s.kind a).length + 1 := by
    rw [vals_of_bare hA, vals_append, vals_cons_some he]
    simp [vals]
  obtain ⟨r1, r2, r3⟩ := items_last (s := { s with tags := tags }) hd hNe hBv hl
  have hgl : ({ s with tags := tags } : Sources).getTags.length = s.len + 1 := by
    rw [getTags_length]
    show (vals s.kind tags.data).length = _
    rw [hd, vals_append, vals_cons_some hNe, hBv, hlen, g3]
    simp [hAv]
  have hloop : (tagLoop s.kind 0 0 A).length = s.len := by
    have := congrArg List.length r1
    rw [hgl] at this
    simp at this
    exact this.symm
  -- nothing is renumbered
  have hdd : dedup { s with tags := tags } s.len = ({ s with tags := tags }, none) := by
    unfold dedup
    have hc : clampBound ({ s with tags := tags } : Sources).getTags.length s.len = s.len := by
      rw [hgl]
      unfold clampBound
      split <;> omega
    have hne2 : ({ s with tags := tags } : Sources).getTags.isEmpty = false := by
      rw [r1]; simp
    simp only [hne2, hc, Bool.false_eq_true, if_false]
    have hdrop : ({ s with tags := tags } : Sources).getTags.drop s.len =
        [srcOf A.length (nextOf 0 (ents s.kind A)) N e'] := by
      rw [r1, show s.len = (tagLoop s.kind 0 0 A).length from hloop.symm]
      exact List.drop_left
    rw [hdrop]
    rfl
  simp only at ha
  rw [hdd] at ha
  cases ha
  -- deleting it
  have hget : ({ s with tags := tags } : Sources).get s.len =
      .ok (.tag (srcOf A.length (nextOf 0 (ents s.kind A)) N e')) := by
    unfold Sources.get
    have hil : ({ s with tags := tags } : Sources).items.length = s.len + 1 := by
      rw [r3, hlen, g3]
      show (vals s.kind A).length + 1 = _
      omega
    rw [hil, pyIndex_ofNat (by omega)]
    simp only
    rw [r2, List.getElem?_append_right (by rw [List.length_map]; exact Nat.le_of_eq hloop)]
    rw [List.length_map]
    have : s.len - (tagLoop ({ s with tags := tags } : Sources).kind 0 0 A).length = 0 := by
      rw [show (tagLoop ({ s with tags := tags } : Sources).kind 0 0 A).length = s.len from hloop]
      omega
    rw [this]
    rfl
  unfold del
  rw [hget]
  simp only [delItem]
  rw [show (srcOf A.length (nextOf 0 (ents s.kind A)) N e').idx = a.length + 1 from hAl, ← c2]
  constructor
  · intro hx
    simp only [Prod.mk.injEq] at hx
    obtain ⟨x1, x2⟩ := hx
    have x1 := congrArg Sources.tags x1
    exact Prod.ext x1 x2
  · intro hx
    rw [hx]

omit [Uni] in
theorem listItems_snoc (first k i : Nat) (d : List SourcelistEntry) (x : SourcelistEntry) :
    listItems first k i (d ++ [x]) = listItems first k i d ++ [.entry x (first + (i + d.length)) k (i + d.length)] := by
  induction d generalizing i with
  | nil => simp [listItems]
  | cons y d ih =>
    rw [List.cons_append, listItems, ih, listItems]
    simp only [List.cons_append, List.length_cons]
    rw [show i + 1 + d.length = i + (d.length + 1) by omega]

omit [Uni] in
theorem allListItems_split {la lb : List Sourcelist} {l : Sourcelist} (hb : ∀ x ∈ lb, x.data = []) (first k : Nat) :
    allListItems first k (la ++ l :: lb) = allListItems first k la ++ listItems first (k + la.length) 0 l.data := by
  induction la generalizing k with
  | nil => simp [allListItems, noListItems hb]
  | cons x la ih =>
    rw [List.cons_append, allListItems, ih, allListItems]
    simp only [List.append_assoc, List.length_cons]
    rw [show k + 1 + la.length = k + (la.length + 1) by omega]

omit [Uni] in
theorem last_such {α : Type} {P : α → Prop} {ls : List α} (h : ∃ l ∈ ls, P l) :
    ∃ la l lb, ls = la ++ l :: lb ∧ P l ∧ ∀ x ∈ lb, ¬ P x := by
  induction ls with
  | nil => obtain ⟨_, h, _⟩ := h; cases h
  | cons y ls ih =>
    by_cases hh : ∃ l ∈ ls, P l
    · obtain ⟨la, l, lb, rfl, h1, h2⟩ := ih hh
      exact ⟨y :: la, l, lb, rfl, h1, h2⟩
    · obtain ⟨l, hl, hp⟩ := h
      rcases List.mem_cons.1 hl with rfl | hl
      · exact ⟨[], l, ls, rfl, hp, fun x hx hq => hh ⟨x, hx, hq⟩⟩
      · exact absurd ⟨l, hl, hp⟩ hh

/-- deleting the entry that was put at the end of the last list -/
theorem del_entry {s : Sources} {la lb : List Sourcelist} {l : Sourcelist} (h : s.lists = la ++ l :: lb)
    (hb : ∀ x ∈ lb, x.data = []) (x : SourcelistEntry) :
    ({ s with lists := la ++ { l with data := l.data ++ [x] } :: lb } : Sources).del s.len = (s, none) := by
  generalize hs1 : ({ s with lists := la ++ { l with data := l.data ++ [x] } :: lb } : Sources) = s1
  have hlists : s1.lists = la ++ { l with data := l.data ++ [x] } :: lb := by rw [← hs1]
  have hitems : s1.items = s.items ++
      [.entry x (s.firstListNumber + (0 + l.data.length)) (0 + la.length) (0 + l.data.length)] := by
    unfold items
    rw [hlists, h, allListItems_split hb, allListItems_split hb, listItems_snoc]
    have e1 : s1.getTags = s.getTags := by rw [← hs1]; rfl
    have e2 : s1.firstListNumber = s.firstListNumber := by rw [← hs1]; rfl
    rw [e1, e2]
    simp only [List.append_assoc]
  have hget : s1.get s.len = .ok (.entry x (s.firstListNumber + (0 + l.data.length)) (0 + la.length) (0 + l.data.length)) := by
    unfold Sources.get
    have hlen : s.len = s.items.length := rfl
    rw [hitems, hlen, pyIndex_ofNat (by simp)]
    simp
  unfold del
  rw [hget]
  simp only [delItem, Nat.zero_add, hlists]
  have hg : (la ++ { l with data := l.data ++ [x] } :: lb)[la.length]? = some { l with data := l.data ++ [x] } := by simp
  rw [hg]
  simp only [Option.map_some, Option.getD_some, List.length_append, List.length_cons, List.length_nil]
  rw [if_pos (by omega)]
  have hm : (la ++ { l with data := l.data ++ [x] } :: lb).modify la.length (fun l' => { l' with data := l'.data.eraseIdx l.data.length })
      = la ++ l :: lb := by
    have := modify_take (l := la ++ l :: lb) (k := la.length) (by simp)
      (fun l' : Sourcelist => { l' with data := l'.data.eraseIdx l.data.length }) { l with data := l.data ++ [x] } lb
    rw [List.take_left] at this
    rw [this]
    have e := (take_cons_erase (Nat.le_refl l.data.length) x []).1
    rw [List.take_length, List.append_nil] at e
    simp only [e]
  rw [hm, ← hs1, ← h]

/-- C100: a source that is appended as an entry of a list, which is the case if some list has entries or there are lists and no
sources, and deleted again leaves everything as it was. -/
theorem C100_append_entry {s s' : Sources} {loc : Str}
    (hl : (∃ l ∈ s.lists, l.data ≠ []) ∨ allLocations s.kind s = [] ∧ s.lists ≠ [])
    (ha : s.append loc = (s', none)) : s'.del s.len = (s, none) := by
  have hlen : s.len = s.items.length := rfl
  unfold Sources.append Sources.insert at ha
  by_cases hd : (!s.allowDuplicates && s.contains loc) = true
  · rw [if_pos hd] at ha
    simp at ha
  rw [if_neg hd] at ha
  rcases hl with hl | ⟨hl, hn⟩
  · obtain ⟨la, l, lb, h, h1, h2⟩ := last_such hl
    have h2 : ∀ x ∈ lb, x.data = [] := by
      intro x hx
      cases hxd : x.data with
      | nil => rfl
      | cons y d => exact absurd (by simp [hxd]) (h2 x hx)
    obtain ⟨d, y, hdy⟩ : ∃ d y, l.data = d ++ [y] := ⟨_, _, (List.dropLast_concat_getLast h1).symm⟩
    have hitems : ∃ pre n, s.items = pre ++ [.entry y n (0 + la.length) (0 + d.length)] := by
      refine ⟨s.getTags.map .tag ++ (allListItems s.firstListNumber 0 la ++ listItems s.firstListNumber (0 + la.length) 0 d),
        s.firstListNumber + (0 + d.length), ?_⟩
      unfold items
      rw [h, allListItems_split h2, hdy, listItems_snoc]
      simp only [List.append_assoc]
    obtain ⟨pre, n, hi⟩ := hitems
    have hne : s.items.isEmpty = false := by rw [hi]; simp
    have hlast : s.items.getLast? = some (.entry y n (0 + la.length) (0 + d.length)) := by rw [hi]; simp
    simp only [hne, Bool.not_false, if_true, hlast] at ha
    rw [if_neg (show ¬ ((s.len : Int) > (s.items.length : Int)) by omega), if_pos (by omega)] at ha
    simp only [insertNext, Prod.mk.injEq, and_true, Nat.zero_add] at ha
    rw [h] at ha
    have hm : ∀ f : Sourcelist → Sourcelist, (la ++ l :: lb).modify la.length f = la ++ f l :: lb := by
      intro f
      have := modify_take (l := la ++ l :: lb) (k := la.length) (by simp) f l lb
      rwa [List.take_left] at this
    rw [hm] at ha
    have hdl : l.data.length = d.length + 1 := by rw [hdy]; simp
    simp only [← hdl, List.take_length, List.drop_length] at ha
    rw [← ha]
    exact del_entry h h2 _
  · have hi : s.items = [] := by
      apply List.length_eq_zero_iff.1
      rw [items_length, locations_spec, hl]
      rfl
    obtain ⟨la, l, h⟩ : ∃ la l, s.lists = la ++ [l] := ⟨_, _, (List.dropLast_concat_getLast hn).symm⟩
    have hle : s.lists.isEmpty = false := by rw [h]; simp
    simp only [hi, List.isEmpty_nil, Bool.not_true, Bool.false_eq_true, if_false, hle, Bool.not_false, if_true, Prod.mk.injEq,
      and_true] at ha
    have hk : s.lists.length - 1 = la.length := by rw [h]; simp
    rw [hk, h] at ha
    have hm := modify_take (l := la ++ [l]) (k := la.length) (by simp) (fun l : Sourcelist =>
        { l with data := l.data ++ [⟨loc, ⟨[], []⟩, true⟩] }) l []
    rw [List.take_left] at hm
    rw [hm] at ha
    rw [← ha]
    exact del_entry h (by simp) _

/-- C100: a source or patch that is appended to a spec file without any, as a tag, and deleted again leaves everything as it was,
exactly if there were no two empty lines where it went. -/
theorem C100_append_first_partial {s s' : Sources} {loc : Str} (hs : allLocations s.kind s = []) (hl : s.lists = [])
    (ha : s.append loc = (s', none)) :
    ∃ k, FirstPlace s.patches s.tags.data k ∧ (s'.del 0 = (s, none) ↔ ¬ BlankPair (linesAt s.tags k)) := by
  have hi : s.items = [] := by
    apply List.length_eq_zero_iff.1
    rw [items_length, locations_spec, hs]
    rfl
  have hv : vals s.kind s.tags.data = [] := by
    rw [← locations_spec, locations_eq, List.append_eq_nil_iff] at hs
    exact hs.1
  have hgt : s.getTags = [] := List.length_eq_zero_iff.1 (by rw [getTags_length, hv]; rfl)
  obtain ⟨h1, h2⟩ := initial_entry s 0 hgt
  have hplace : FirstPlace s.patches s.tags.data (s.initial 0).1 := by
    unfold initial
    cases hp : s.patches with
    | false => exact .inl ⟨.inl rfl, rfl⟩
    | true =>
      simp only [if_true]
      obtain ⟨l1, l2⟩ := sourceTags_last s.tags.data 0
      cases hr : (Sources.sourceTags 0 s.tags.data).getLast? with
      | none => exact .inl ⟨.inr (by simpa using l1 hr), rfl⟩
      | some ref =>
        obtain ⟨a, t, b, h1, h2, h3, h4⟩ := l2 ref hr
        refine .inr ⟨rfl, a, t, b, h1, h3, ?_, ?_⟩
        · simpa using h4
        · simp only [h2, Nat.zero_add]
  refine ⟨_, hplace, ?_⟩
  unfold Sources.append Sources.insert at ha
  by_cases hd : (!s.allowDuplicates && s.contains loc) = true
  · rw [if_pos hd] at ha
    simp at ha
  rw [if_neg hd] at ha
  simp only [hi, hl, List.isEmpty_nil, Bool.not_true, Bool.false_eq_true, if_false] at ha
  generalize hnew : newTag (s.initial 0).2.1 loc (s.initial 0).2.2 s.lastValid = new at ha
  obtain ⟨e, hh⟩ : ∃ e, entryM s.kind new = some e := ⟨_, (h2 new (by rw [← hnew]; rfl)).1⟩
  generalize hk : (s.initial 0).1 = k at *
  have hpre : new.comments.preceding = [] := by rw [← hnew]; rfl
  obtain ⟨c1, c2⟩ := C100_insert_tag s.tags k h1 new hpre
  have hsplit : s.tags.data = s.tags.data.take k ++ s.tags.data.drop k := by simp
  have hva : vals s.kind (s.tags.data.take k) = [] ∧ vals s.kind (s.tags.data.drop k) = [] := by
    have := hv
    rw [hsplit, vals_append, List.append_eq_nil_iff] at this
    exact this
  obtain ⟨tags, q1, q2⟩ := insertTag_spec s new hsplit
  rw [List.length_take, Nat.min_eq_left h1] at q1
  have htags : tags = (s.tags.insert (k : Int) new).1 := by
    unfold insertTag at q1
    have := congrArg (fun r : Res => r.1.tags) q1
    exact this.symm
  rw [← htags] at c2
  rw [q1] at ha
  cases ha
  obtain ⟨A, N, B, hd, hA, hN, hB⟩ : ∃ A N B, tags.data = A ++ N :: B ∧ A.map bare = (s.tags.data.take k).map bare ∧
      bare N = bare new ∧ B.map bare = (s.tags.data.drop k).map bare := by
    rw [List.map_append, List.map_cons] at q2
    obtain ⟨A, R, hAR, hA, hR⟩ := List.map_eq_append_iff.1 q2
    obtain ⟨N, B, rfl, hN, hB⟩ := List.map_eq_cons_iff.1 hR
    exact ⟨A, N, B, hAR, hA, hN, hB⟩
  have hNe := hh
  rw [← entryM_bare, ← hN, entryM_bare] at hNe
  have hBv : vals s.kind B = [] := by rw [vals_of_bare hB]; exact hva.2
  have hAv : vals s.kind A = [] := by rw [vals_of_bare hA]; exact hva.1
  have hAl : A.length = k := by
    have := congrArg List.length hA
    simp only [List.length_map, List.length_take] at this
    omega
  obtain ⟨r1, r2, r3⟩ := items_last (s := { s with tags := tags }) hd hNe hBv (by simp [hl])
  have hloop : tagLoop s.kind 0 0 A = [] := by
    apply List.length_eq_zero_iff.1
    have := congrArg List.length r2
    rw [r3] at this
    simp only [List.length_append, List.length_map, List.length_cons, List.length_nil] at this
    have hz : (vals ({ s with tags := tags } : Sources).kind A).length = 0 := by
      show (vals s.kind A).length = 0
      rw [hAv]; rfl
    rw [hz] at this
    exact (show (tagLoop s.kind 0 0 A).length + (0 + 1) = 0 + 1 from this.symm) |> fun h => by omega
  have hget : ({ s with tags := tags } : Sources).get 0 =
      .ok (.tag (srcOf A.length (nextOf 0 (ents s.kind A)) N e)) := by
    unfold Sources.get
    have r2 : ({ s with tags := tags } : Sources).items = [.tag (srcOf A.length (nextOf 0 (ents s.kind A)) N e)] := by
      rw [r2]
      show (tagLoop s.kind 0 0 A).map SourceItem.tag ++ _ = _
      rw [hloop]
      rfl
    rw [r2]
    rfl
  unfold del
  rw [hget]
  simp only [delItem]
  rw [show (srcOf A.length (nextOf 0 (ents s.kind A)) N e).idx = k from hAl, ← c2]
  constructor
  · intro hx
    simp only [Prod.mk.injEq] at hx
    obtain ⟨x1, x2⟩ := hx
    have x1 := congrArg Sources.tags x1
    exact Prod.ext x1 x2
  · intro hx
    rw [hx]

end

section
attribute [local instance] asciiUni

/-- sources that are tags -/
def undoSources : Sources :=
  ⟨⟨[exTag (s% "Source0") (s% "a"), exTag (s% "Source1") (s% "b"), undoTag (s% "License") (s% "MIT") [s% ""]], []⟩, [⟨[], []⟩],
    false, false, false, 1⟩

/-- the hypotheses of `C100_append_source_partial` -/
example : ∃ s', undoSources.append (s% "n") = (s', none) ∧ s'.tags.data.map (·.name) = [s% "Source0", s% "Source1", s% "Source2",
    s% "License"] ∧ s'.del undoSources.len = (undoSources, none) := by
  have h : undoSources.append (s% "n") = ((undoSources.append (s% "n")).1, none) := Prod.ext rfl (by decide +kernel)
  refine ⟨_, h, by decide +kernel, (C100_append_source_partial (loc := s% "n") (a := [exTag (s% "Source0") (s% "a")])
    (t := exTag (s% "Source1") (s% "b")) rfl (by decide +kernel) (by decide +kernel) (by decide +kernel) h).2 ?_⟩
  rw [← split_joined]
  decide +kernel

/-- the hypotheses of `C100_append_entry` -/
example : ∃ s', exSources.append (s% "n") = (s', none) ∧ s' ≠ exSources ∧ s'.del exSources.len = (exSources, none) := by
  have h : exSources.append (s% "n") = ((exSources.append (s% "n")).1, none) := Prod.ext rfl (by decide +kernel)
  exact ⟨_, h, by decide +kernel, C100_append_entry (.inl (by decide +kernel)) h⟩

/-- patches of a spec file that has sources only -/
def undoPatches : Sources := { undoSources with patches := true, lists := [] }

/-- the hypotheses of `C100_append_first_partial`, for a patch -/
example : ∃ s', undoPatches.append (s% "n") = (s', none) ∧
    s'.tags.data.map (·.name) = [s% "Source0", s% "Source1", s% "Patch0", s% "License"] ∧
    (∃ k, FirstPlace true undoPatches.tags.data k ∧ (s'.del 0 = (undoPatches, none) ↔ ¬ BlankPair (linesAt undoPatches.tags k))) ∧
    s'.del 0 = (undoPatches, none) := by
  have h : undoPatches.append (s% "n") = ((undoPatches.append (s% "n")).1, none) := Prod.ext rfl (by decide +kernel)
  exact ⟨_, h, by decide +kernel, C100_append_first_partial (by decide +kernel) rfl h, by decide +kernel⟩

end
end Specfile.Props
