import Verif.Proof.Update3
import Verif.Props.Conditions
/-
C37: what an update of a value changes.
-/
namespace Specfile.Props
open Py Regex Spec Template Update

theorem withMacros_cases [Uni] {W : World} {α : Type} {l l' : List Str} {r : Except Err α}
    {f : MacroDefinitions → MacroDefinitions × Except Err α} (h : withMacros W l f = (l', r)) :
    (∃ e, MacroDefinitions.parse (W.oracle l) true l = .error e ∧ l' = l ∧ r = .error e) ∨
      ∃ m, MacroDefinitions.parse (W.oracle l) true l = .ok m ∧ l' = (f m).1.raw ∧ r = (f m).2 := by
  unfold withMacros at h
  split at h
  · rename_i e he; cases h; exact .inl ⟨e, he, rfl, rfl⟩
  · rename_i m hm; cases h; exact .inr ⟨m, hm, rfl, rfl⟩

theorem withTags_cases [Uni] {W : World} {α : Type} {l l' : List Str} {r : Except Err α}
    {f : Tags → Tags × Except Err α} (h : withTags W l f = (l', r)) :
    (∃ e, Sections.parse (W.oracle l) l = .error e ∧ l' = l ∧ r = .error e) ∨
    (∃ ss e, Sections.parse (W.oracle l) l = .ok ss ∧ l' = Sections.raw ss ∧ r = .error e) ∨
    ∃ ss i s t, Sections.parse (W.oracle l) l = .ok ss ∧ Sections.find ss (s% "package") = .ok i ∧ ss[i]? = some s ∧
      Tags.parse W.names (W.oracle l) s.data = .ok t ∧
      l' = Sections.raw (ss.set i { s with data := (f t).1.raw }) ∧ r = (f t).2 := by
  unfold withTags withSections at h
  split at h
  · rename_i e he; cases h; exact .inl ⟨e, he, rfl, rfl⟩
  · rename_i ss hs
    right
    unfold tagsBlock at h
    split at h
    · cases h; exact .inl ⟨ss, _, hs, rfl, rfl⟩
    · rename_i i hi
      split at h
      · cases h; exact .inl ⟨ss, _, hs, rfl, rfl⟩
      · rename_i s hs'
        split at h
        · cases h; exact .inl ⟨ss, _, hs, rfl, rfl⟩
        · rename_i t ht
          cases h
          exact .inr ⟨ss, i, s, t, hs, hi, hs', ht, rfl, rfl⟩

/-- nothing may be changed -/
def nothing {α β : Type} (_ : α) (_ : Nat) (_ : β) : Prop := False

theorem withMacros_read [Uni] {W : World} {α : Type} {l l' : List Str} {r : Except Err α}
    {f : MacroDefinitions → Except Err α} (h : withMacros W l (fun m => (m, f m)) = (l', r)) : MacroBlock W nothing l l' := by
  rcases withMacros_cases h with ⟨e, he, rfl, -⟩ | ⟨m, hm, rfl, -⟩
  · exact .unread he
  · exact .written hm (.refl _ m)

theorem withTags_read [Uni] {W : World} {α : Type} {l l' : List Str} {r : Except Err α}
    {f : Tags → Except Err α} (h : withTags W l (fun t => (t, f t)) = (l', r)) : TagBlock W nothing l l' := by
  rcases withTags_cases h with ⟨e, he, rfl, -⟩ | ⟨ss, e, hs, rfl, -⟩ | ⟨ss, i, s, t, h1, h2, h3, h4, rfl, -⟩
  · exact .unread he
  · exact .sections hs
  · exact .written h1 h2 h3 h4 (.refl _ t)

/-- what a successful collection of entities gives -/
theorem collected [Uni] {W : World} {prot : Str → Bool} {lines l1 l2 : List Str} {ms ts : List Entity}
    (h1 : withMacros W lines (fun m => (m, macroEntities (W.expand lines) prot m m.data)) = (l1, .ok ms))
    (h2 : withTags W l1 (fun t => (t, tagEntities prot t t.data)) = (l2, .ok ts)) :
    ∃ m ss i s t, MacroDefinitions.parse (W.oracle lines) true lines = .ok m ∧
      Sections.parse (W.oracle l1) l1 = .ok ss ∧ Sections.find ss (s% "package") = .ok i ∧ ss[i]? = some s ∧
      Tags.parse W.names (W.oracle l1) s.data = .ok t ∧
      ∀ e ∈ sortEntities (ms ++ ts), e.updated = false ∧ e.flipPending = false ∧ e.locked = false ∧
        ((e.isTag = false ∧ ∃ d ∈ m.data, eligible prot d = true ∧ e.name = d.name ∧ e.value = d.body) ∨
          (e.isTag = true ∧ ∃ x ∈ t.data, x.valid = true ∧ prot x.name = false ∧ e.name = Uni.lower x.name)) := by
  rcases withMacros_cases h1 with ⟨e, -, -, hc⟩ | ⟨m, hm, -, hms⟩
  · cases hc
  rcases withTags_cases h2 with ⟨e, -, -, hc⟩ | ⟨ss, e, -, -, hc⟩ | ⟨ss, i, s, t, g1, g2, g3, g4, -, hts⟩
  · cases hc
  · cases hc
  · refine ⟨m, ss, i, s, t, hm, g1, g2, g3, g4, fun e he => ?_⟩
    rw [mem_sortEntities, List.mem_append] at he
    rcases he with he | he
    · obtain ⟨d, d1, d2, -, -, d3⟩ := macroEntities_spec hms.symm e he
      rw [d3]
      exact ⟨rfl, rfl, rfl, .inl ⟨rfl, d, d1, d2, rfl, rfl⟩⟩
    · obtain ⟨x, x1, x2, x3, -, x4⟩ := tagEntities_spec hts.symm e he
      rw [x4]
      exact ⟨rfl, rfl, rfl, .inr ⟨rfl, x, x1, x2, x3, rfl⟩⟩

/-- a macro definition of the spec file that may be changed: a valid one of that name is not protected and has no
options -/
def Unprotected [Uni] (W : World) (prot : Str → Bool) (lines : List Str) (name : Str) : Prop :=
  prot name = false ∧ endsWith name [')'] = false ∧
    ∃ m d, MacroDefinitions.parse (W.oracle lines) true lines = .ok m ∧ d ∈ m.data ∧ d.valid = true ∧ d.name = name

/-- the tags of the first package section of the lines -/
def TagsOf [Uni] (W : World) (lines : List Str) (t : Tags) : Prop :=
  ∃ ss i s, Sections.parse (W.oracle lines) lines = .ok ss ∧ Sections.find ss (s% "package") = .ok i ∧ ss[i]? = some s ∧
    Tags.parse W.names (W.oracle lines) s.data = .ok t

/-- C37: whatever happens, exceptions included, the lines are read and written back four times. The first two times nothing
is changed. The third time only bodies of macro definitions are changed, and whether they are commented out; they have a name
that is not protected and that some valid macro definition has, and they are before the position provided that bodies are
single lines. The fourth time only values of tags are changed; they have a name that some valid tag that is not protected
has, up to case, and they are before the position provided that names of tags are distinct. -/
theorem C37_changes [Uni] {W : World} {prot : Str → Bool} {value requested : Str} {pos : Nat} {lines l' : List Str}
    {r : Except Err Str} (h : updateValue W prot value requested pos lines = (l', r)) :
    ∃ l1 l2 l3, MacroBlock W nothing lines l1 ∧ (l2 = l1 ∨ TagBlock W nothing l1 l2) ∧
      (l3 = l2 ∨ MacroBlock W (fun m i d => Unprotected W prot lines d.name ∧
        (SingleLines W prot lines → SingleLines W prot l2 → definitionLine m i < pos)) l2 l3) ∧
      (l' = l3 ∨ TagBlock W (fun t i x => (∃ t0 y, TagsOf W l1 t0 ∧ y ∈ t0.data ∧ y.valid = true ∧ prot y.name = false ∧
        Uni.capitalize x.name = Uni.capitalize (Uni.lower y.name)) ∧ (DistinctTagNames t → tagLine t i < pos)) l3 l') := by
  unfold updateValue at h
  split at h
  · rename_i l1 e h1
    cases h
    exact ⟨_, _, _, withMacros_read h1, .inl rfl, .inl rfl, .inl rfl⟩
  · rename_i l1 ms h1
    split at h
    · rename_i l2 e h2
      cases h
      exact ⟨_, _, _, withMacros_read h1, .inr (withTags_read h2), .inl rfl, .inl rfl⟩
    · rename_i l2 ts h2
      split at h
      · cases h
        exact ⟨_, _, _, withMacros_read h1, .inr (withTags_read h2), .inl rfl, .inl rfl⟩
      · rename_i v es hu
        obtain ⟨m0, ss0, i0, s0, t0, c1, c2, c3, c4, c5, c6⟩ := collected h1 h2
        have hk := update_kept _ hu
        -- what is known about entities that are to be changed
        have known : ∀ e ∈ es, (e.updated = true ∨ e.flipPending = true → e.position < pos) ∧
            ((e.isTag = false ∧ ∃ d ∈ m0.data, eligible prot d = true ∧ e.name = d.name) ∨
              (e.isTag = true ∧ ∃ x ∈ t0.data, x.valid = true ∧ prot x.name = false ∧ e.name = Uni.lower x.name)) := by
          intro e he
          obtain ⟨j, hj⟩ := List.mem_iff_getElem?.mp he
          obtain ⟨e0, he0, st⟩ := hk.back hj
          obtain ⟨k1, k2, -, k3⟩ := c6 e0 (List.mem_of_getElem? he0)
          refine ⟨fun hc => ?_, ?_⟩
          · rw [st.position]
            rcases Nat.lt_or_ge e0.position pos with hlt | hge
            · exact hlt
            · rw [st.later hge, k1, k2] at hc
              simp at hc
          · rw [st.isTag, st.name]
            exact k3.imp (fun ⟨a, d, b, c, f, _⟩ => ⟨a, d, b, c, f⟩) id
        split at h
        · rename_i l3 e h3
          cases h
          refine ⟨_, _, _, withMacros_read h1, .inr (withTags_read h2), .inr ?_, .inl rfl⟩
          exact macros_written c1 c6 known hu h3
        · rename_i l3 h3
          refine ⟨l1, l2, l3, withMacros_read h1, .inr (withTags_read h2), .inr ?_, .inr ?_⟩
          · exact macros_written c1 c6 known hu h3
          · rcases withTags_cases h with ⟨e, he, rfl, -⟩ | ⟨ss, e, hs, rfl, -⟩ | ⟨ss, i, s, t, g1, g2, g3, g4, rfl, -⟩
            · exact .unread he
            · exact .sections hs
            · refine .written g1 g2 g3 g4 ((syncTags_edited es t).mono ?_)
              rintro i x hx ⟨e, he, e1, e2, e3, e4⟩
              obtain ⟨k1, k2⟩ := known e he
              rcases k2 with ⟨k2, -⟩ | ⟨-, y, y1, y2, y3, y4⟩
              · rw [e1] at k2; cases k2
              · exact ⟨⟨t0, y, ⟨ss0, i0, s0, c2, c3, c4, c5⟩, y1, y2, y3, by rw [e3, y4]⟩,
                  fun hd => by rw [e4 hd]; exact k1 (.inl e2)⟩
where
  macros_written [Uni] {W : World} {prot : Str → Bool} {value requested v : Str} {pos : Nat} {lines l2 l3 : List Str}
      {m0 : MacroDefinitions} {t0 : Tags} {es0 es : List Entity} {r : Except Err Unit}
      (c1 : MacroDefinitions.parse (W.oracle lines) true lines = .ok m0)
      (c6 : ∀ e ∈ es0, e.updated = false ∧ e.flipPending = false ∧ e.locked = false ∧
        ((e.isTag = false ∧ ∃ d ∈ m0.data, eligible prot d = true ∧ e.name = d.name ∧ e.value = d.body) ∨
          (e.isTag = true ∧ ∃ x ∈ t0.data, x.valid = true ∧ prot x.name = false ∧ e.name = Uni.lower x.name)))
      (known : ∀ e ∈ es, (e.updated = true ∨ e.flipPending = true → e.position < pos) ∧
        ((e.isTag = false ∧ ∃ d ∈ m0.data, eligible prot d = true ∧ e.name = d.name) ∨
          (e.isTag = true ∧ ∃ x ∈ t0.data, x.valid = true ∧ prot x.name = false ∧ e.name = Uni.lower x.name)))
      (hu : update W.isIdent (W.expand l2) (es0.length + 1) value requested pos es0 = .ok (v, es))
      (h3 : withMacros W l2 (fun m => ((syncMacros es m).1, result () (syncMacros es m).2)) = (l3, r)) :
      MacroBlock W (fun m i d => Unprotected W prot lines d.name ∧
        (SingleLines W prot lines → SingleLines W prot l2 → definitionLine m i < pos)) l2 l3 := by
    rcases withMacros_cases h3 with ⟨e, he, rfl, -⟩ | ⟨m, hm, rfl, -⟩
    · exact .unread he
    · refine .written hm ((syncMacros_edited es m).mono ?_)
      rintro i d hd ⟨e, he, e1, e2, e3, e4⟩
      obtain ⟨k1, k2⟩ := known e he
      refine ⟨?_, fun s1 s2 => ?_⟩
      · rcases k2 with ⟨-, x, x1, x2, x3⟩ | ⟨k2, -⟩
        · simp only [eligible, Bool.and_eq_true, Bool.not_eq_true'] at x2
          rw [e3, x3]
          exact ⟨x2.1.2, x2.2, m0, x, c1, x1, x2.1.1, rfl⟩
        · rw [e1] at k2; cases k2
      · rw [e4 ⟨?_, ?_⟩]
        · exact k1 e2
        · refine (update_lines _ hu ?_).1
          intro x hx hxt
          obtain ⟨-, -, -, k3⟩ := c6 x hx
          rcases k3 with ⟨-, y, y1, y2, -, y4⟩ | ⟨k3, -⟩
          · simp only [eligible, Bool.and_eq_true, Bool.not_eq_true'] at y2
            rw [y4]
            exact s1 m0 c1 y y1 y2.1.2
          · rw [hxt] at k3; cases k3
        · intro z hz y hy hyt hyn
          obtain ⟨-, k3⟩ := known y hy
          rcases k3 with ⟨-, x, x1, x2, x3⟩ | ⟨k3, -⟩
          · simp only [eligible, Bool.and_eq_true, Bool.not_eq_true'] at x2
            refine s2 m hm z hz ?_
            rw [← hyn, x3]
            exact x2.1.2
          · rw [hyt] at k3; cases k3

theorem edited_nothing {m m' : MacroDefinitions} (h : MacrosEdited (nothing m) m m') : m' = m := by
  cases m; cases m'
  have h1 := h.remainder
  have h2 := h.length
  simp only [MacroDefinitions.mk.injEq] at h1 h2 ⊢
  refine ⟨List.ext_getElem? (fun i => ?_), h1⟩
  rename_i d r d' r'
  rcases Nat.lt_or_ge i d.length with hi | hi
  · have a := List.getElem?_eq_getElem hi
    have b := List.getElem?_eq_getElem (show i < d'.length by omega)
    rw [a, b]
    rcases h.each i _ _ a b with h | ⟨h, -⟩
    · rw [h]
    · exact h.elim
  · rw [List.getElem?_eq_none hi, List.getElem?_eq_none (by omega)]

theorem tagsEdited_nothing {m m' : Tags} (h : TagsEdited (nothing m) m m') : m' = m := by
  cases m; cases m'
  have h1 := h.remainder
  have h2 := h.length
  simp only [Tags.mk.injEq] at h1 h2 ⊢
  refine ⟨List.ext_getElem? (fun i => ?_), h1⟩
  rename_i d r d' r'
  rcases Nat.lt_or_ge i d.length with hi | hi
  · have a := List.getElem?_eq_getElem hi
    have b := List.getElem?_eq_getElem (show i < d'.length by omega)
    rw [a, b]
    rcases h.each i _ _ a b with h | ⟨h, -⟩
    · rw [h]
    · exact h.elim
  · rw [List.getElem?_eq_none hi, List.getElem?_eq_none (by omega)]

/-- reading macro definitions does not change the lines -/
theorem macros_read [Uni] {W : World} {lines : List Str}
    (h : withMacros W lines (fun m => (m, .ok ())) = (lines, .ok ())) :
    ∀ l, MacroBlock W nothing lines l → l = lines := by
  intro l hl
  rcases withMacros_cases h with ⟨e, -, -, hc⟩ | ⟨m, hm, hr, -⟩
  · cases hc
  · cases hl with
    | unread _ => rfl
    | written hm' he =>
      rw [hm] at hm'
      cases hm'
      rw [edited_nothing he]
      exact hr.symm

/-- reading tags does not change the lines -/
theorem tags_read [Uni] {W : World} {lines : List Str}
    (h1 : withSections W lines (fun ss => (ss, .ok ())) = (lines, .ok ()))
    (h2 : withTags W lines (fun t => (t, .ok ())) = (lines, .ok ())) :
    ∀ l, TagBlock W nothing lines l → l = lines := by
  intro l hl
  unfold withSections at h1
  split at h1
  · cases h1
  · rename_i ss hs
    simp only [Prod.mk.injEq, and_true] at h1
    cases hl with
    | unread _ => rfl
    | sections hs' => rw [hs] at hs'; cases hs'; exact h1
    | written g1 g2 g3 g4 he =>
      rw [tagsEdited_nothing he]
      rcases withTags_cases h2 with ⟨e, -, -, hc⟩ | ⟨ss', e, -, -, hc⟩ | ⟨ss', i', s', t', k1, k2, k3, k4, hr, -⟩
      · cases hc
      · cases hc
      · rw [g1] at k1; cases k1
        rw [g2] at k2; cases k2
        rw [g3] at k3; cases k3
        rw [g4] at k4; cases k4
        exact hr.symm

/-- no two macro definitions have the same name -/
def DistinctMacros (m : MacroDefinitions) : Prop := (m.data.map (·.name)).Nodup

theorem DistinctMacros.same {m : MacroDefinitions} (h : DistinctMacros m) {i j : Nat} {x y : MacroDefinition}
    (hx : m.data[i]? = some x) (hy : m.data[j]? = some y) (hn : x.name = y.name) : i = j := by
  unfold DistinctMacros at h
  have hi := (List.getElem?_eq_some_iff.mp hx).1
  refine (List.getElem?_inj (l := m.data.map (·.name)) (by simpa using hi) h).mp ?_
  rw [List.getElem?_map, List.getElem?_map, hx, hy, Option.map_some, Option.map_some, hn]

/-- C37 (full claim: only valid macro definitions and tags that are not protected and are located before the position may
have changed). Here for spec files that reading does not change, in which bodies of unprotected macro definitions are single
lines and names are distinct. Missing: other spec files, see `C37_violation_twin`. -/
theorem C37_only_earlier_partial [Uni] {W : World} {prot : Str → Bool} {value requested : Str} {pos : Nat}
    {lines l' : List Str} {r : Except Err Str} (h : updateValue W prot value requested pos lines = (l', r))
    (h1 : withMacros W lines (fun m => (m, .ok ())) = (lines, .ok ()))
    (h2 : withSections W lines (fun ss => (ss, .ok ())) = (lines, .ok ()))
    (h2' : withTags W lines (fun t => (t, .ok ())) = (lines, .ok ()))
    (h3 : SingleLines W prot lines) (h4 : ∀ m, MacroDefinitions.parse (W.oracle lines) true lines = .ok m → DistinctMacros m) :
    ∃ l, (l = lines ∨ MacroBlock W (fun m i d => prot d.name = false ∧ d.valid = true ∧ endsWith d.name [')'] = false ∧
        definitionLine m i < pos) lines l) ∧
      (l' = l ∨ TagBlock W (fun t i x => (∃ t0 y, TagsOf W lines t0 ∧ y ∈ t0.data ∧ y.valid = true ∧ prot y.name = false ∧
        Uni.capitalize x.name = Uni.capitalize (Uni.lower y.name)) ∧ (DistinctTagNames t → tagLine t i < pos)) l l') := by
  obtain ⟨l1, l2, l3, g1, g2, g3, g4⟩ := C37_changes h
  have e1 := macros_read h1 l1 g1
  subst e1
  have e2 : l2 = l1 := by
    rcases g2 with g2 | g2
    · exact g2
    · exact tags_read h2 h2' l2 g2
  subst e2
  refine ⟨l3, g3.imp_right (fun g => ?_), g4⟩
  cases g with
  | unread he => exact .unread he
  | written hm he =>
    refine .written hm (he.mono ?_)
    rintro i d hd ⟨⟨u1, u2, m0, d0, u3, u4, u5, u6⟩, hp⟩
    rw [hm] at u3
    cases u3
    obtain ⟨j, hj⟩ := List.mem_iff_getElem?.mp u4
    have := (h4 _ hm).same hd hj u6.symm
    subst this
    rw [hd] at hj
    cases hj
    exact ⟨u1, u5, u2, hp h3 h3⟩

/-- where the result of `update` comes from -/
theorem update_result [Uni] {isIdent : Str → Bool} {ex : Str → Except Err Str} {fuel : Nat} {v q v' : Str} {p : Nat}
    {es es' : List Entity} (h : update isIdent ex fuel v q p es = .ok (v', es')) :
    v' = q ∨ ∃ flippable B flips m, construct isIdent ex (modifiable es p) flippable v = .ok (B, flips) ∧
      rmatch B.re q = some m ∧ substitute m.get B.template = .ok v' := by
  have key : ∀ {rec : Rec} {flippable : List Str} {B : Built} {flips : List Str} {m : St Str},
      construct isIdent ex (modifiable es p) flippable v = .ok (B, flips) → rmatch B.re q = some m →
      applyMatch rec q p es B flips m = .ok (v', es') →
      v' = q ∨ ∃ flippable B flips m, construct isIdent ex (modifiable es p) flippable v = .ok (B, flips) ∧
        rmatch B.re q = some m ∧ substitute m.get B.template = .ok v' := by
    intro rec flippable B flips m hB hm h
    unfold applyMatch at h
    split at h
    · cases h
    · cases h; exact .inl rfl
    · split at h
      · cases h
      · rename_i w hw
        cases h
        exact .inr ⟨flippable, B, flips, m, hB, hm, hw⟩
  cases fuel with
  | zero => simp [update] at h
  | succ fuel =>
    unfold update at h
    split at h
    · cases h; exact .inl rfl
    · split at h
      · cases h
      · rename_i hB
        split at h
        · rename_i hm
          exact key hB hm h
        · split at h
          · cases h
          · rename_i hB
            split at h
            · rename_i hm
              exact key hB hm h
            · cases h; exact .inl rfl

/-- the names under which unprotected tags and macro definitions can be referred to -/
def EntityNames [Uni] (W : World) (prot : Str → Bool) (lines l1 : List Str) (x : Str) : Prop :=
  Unprotected W prot lines x ∨ ∃ t y, TagsOf W l1 t ∧ y ∈ t.data ∧ y.valid = true ∧ prot y.name = false ∧
    (x = Uni.lower y.name ∨ x = Uni.upper (Uni.lower y.name))

/-- C37: the value that is returned is the requested one, or it differs from the original one only in literal text and is
read as requested provided that references to unprotected tags and macro definitions have the values `d`. Missing: two
references that follow each other, where the original value is returned if nothing is requested. -/
theorem C37_result_partial [Uni] {W : World} {prot : Str → Bool} {value requested v : Str} {pos : Nat} {lines l' : List Str}
    (h : updateValue W prot value requested pos lines = (l', .ok v)) :
    v = requested ∨ ∃ l1 l2 entities flips nodes, MacroBlock W nothing lines l1 ∧ TagBlock W nothing l1 l2 ∧
      (∀ x ∈ entities, EntityNames W prot lines l1 x) ∧ ValueParser.parse value = .ok nodes ∧
      ((v = value ∧ (requested = [] ∨ requested = ['\n']) ∧ ∃ ps, Parts (W.expand l2) entities flips nodes ps ∧ Unseparated ps) ∨
        ∃ ps d reading, Parts (W.expand l2) entities flips nodes ps ∧ ¬ Unseparated ps ∧ Rewritten d false ps v reading ∧
          (requested = reading ∨ requested = reading ++ ['\n'])) := by
  unfold updateValue at h
  split at h
  · cases h
  · rename_i l1 ms h1
    split at h
    · cases h
    · rename_i l2 ts h2
      split at h
      · cases h
      · rename_i w es hu
        have hv : v = w := by
          split at h
          · cases h
          · rcases withTags_cases h with ⟨e, -, -, hc⟩ | ⟨ss, e, -, -, hc⟩ | ⟨ss, i, s, t, -, -, -, -, -, hc⟩
            · cases hc
            · cases hc
            · unfold result at hc
              split at hc <;> cases hc
              rfl
        subst hv
        obtain ⟨m0, ss0, i0, s0, t0, c1, c2, c3, c4, c5, c6⟩ := collected h1 h2
        rcases update_result hu with hr | ⟨fl, B, flips, m, hB, hm, hs⟩
        · exact .inl hr
        · right
          refine ⟨l1, l2, modifiable (sortEntities (ms ++ ts)) pos, ?_⟩
          obtain ⟨nodes, hn, -, hc⟩ := C73_match_partial hB hm
          have hent : ∀ x ∈ modifiable (sortEntities (ms ++ ts)) pos, EntityNames W prot lines l1 x := by
            have tag : ∀ e ∈ sortEntities (ms ++ ts), e.isTag = true → ∃ t y, TagsOf W l1 t ∧ y ∈ t.data ∧ y.valid = true ∧
                prot y.name = false ∧ e.name = Uni.lower y.name := by
              intro e he ht
              obtain ⟨-, -, -, k3⟩ := c6 e he
              rcases k3 with ⟨k3, -⟩ | ⟨-, y, y1, y2, y3, y4⟩
              · rw [ht] at k3; cases k3
              · exact ⟨t0, y, ⟨ss0, i0, s0, c2, c3, c4, c5⟩, y1, y2, y3, y4⟩
            intro x hx
            simp only [modifiable, List.mem_append, List.mem_map, List.mem_filter] at hx
            rcases hx with ⟨e, ⟨he, -⟩, rfl⟩ | ⟨e, ⟨he, ht⟩, rfl⟩
            · cases ht : e.isTag with
              | true =>
                obtain ⟨t, y, y1, y2, y3, y4, y5⟩ := tag e he ht
                exact .inr ⟨t, y, y1, y2, y3, y4, .inl y5⟩
              | false =>
                obtain ⟨-, -, -, k3⟩ := c6 e he
                rcases k3 with ⟨-, d, d1, d2, d3, -⟩ | ⟨k3, -⟩
                · simp only [eligible, Bool.and_eq_true, Bool.not_eq_true'] at d2
                  rw [d3]
                  exact .inl ⟨d2.1.2, d2.2, m0, d, c1, d1, d2.1.1, rfl⟩
                · rw [ht] at k3; cases k3
            · simp only [Bool.and_eq_true] at ht
              obtain ⟨t, y, y1, y2, y3, y4, y5⟩ := tag e he ht.2
              exact .inr ⟨t, y, y1, y2, y3, y4, .inr (by rw [y5])⟩
          rcases hc with ⟨flips', ps, hp, hun, -, hq, hs'⟩ | ⟨ps, text, reading, hp, hun, hr, hs', hq⟩
          · rw [hs'] at hs
            cases hs
            exact ⟨flips', nodes, withMacros_read h1, withTags_read h2, hent, hn, .inl ⟨rfl, hq, ps, hp, hun⟩⟩
          · rw [hs'] at hs
            cases hs
            exact ⟨flips, nodes, withMacros_read h1, withTags_read h2, hent, hn, .inr ⟨ps, m.get, reading, hp, hun, hr, hq⟩⟩

/-- C37: references that lead back to an entity that is being updated do not lead to endless recursion: a depth of one more
than the number of entities suffices, whatever the values are. -/
theorem C37_terminates [Uni] (isIdent : Str → Bool) (ex : Str → Except Err Str) (value requested : Str) (pos : Nat)
    (es : List Entity) (depth : Nat) (h : es.length < depth) :
    update isIdent ex depth value requested pos es = update isIdent ex (es.length + 1) value requested pos es := by
  have : unlocked es ≤ es.length := List.length_filter_le _ _
  exact (update_fuel _ _ _ _ _ _ (by omega) (by omega)).symm

section
attribute [local instance] asciiUni

/-- nothing is expanded but conditions -/
def sampleWorld : World :=
  ⟨fun _ s => .ok s, fun _ => sampleOracle, [s% "name", s% "version", s% "release"], anyName⟩

/-- names of tags and macros that end with `name` are protected -/
def protectNames (x : Str) : Bool := endsWith (Uni.lower x) (s% "name")

/-- a spec file whose version is made of two macros -/
def sampleSpec : List Str :=
  [s% "%global major 1", s% "%global minor 2", s% "Name: foo", s% "Version: %{major}.%{minor}", s% "Release: 1"]

/-- both macros are updated and the value stays -/
theorem sampleUpdate : updateValue sampleWorld protectNames (s% "%{major}.%{minor}") (s% "3.4") 3 sampleSpec =
    ([s% "%global major 3", s% "%global minor 4", s% "Name: foo", s% "Version: %{major}.%{minor}", s% "Release: 1"],
      .ok (s% "%{major}.%{minor}")) := by decide +kernel

/-- the hypotheses of `C37_only_earlier_partial` hold for it -/
example : withMacros sampleWorld sampleSpec (fun m => (m, .ok ())) = (sampleSpec, .ok ()) ∧
    withSections sampleWorld sampleSpec (fun m => (m, .ok ())) = (sampleSpec, .ok ()) ∧
    withTags sampleWorld sampleSpec (fun m => (m, .ok ())) = (sampleSpec, .ok ()) ∧
    SingleLines sampleWorld protectNames sampleSpec ∧
    ∀ m, MacroDefinitions.parse (sampleWorld.oracle sampleSpec) true sampleSpec = .ok m → DistinctMacros m := by
  have hm : MacroDefinitions.parse (sampleWorld.oracle sampleSpec) true sampleSpec =
      .ok ⟨[⟨s% "major", s% "1", true, false, .dnl, [], [' '], [' '], [], [], true, []⟩,
        ⟨s% "minor", s% "2", true, false, .dnl, [], [' '], [' '], [], [], true, []⟩],
        [s% "Name: foo", s% "Version: %{major}.%{minor}", s% "Release: 1"]⟩ := by decide +kernel
  refine ⟨by decide +kernel, by decide +kernel, by decide +kernel, ?_, ?_⟩
  · intro m h
    rw [hm] at h
    cases h
    decide
  · intro m h
    rw [hm] at h
    cases h
    unfold DistinctMacros
    decide

/-- C37 fails for tags that are equal, here in two branches of a condition: the tag in the branch that is not taken gets the
new value. -/
theorem C37_violation_twin : updateValue sampleWorld protectNames (s% "%{version}") (s% "2") 6
    [s% "Name: foo", s% "%if 0", s% "Version: 1", s% "%else", s% "Version: 1", s% "%endif", s% "Release: %{version}"] =
    ([s% "Name: foo", s% "%if 0", s% "Version: 2", s% "%else", s% "Version: 1", s% "%endif", s% "Release: %{version}"],
      .ok (s% "%{version}")) := by decide +kernel

/-- C37 fails for macro definitions that are equal: the invalid one is changed. -/
theorem C37_violation_twin_macro : updateValue sampleWorld protectNames (s% "%{a}") (s% "2") 8
    [s% "%if 0", s% "%global x 1", s% "%global a 1", s% "%else", s% "%global x 1", s% "%global a 1", s% "%endif",
      s% "Name: foo", s% "Version: %{a}"] =
    ([s% "%if 0", s% "%global x 1", s% "%global a 2", s% "%else", s% "%global x 1", s% "%global a 1", s% "%endif",
      s% "Name: foo", s% "Version: %{a}"], .ok (s% "%{a}")) := by decide +kernel

/-- C37: if the body of an earlier macro definition is no longer as many lines as it was, the update fails half way with
`ValueError`: `a` is changed and `b` is not. -/
theorem C37_violation_lines : updateValue sampleWorld protectNames (s% "%{a}.%{b}") (s% "5.6") 5
    [s% "%global a \\", s% "  1", s% "%global b 2", s% "Name: foo", s% "Version: %{a}.%{b}"] =
    ([s% "%global a 5", s% "%global b 2", s% "Name: foo", s% "Version: %{a}.%{b}"], .error .valueError) := by decide +kernel

/-- C37: if a macro definition becomes equal to a later one, the update fails with `ValueError`. -/
theorem C37_violation_collision : updateValue sampleWorld protectNames (s% "%{b}") (s% "2") 4
    [s% "%global a 1", s% "%global b %{a}", s% "%global a 2", s% "Name: foo", s% "Version: %{b}"] =
    ([s% "%global a 2", s% "%global b %{a}", s% "%global a 2", s% "Name: foo", s% "Version: %{b}"],
      .error .valueError) := by decide +kernel

end

end Specfile.Props
