import Verif.Spec.Equality
/-
Lemmas about equality of objects.
-/
namespace Specfile.Equality
open Py Spec Options

theorem listEq_iff {α : Type} {eq : α → α → Bool} : ∀ {xs ys : List α}, listEq eq xs ys = true ↔
    xs.length = ys.length ∧ ∀ (k : Nat) x y, xs[k]? = some x → ys[k]? = some y → eq x y = true
  | [], [] => by simp [listEq]
  | [], y :: ys => by simp [listEq]
  | x :: xs, [] => by simp [listEq]
  | x :: xs, y :: ys => by
    rw [listEq, Bool.and_eq_true, listEq_iff]
    constructor
    · rintro ⟨h, hl, hk⟩
      refine ⟨by simp [hl], fun k a b ha hb => ?_⟩
      cases k with
      | zero => simp at ha hb; subst ha hb; exact h
      | succ k => exact hk k a b (by simpa using ha) (by simpa using hb)
    · rintro ⟨hl, hk⟩
      exact ⟨hk 0 x y (by simp) (by simp), by simpa using hl,
        fun k a b ha hb => hk (k + 1) a b (by simpa using ha) (by simpa using hb)⟩

theorem listEq_refl {α : Type} {eq : α → α → Bool} (h : ∀ a, eq a a = true) : ∀ xs, listEq eq xs xs = true
  | [] => rfl
  | x :: xs => by rw [listEq, h, listEq_refl h xs]; rfl

theorem listEq_symm {α : Type} {eq : α → α → Bool} (h : ∀ a b, eq a b = eq b a) : ∀ xs ys, listEq eq xs ys = listEq eq ys xs
  | [], [] => rfl
  | [], _ :: _ => rfl
  | _ :: _, [] => rfl
  | x :: xs, y :: ys => by rw [listEq, listEq, h, listEq_symm h xs ys]

theorem listEq_trans {α : Type} {eq : α → α → Bool} (h : ∀ a b c, eq a b = true → eq b c = true → eq a c = true) :
    ∀ xs ys zs, listEq eq xs ys = true → listEq eq ys zs = true → listEq eq xs zs = true
  | [], [], _ => fun _ k => k
  | [], _ :: _, _ => fun k => by cases k
  | _ :: _, [], _ => fun k => by cases k
  | x :: xs, y :: ys, [] => fun _ k => by cases k
  | x :: xs, y :: ys, z :: zs => fun h1 h2 => by
    rw [listEq, Bool.and_eq_true] at h1 h2 ⊢
    exact ⟨h _ _ _ h1.1 h2.1, listEq_trans h _ _ _ h1.2 h2.2⟩

theorem listEq_equivalence {α : Type} {eq : α → α → Bool} (h : Spec.Equivalence eq) : Spec.Equivalence (listEq eq) :=
  ⟨listEq_refl h.refl, listEq_symm h.symm, listEq_trans h.trans⟩

/-- an equality that compares a part is an equivalence if that of the part is -/
theorem comap {α β : Type} {eq : β → β → Bool} (h : Spec.Equivalence eq) (f : α → β) :
    Spec.Equivalence (fun a b => eq (f a) (f b)) :=
  ⟨fun _ => h.refl _, fun _ _ => h.symm _ _, fun _ _ _ => h.trans _ _ _⟩

theorem listEq_map {α τ : Type} {eq : α → α → Bool} {text : α → τ} (h : SameWritten eq text) :
    ∀ xs ys, listEq eq xs ys = true → xs.map text = ys.map text
  | [], [] => fun _ => rfl
  | [], _ :: _ => fun k => by cases k
  | _ :: _, [] => fun k => by cases k
  | x :: xs, y :: ys => fun k => by
    rw [listEq, Bool.and_eq_true] at k
    rw [List.map_cons, List.map_cons, h x y k.1, listEq_map h xs ys k.2]

/-- what is written is determined by a part that is compared and by one that is not -/
theorem listEq_map_above {α τ ρ : Type} {eq : α → α → Bool} {text : α → τ} {above : α → ρ}
    (h : ∀ a b, eq a b = true → above a = above b → text a = text b) :
    ∀ xs ys, listEq eq xs ys = true → xs.map above = ys.map above → xs.map text = ys.map text
  | [], [] => fun _ _ => rfl
  | [], _ :: _ => fun k => by cases k
  | _ :: _, [] => fun k => by cases k
  | x :: xs, y :: ys => fun k ha => by
    rw [listEq, Bool.and_eq_true] at k
    rw [List.map_cons, List.map_cons, List.cons.injEq] at ha
    rw [List.map_cons, List.map_cons, h x y k.1 ha.1, listEq_map_above h xs ys k.2 ha.2]

theorem beq_equivalence {α : Type} [BEq α] [LawfulBEq α] : Spec.Equivalence (fun a b : α => a == b) :=
  ⟨fun a => by simp, fun a b => by rw [Bool.eq_iff_iff]; simp; exact ⟨Eq.symm, Eq.symm⟩,
    fun a b c h k => by simp at h k ⊢; exact h.trans k⟩

theorem and_equivalence {α : Type} {e f : α → α → Bool} (h : Spec.Equivalence e) (k : Spec.Equivalence f) :
    Spec.Equivalence (fun a b => e a b && f a b) :=
  ⟨fun a => by simp [h.refl, k.refl], fun a b => by rw [h.symm, k.symm],
    fun a b c h1 h2 => by
      rw [Bool.and_eq_true] at h1 h2 ⊢
      exact ⟨h.trans _ _ _ h1.1 h2.1, k.trans _ _ _ h1.2 h2.2⟩⟩

theorem entryEq_iff {a b : ChangelogEntry} : entryEq a b = true ↔ a = b := by
  obtain ⟨a1, a2, a3⟩ := a
  obtain ⟨b1, b2, b3⟩ := b
  simp [entryEq, and_assoc]

theorem commentEq_iff {a b : Comment} : commentEq a b = true ↔ a = b := by
  obtain ⟨a1, a2⟩ := a
  obtain ⟨b1, b2⟩ := b
  simp [commentEq]

theorem of_iff {α : Type} {eq : α → α → Bool} (h : ∀ a b, eq a b = true ↔ a = b) : Spec.Equivalence eq :=
  ⟨fun a => (h a a).2 rfl, fun a b => by rw [Bool.eq_iff_iff, h, h]; exact ⟨Eq.symm, Eq.symm⟩,
    fun a b c h1 h2 => (h a c).2 (((h a b).1 h1).trans ((h b c).1 h2))⟩

theorem listEq_eq {α : Type} {eq : α → α → Bool} (h : ∀ a b, eq a b = true ↔ a = b) :
    ∀ {xs ys : List α}, listEq eq xs ys = true ↔ xs = ys
  | [], [] => by simp [listEq]
  | [], _ :: _ => by simp [listEq]
  | _ :: _, [] => by simp [listEq]
  | x :: xs, y :: ys => by rw [listEq, Bool.and_eq_true, h, listEq_eq h, List.cons.injEq]

theorem eqv_raw {a b : MacroDefinition} (h : a.eqv b = true) : a.raw = b.raw ∧ a.str = b.str := by
  obtain ⟨a1, a2, a3, a4, a5, a6, a7, a8, a9, a10, a11, a12⟩ := a
  obtain ⟨b1, b2, b3, b4, b5, b6, b7, b8, b9, b10, b11, b12⟩ := b
  simp [MacroDefinition.eqv] at h
  obtain ⟨⟨⟨⟨⟨⟨⟨rfl, rfl⟩, rfl⟩, rfl⟩, rfl⟩, ⟨⟨⟨rfl, rfl⟩, rfl⟩, rfl⟩⟩, rfl⟩, rfl⟩ := h
  exact ⟨rfl, rfl⟩

theorem valEq_iff {a b : Val} : valEq a b = true ↔ SameValue (some a) (some b) := by
  constructor
  · intro h
    cases a with
    | bool a => cases b with
      | bool b => simp [valEq] at h; subst h; exact .same _
      | int b => cases a <;> simp [valEq] at h <;> subst h
                 · exact .falseZero
                 · exact .trueOne
      | str b => simp [valEq] at h
    | int a => cases b with
      | bool b => cases b <;> simp [valEq] at h <;> subst h
                  · exact .zeroFalse
                  · exact .oneTrue
      | int b => simp [valEq] at h; subst h; exact .same _
      | str b => simp [valEq] at h
    | str a => cases b with
      | bool b => simp [valEq] at h
      | int b => simp [valEq] at h
      | str b => simp [valEq] at h; subst h; exact .same _
  · intro h
    cases h with
    | same => cases a <;> simp [valEq]
    | _ => rfl

theorem optValEq_iff {a b : Option Val} : optValEq a b = true ↔ SameValue a b := by
  cases a with
  | none => cases b with
    | none => simp [optValEq]; exact .same _
    | some b => simp [optValEq]; intro h; cases h
  | some a => cases b with
    | none => simp [optValEq]; intro h; cases h
    | some b => exact valEq_iff

theorem sameValue_symm {a b : Option Val} (h : SameValue a b) : SameValue b a := by
  cases h <;> constructor

theorem sameValue_trans {a b c : Option Val} (h : SameValue a b) (k : SameValue b c) : SameValue a c := by
  cases h <;> cases k <;> constructor

/-! ### options -/

theorem itemsLoop_cons [Uni] {o : Opts} {k : Char} {ks : List Char} {l : List (Char × Option Val)}
    (h : itemsLoop o (k :: ks) = .ok l) :
    ∃ v r, Options.get o k = .ok v ∧ itemsLoop o ks = .ok r ∧ l = (k, v) :: r := by
  rw [itemsLoop] at h
  split at h
  · cases h
  next v hv =>
    split at h
    · cases h
    next r hr => injection h with h; exact ⟨v, r, hv, hr, h.symm⟩

theorem itemsLoop_iff [Uni] {o : Opts} {ks : List Char} {l : List (Char × Option Val)} (h : itemsLoop o ks = .ok l)
    (c : Char) (v : Option Val) : (c, v) ∈ l ↔ c ∈ ks ∧ Options.get o c = .ok v := by
  induction ks generalizing l with
  | nil => simp [itemsLoop] at h; subst h; simp
  | cons k ks ih =>
    obtain ⟨w, r, hk, hr, rfl⟩ := itemsLoop_cons h
    rw [List.mem_cons, List.mem_cons, ih hr, Prod.mk.injEq]
    constructor
    · rintro (⟨rfl, rfl⟩ | ⟨h1, h2⟩)
      · exact ⟨.inl rfl, hk⟩
      · exact ⟨.inr h1, h2⟩
    · rintro ⟨rfl | h1, h2⟩
      · exact .inl ⟨rfl, by rw [hk] at h2; injection h2 with h2; exact h2.symm⟩
      · exact .inr ⟨h1, h2⟩

theorem optionItems_iff [Uni] {o : Opts} {l : List (Char × Option Val)} (h : optionItems o = .ok l) (c : Char)
    (v : Option Val) : (c, v) ∈ l ↔ c ∈ Options.keys o ∧ Options.get o c = .ok v := itemsLoop_iff h c v

theorem itemsLoop_key [Uni] {o : Opts} {ks : List Char} {l : List (Char × Option Val)} (h : itemsLoop o ks = .ok l)
    {c : Char} (hc : c ∈ ks) : ∃ v, Options.get o c = .ok v := by
  induction ks generalizing l with
  | nil => cases hc
  | cons k ks ih =>
    obtain ⟨w, r, hk, hr, rfl⟩ := itemsLoop_cons h
    rcases List.mem_cons.1 hc with rfl | hc
    · exact ⟨w, hk⟩
    · exact ih hr hc

theorem optionItems_key [Uni] {o : Opts} {l : List (Char × Option Val)} (h : optionItems o = .ok l) {c : Char}
    (hc : c ∈ Options.keys o) : ∃ v, Options.get o c = .ok v := itemsLoop_key h hc

theorem dictEq_iff {a b : List (Char × Option Val)} : dictEq a b = true ↔
    (∀ x ∈ a, ∃ y ∈ b, x.1 = y.1 ∧ SameValue x.2 y.2) ∧ (∀ y ∈ b, ∃ x ∈ a, y.1 = x.1 ∧ SameValue y.2 x.2) := by
  simp only [dictEq, Bool.and_eq_true, List.all_eq_true, List.any_eq_true, beq_iff_eq, optValEq_iff]

/-- a key that is not iterated has no token, so that its value is the default -/
theorem get_absent [Uni] {o : Opts} {c : Char} (hc : Options.valid o.optstring c = true) (h : c ∉ Options.keys o) :
    Options.get o c = .ok (if requiresArg o.optstring c then (o.defaults.find? (·.1 == c)).map (·.2)
      else some (.bool false)) := by
  have hf : (Options.find o c).1 = none := by
    cases hx : (Options.find o c).1 with
    | none => rfl
    | some i =>
      exfalso
      apply h
      unfold Options.keys
      rw [List.mem_filter]
      refine ⟨?_, by simp [hx]⟩
      unfold Options.valid at hc
      simpa using hc
  unfold Options.get
  split
  next => split <;> rfl
  next i j hij => rw [hij] at hf; cases hf

theorem optionsEq_get [Uni] {a b : Opts} (h : optionsEq a b = .ok true) (ho : a.optstring = b.optstring)
    (hd : a.defaults = b.defaults) (c : Char) (hc : Options.valid a.optstring c = true) :
    ∃ v w, Options.get a c = .ok v ∧ Options.get b c = .ok w ∧ SameValue v w := by
  unfold optionsEq at h
  split at h
  · cases h
  next x hx =>
    split at h
    · cases h
    next y hy =>
      injection h with h
      rw [dictEq_iff] at h
      by_cases hk : c ∈ Options.keys a
      · obtain ⟨v, hv⟩ := optionItems_key hx hk
        obtain ⟨⟨c', w⟩, hw, h1, h2⟩ := h.1 (c, v) ((optionItems_iff hx c v).2 ⟨hk, hv⟩)
        simp only at h1 h2
        subst h1
        exact ⟨v, w, hv, ((optionItems_iff hy _ _).1 hw).2, h2⟩
      · have hk' : c ∉ Options.keys b := by
          intro hk'
          obtain ⟨w, hw⟩ := optionItems_key hy hk'
          obtain ⟨⟨c', v⟩, hv, h1, h2⟩ := h.2 (c, w) ((optionItems_iff hy c w).2 ⟨hk', hw⟩)
          simp only at h1 h2
          subst h1
          exact hk ((optionItems_iff hx _ _).1 hv).1
        refine ⟨_, _, get_absent hc hk, get_absent (ho ▸ hc) hk', ?_⟩
        rw [ho, hd]
        exact .same _

/-- the values of the options of equal macros -/
theorem prepMacroEq_options [Uni] {a b : PrepMacro} (h : prepMacroEq a b = .ok true) :
    a.name = b.name ∧ optionsEq a.options b.options = .ok true ∧ a.delimiter = b.delimiter ∧ a.pfx = b.pfx ∧
    a.sfx = b.sfx ∧ a.preceding = b.preceding := by
  unfold prepMacroEq at h
  split at h
  · cases h
  next hn =>
    split at h
    · cases h
    · cases h
    next ho =>
      simp [and_assoc] at h
      exact ⟨Decidable.not_not.1 hn, ho, h⟩

theorem listEqLoop_iff {α : Type} {eq : α → α → Except Err Bool} : ∀ {xs ys : List α}, xs.length = ys.length →
    (listEqLoop eq xs ys = .ok true ↔ ∀ (k : Nat) x y, xs[k]? = some x → ys[k]? = some y → eq x y = .ok true)
  | [], [], _ => by simp [listEqLoop]
  | [], y :: ys, h => by simp at h
  | x :: xs, [], h => by simp at h
  | x :: xs, y :: ys, h => by
    have h' : xs.length = ys.length := by simpa using h
    rw [listEqLoop]
    constructor
    · intro hh k a b ha hb
      split at hh
      · cases hh
      · cases hh
      next he =>
        cases k with
        | zero => simp at ha hb; subst ha hb; exact he
        | succ k => exact (listEqLoop_iff h').1 hh k a b (by simpa using ha) (by simpa using hb)
    · intro hk
      rw [hk 0 x y (by simp) (by simp)]
      exact (listEqLoop_iff h').2 (fun k a b ha hb => hk (k + 1) a b (by simpa using ha) (by simpa using hb))

theorem listEqM_iff {α : Type} {eq : α → α → Except Err Bool} {xs ys : List α} : listEqM eq xs ys = .ok true ↔
    xs.length = ys.length ∧ ∀ (k : Nat) x y, xs[k]? = some x → ys[k]? = some y → eq x y = .ok true := by
  unfold listEqM
  split
  next h => simp; intro hh; exact absurd hh h
  next h =>
    have h : xs.length = ys.length := Decidable.not_not.1 h
    rw [listEqLoop_iff h]
    simp [h]

theorem readValue_ne_bool [Uni] {s : Str} {v : Val} (h : readValue s = .ok v) : ∀ b, v ≠ .bool b := by
  unfold readValue at h
  split at h
  · split at h
    · injection h with h; subst h; simp
    · cases h
  · injection h with h; subst h; simp

/-! ### reading the same lines twice -/

theorem takeBody_again : ∀ (ls ls' : List (Str × Bool)), ls.map (·.1) = ls'.map (·.1) → ∀ body,
    MacroDefinitions.takeBody body ls = MacroDefinitions.takeBody body ls'
  | [], [] => fun _ _ => rfl
  | [], _ :: _ => fun h => by simp at h
  | _ :: _, [] => fun h => by simp at h
  | l :: ls, l' :: ls' => fun h body => by
    simp only [List.map_cons, List.cons.injEq] at h
    simp only [MacroDefinitions.takeBody]
    rw [h.1, takeBody_again ls ls' h.2]

theorem build_again {t : Regex.St Nat} {v v' : Bool} {buffer : List Str} {ls ls' : List (Str × Bool)}
    (h : ls.map (·.1) = ls'.map (·.1)) :
    (MacroDefinitions.build t v buffer ls).1.eqv (MacroDefinitions.build t v' buffer ls').1 = true ∧
    (MacroDefinitions.build t v buffer ls).2 = (MacroDefinitions.build t v' buffer ls').2 := by
  unfold MacroDefinitions.build
  simp only [takeBody_again ls ls' h]
  exact ⟨by simp [MacroDefinition.eqv], trivial⟩

theorem definitions_again [Uni] : ∀ (ls ls' : List (Str × Bool)), ls.map (·.1) = ls'.map (·.1) → ∀ buffer n,
    macrosEq (MacroDefinitions.parseLoop buffer n ls) (MacroDefinitions.parseLoop buffer n ls') = true ∧
    (MacroDefinitions.parseLoop buffer n ls).remainder = (MacroDefinitions.parseLoop buffer n ls').remainder
  | [], [] => fun _ buffer n => by cases n <;> exact ⟨rfl, rfl⟩
  | [], _ :: _ => fun h => by simp at h
  | _ :: _, [] => fun h => by simp at h
  | l :: ls, l' :: ls' => fun h buffer n => by
    simp only [List.map_cons, List.cons.injEq] at h
    cases n with
    | succ n => exact definitions_again ls ls' h.2 buffer n
    | zero =>
      simp only [MacroDefinitions.parseLoop]
      rw [h.1]
      split
      · exact definitions_again ls ls' h.2 _ 0
      next t ht =>
        obtain ⟨h1, h2⟩ := build_again (t := t) (v := l.2) (v' := l'.2) (buffer := buffer) h.2
        rw [← h2]
        obtain ⟨h3, h4⟩ := definitions_again ls ls' h.2 [] (MacroDefinitions.build t l.2 buffer ls).2
        refine ⟨?_, h4⟩
        show (_ && _) = true
        rw [h1]
        exact h3

theorem takeValue_again : ∀ (ls ls' : List (Str × Bool)), ls.map (·.1) = ls'.map (·.1) → ∀ value ws,
    Tags.takeValue value ws ls = Tags.takeValue value ws ls'
  | [], [] => fun _ _ _ => rfl
  | [], _ :: _ => fun h => by simp at h
  | _ :: _, [] => fun h => by simp at h
  | l :: ls, l' :: ls' => fun h value ws => by
    simp only [List.map_cons, List.cons.injEq] at h
    simp only [Tags.takeValue]
    rw [h.1, takeValue_again ls ls' h.2]

theorem tags_again [Uni] (names : List Str) : ∀ (ls ls' : List (Str × Bool)), ls.map (·.1) = ls'.map (·.1) →
    ∀ buffer n a b, Tags.parseLoop names buffer n ls = .ok a → Tags.parseLoop names buffer n ls' = .ok b →
    tagsEq a b = true ∧ SameAbove (fun t : Tag => t.comments.preceding) a.data b.data ∧ a.remainder = b.remainder
  | [], [] => fun _ buffer n a b ha hb => by
    simp only [Tags.parseLoop, Except.ok.injEq] at ha hb
    subst ha hb
    exact ⟨rfl, rfl, rfl⟩
  | [], _ :: _ => fun h => by simp at h
  | _ :: _, [] => fun h => by simp at h
  | l :: ls, l' :: ls' => fun h buffer n a b ha hb => by
    simp only [List.map_cons, List.cons.injEq] at h
    cases n with
    | succ n => exact tags_again names ls ls' h.2 buffer n a b ha hb
    | zero =>
      simp only [Tags.parseLoop] at ha hb
      rw [← h.1] at hb
      split at ha
      · cases ha
      next c hc =>
        rw [hc] at hb
        simp only at hb
        split at ha
        next ht =>
          rw [ht] at hb
          exact tags_again names ls ls' h.2 _ 0 a b ha hb
        next t ht =>
          rw [ht] at hb
          simp only at hb
          simp only [← takeValue_again ls ls' h.2] at hb
          split at ha
          · cases ha
          next r hr =>
            split at hb
            · cases hb
            next r' hr' =>
              simp only [Except.ok.injEq] at ha hb
              subst ha hb
              obtain ⟨h1, h2, h3⟩ := tags_again names ls ls' h.2 [] _ r r' hr hr'
              refine ⟨?_, ?_, h3⟩
              · show (_ && _) = true
                rw [Bool.and_eq_true]
                exact ⟨by simp [Tags.eqv, Comments.eqv], h1⟩
              · unfold SameAbove at h2 ⊢
                simp only [List.map_cons, h2]

theorem sourcelist_again : ∀ (ls ls' : List (Str × Bool)), ls.map (·.1) = ls'.map (·.1) → ∀ buffer,
    sourcelistEq (Sourcelist.parseLoop buffer ls) (Sourcelist.parseLoop buffer ls') = true ∧
    SameAbove (fun e : SourcelistEntry => e.comments.preceding) (Sourcelist.parseLoop buffer ls).data
      (Sourcelist.parseLoop buffer ls').data ∧
    (Sourcelist.parseLoop buffer ls).remainder = (Sourcelist.parseLoop buffer ls').remainder
  | [], [] => fun _ _ => ⟨rfl, rfl, rfl⟩
  | [], _ :: _ => fun h => by simp at h
  | _ :: _, [] => fun h => by simp at h
  | (l, v) :: ls, (l', v') :: ls' => fun h buffer => by
    simp only [List.map_cons, List.cons.injEq] at h
    obtain ⟨rfl, h⟩ := h
    simp only [Sourcelist.parseLoop]
    split
    · obtain ⟨h1, h2, h3⟩ := sourcelist_again ls ls' h []
      refine ⟨?_, ?_, h3⟩
      · show (_ && _) = true
        rw [Bool.and_eq_true]
        refine ⟨?_, h1⟩
        unfold sourcelistEntryEq
        rw [Bool.and_eq_true]
        exact ⟨by simp, listEq_refl (fun a => commentEq_iff.2 rfl) _⟩
      · unfold SameAbove at h2 ⊢
        simp only [List.map_cons, h2]
    · exact sourcelist_again ls ls' h _

end Specfile.Equality
