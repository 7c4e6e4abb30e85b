import Verif.Proof.Comments
import Verif.Proof.Conditions
import Verif.Proof.MacroDefinitions4
/-
Helper lemmas about tags: what the regex for tags matches.
-/
namespace Specfile.Tags
open Py Regex Spec

theorem span_unique {p : Char → Bool} {a b c d : Str} (ha : a.all p = true) (hb : NoMore p b)
    (hc : c.all p = true) (hd : NoMore p d) (h : a ++ b = c ++ d) : a = c ∧ b = d := by
  induction a generalizing c with
  | nil =>
    cases c with
    | nil => exact ⟨rfl, h⟩
    | cons x xs =>
      simp at h; subst h
      simp at hc
      have := hb x (by simp)
      rw [hc.1] at this; simp at this
  | cons y ys ih =>
    cases c with
    | nil =>
      simp at h; subst h
      simp at ha
      have := hd y (by simp)
      rw [ha.1] at this; simp at this
    | cons x xs =>
      simp only [List.cons_append, List.cons.injEq] at h
      simp only [List.all_cons, Bool.and_eq_true] at ha hc
      obtain ⟨e1, e2⟩ := ih ha.2 hc.2 h.2
      exact ⟨by rw [h.1, e1], e2⟩

section
variable {κ : Type} [DecidableEq κ]

theorem mem_litI [Uni] {a : Str} {s t : St κ} : t ∈ run (litI a) s ↔
    ∃ w r, s.rest = w ++ r ∧ SameLetters a w ∧ t = ⟨w.reverse ++ s.pre, r, s.caps⟩ := by
  induction a generalizing s with
  | nil =>
    simp only [litI, mem_eps]
    constructor
    · rintro rfl; exact ⟨[], _, rfl, trivial, rfl⟩
    · rintro ⟨w, r, h, hw, rfl⟩
      cases w with
      | nil => cases s; simp at h; simp [h]
      | cons x xs => exact absurd hw (by simp [SameLetters])
  | cons c cs ih =>
    simp only [litI, mem_cat, mem_cls, ih]
    constructor
    · rintro ⟨_, ⟨d, ds, h1, h2, rfl⟩, w, r, h3, h4, rfl⟩
      simp only at h3
      exact ⟨d :: w, r, by simp [h1, h3], ⟨h2, h4⟩, by simp⟩
    · rintro ⟨w, r, h, hw, rfl⟩
      cases w with
      | nil => exact absurd hw (by simp [SameLetters])
      | cons x xs =>
        obtain ⟨h2, h4⟩ := hw
        exact ⟨_, ⟨x, xs ++ r, h, h2, rfl⟩, xs, r, rfl, h4, by simp⟩

theorem mem_argRe {s t : St κ} : t ∈ run (argRe : Re κ) s ↔
    ∃ e r, s.rest = e ++ r ∧ Argument e ∧ t = ⟨e.reverse ++ s.pre, r, s.caps⟩ := by
  unfold argRe
  simp only [mem_opt, mem_cat, star, mem_rep', mem_ch]
  constructor
  · rintro (⟨_, ⟨a, r1, h1, a1, _, rfl⟩, _, ⟨r2, h2, rfl⟩, _, ⟨b, r3, h3, a3, _, rfl⟩, _,
      ⟨x, r4, h4, a4, _, rfl⟩, _, ⟨c, r5, h5, a5, _, rfl⟩, r6, h6, rfl⟩ | rfl)
    · simp only at h2 h3 h4 h5 h6
      refine ⟨a ++ '(' :: (b ++ x ++ c ++ [')']), r6, by simp [h1, h2, h3, h4, h5, h6], .inr
        ⟨a, b, x, c, rfl, List.all_eq_true.1 a1, List.all_eq_true.1 a3, List.all_eq_true.1 a5, ?_⟩, by simp⟩
      intro y hy
      have := List.all_eq_true.1 a4 y hy
      simpa [argChar] using this
    · exact ⟨[], _, rfl, .inl rfl, rfl⟩
  · rintro ⟨e, r, h, (rfl | ⟨a, b, x, c, rfl, ha, hb, hc, hx⟩), rfl⟩
    · right; cases s; simp at h; simp [h]
    · left
      refine ⟨_, ⟨a, '(' :: (b ++ (x ++ (c ++ ')' :: r))), ?_, List.all_eq_true.2 ha, Nat.zero_le _, rfl⟩, _, ⟨b ++ (x ++ (c ++ ')' :: r)), ?_, rfl⟩, _,
        ⟨b, _, rfl, List.all_eq_true.2 hb, Nat.zero_le _, rfl⟩, _,
        ⟨x, _, rfl, ?_, Nat.zero_le _, rfl⟩, _, ⟨c, _, rfl, List.all_eq_true.2 hc, Nat.zero_le _, rfl⟩, r, rfl, ?_⟩
      · rw [h]; simp
      · rfl
      · rw [List.all_eq_true]
        intro y hy
        simpa [argChar] using hx y hy
      · simp

theorem mem_nameRe [Uni] {a : Str} {s t : St κ} : t ∈ run (nameRe a : Re κ) s ↔
    ∃ w e r, s.rest = w ++ e ++ r ∧ SameLetters a w ∧ NameExtension a e ∧
      t = ⟨(w ++ e).reverse ++ s.pre, r, s.caps⟩ := by
  unfold nameRe NameExtension
  simp only [List.contains_iff_mem]
  split
  · simp only [mem_cat, mem_litI, mem_argRe]
    constructor
    · rintro ⟨_, ⟨w, r, h, hw, rfl⟩, e, r', h', he, rfl⟩
      simp only at h'
      exact ⟨w, e, r', by simp [h, h'], hw, he, by simp⟩
    · rintro ⟨w, e, r, h, hw, he, rfl⟩
      exact ⟨_, ⟨w, e ++ r, by simpa using h, hw, rfl⟩, e, r, rfl, he, by simp⟩
  · split
    · simp only [mem_cat, mem_litI, star, mem_rep']
      constructor
      · rintro ⟨_, ⟨w, r, h, hw, rfl⟩, e, r', h', he, _, rfl⟩
        simp only at h'
        exact ⟨w, e, r', by simp [h, h'], hw, List.all_eq_true.1 he, by simp⟩
      · rintro ⟨w, e, r, h, hw, he, rfl⟩
        exact ⟨_, ⟨w, e ++ r, by simpa using h, hw, rfl⟩, e, r, rfl, List.all_eq_true.2 he, Nat.zero_le _, by simp⟩
    · simp only [mem_litI]
      constructor
      · rintro ⟨w, r, h, hw, rfl⟩
        exact ⟨w, [], r, by simpa using h, hw, rfl, by simp⟩
      · rintro ⟨w, e, r, h, hw, rfl, rfl⟩
        exact ⟨w, r, by simpa using h, hw, by simp⟩

end

theorem tagNames_letters : ∀ t ∈ Constants.tagNames, t ≠ [] ∧ t.all isAsciiAlpha = true := by
  decide +kernel

theorem sameLetters_alnum [Uni] {a w : Str} (h : SameLetters a w) (ha : a.all isAsciiAlpha = true) :
    w.all Uni.isAlnum = true := by
  induction a generalizing w with
  | nil => cases w with
    | nil => rfl
    | cons x xs => exact absurd h (by simp [SameLetters])
  | cons p ps ih =>
    cases w with
    | nil => rfl
    | cons c cs =>
      simp only [List.all_cons, Bool.and_eq_true] at ha ⊢
      exact ⟨Uni.ieq_alnum p c ha.1 h.1, ih h.2 ha.2⟩

theorem sameLetters_ne_nil [Uni] {a w : Str} (h : SameLetters a w) (ha : a ≠ []) : w ≠ [] := by
  rintro rfl
  cases a with
  | nil => exact ha rfl
  | cons p ps => exact h

/-- the shape of a tag name: letters and digits, and maybe an argument -/
theorem tagName_shape [Uni] {n : Str} (h : TagName n) :
    ∃ w e, n = w ++ e ∧ w ≠ [] ∧ w.all Uni.isAlnum = true ∧ Argument e := by
  obtain ⟨t, ht, w, e, rfl, hw, he⟩ := h
  obtain ⟨h0, h1⟩ := tagNames_letters t ht
  have h2 := sameLetters_ne_nil hw h0
  have h3 := sameLetters_alnum hw h1
  unfold NameExtension at he
  split at he
  · exact ⟨w, e, rfl, h2, h3, he⟩
  · split at he
    · refine ⟨w ++ e, [], by simp, by simp [h2], ?_, .inl rfl⟩
      rw [List.all_append, h3, Bool.true_and, List.all_eq_true]
      intro c hc
      exact Uni.numeric_alnum c (Uni.decimal_numeric c (he c hc))
    · subst he
      exact ⟨w, [], rfl, h2, h3, .inl rfl⟩

theorem not_alnum_ascii [Uni] {c : Char} (h : isAscii c = true) (h2 : isAsciiAlnum c = false) :
    Uni.isAlnum c = false := by rw [Uni.alnum_ascii c h, h2]

theorem space_not_alnum [Uni] {c : Char} (h : isSpace c = true) : Uni.isAlnum c = false := by
  cases ha : Uni.isAlnum c with
  | false => rfl
  | true => rw [Uni.alnum_not_space c ha] at h; simp at h

/-- whitespace followed by an ASCII character that is not alphanumeric -/
theorem noMore_alnum [Uni] {a r : Str} {c : Char} (ha : Spaces a) (h : isAscii c = true)
    (h2 : isAsciiAlnum c = false) : NoMore Uni.isAlnum (a ++ c :: r) := by
  intro d hd
  cases a with
  | nil => simp at hd; subst hd; exact not_alnum_ascii h h2
  | cons x xs => simp at hd; subst hd; exact space_not_alnum (ha x (by simp))

theorem noMore_cons {p : Char → Bool} {c : Char} {r : Str} (h : p c = false) : NoMore p (c :: r) := by
  intro d hd; simp at hd; subst hd; exact h

/-- the name of a tag is determined by the text -/
theorem name_unique [Uni] {n s v n' s' v' : Str} (hn : TagName n) (hs : Separator s) (hn' : TagName n')
    (hs' : Separator s') (h : n ++ s ++ v = n' ++ s' ++ v') : n = n' := by
  obtain ⟨w, e, rfl, _, hw, he⟩ := tagName_shape hn
  obtain ⟨w', e', rfl, _, hw', he'⟩ := tagName_shape hn'
  obtain ⟨a, b, rfl, ha, hb⟩ := hs
  obtain ⟨a', b', rfl, ha', hb'⟩ := hs'
  have m : ∀ {e a : Str} (x : Str), Argument e → Spaces a → NoMore Uni.isAlnum (e ++ (a ++ ':' :: x)) := by
    intro e a x he ha
    rcases he with rfl | ⟨p, q, y, r, rfl, hp, _⟩
    · exact noMore_alnum ha (by decide) (by decide)
    · rw [List.append_assoc]
      exact noMore_alnum hp (by decide) (by decide)
  have h1 : w ++ (e ++ (a ++ ':' :: (b ++ v))) = w' ++ (e' ++ (a' ++ ':' :: (b' ++ v'))) := by
    simpa using h
  obtain ⟨rfl, h2⟩ := span_unique hw (m _ he ha) hw' (m _ he' ha') h1
  have sp : ∀ {a : Str}, Spaces a → a.all isSpace = true := fun h => List.all_eq_true.2 h
  rcases he with rfl | ⟨p, q, y, r, rfl, hp, hq, hr, hy⟩ <;>
    rcases he' with rfl | ⟨p', q', y', r', rfl, hp', hq', hr', hy'⟩
  · rfl
  · exfalso
    have h3 : a ++ (':' :: (b ++ v)) = p' ++ ('(' :: (q' ++ y' ++ r' ++ [')'] ++ (a' ++ ':' :: (b' ++ v')))) := by
      simpa using h2
    have := (span_unique (sp ha) (noMore_cons (by decide)) (sp hp') (noMore_cons (by decide)) h3).2
    simp at this
  · exfalso
    have h3 : p ++ ('(' :: (q ++ y ++ r ++ [')'] ++ (a ++ ':' :: (b ++ v)))) = a' ++ (':' :: (b' ++ v')) := by
      simpa using h2
    have := (span_unique (sp hp) (noMore_cons (by decide)) (sp ha') (noMore_cons (by decide)) h3).2
    simp at this
  · have h3 : p ++ ('(' :: (q ++ y ++ r ++ [')'] ++ (a ++ ':' :: (b ++ v)))) =
        p' ++ ('(' :: (q' ++ y' ++ r' ++ [')'] ++ (a' ++ ':' :: (b' ++ v')))) := by
      simpa using h2
    obtain ⟨rfl, h4⟩ := span_unique (sp hp) (noMore_cons (by decide)) (sp hp') (noMore_cons (by decide)) h3
    have h5 : (q ++ y ++ r) ++ ')' :: (a ++ ':' :: (b ++ v)) = (q' ++ y' ++ r') ++ ')' :: (a' ++ ':' :: (b' ++ v')) := by
      simpa using h4
    have np : ∀ {q y r : Str}, Spaces q → Spaces r → (∀ x ∈ y, isSpace x = false ∧ x ≠ ')') →
        (q ++ y ++ r).all (fun c => c != ')') = true := by
      intro q y r hq hr hy
      rw [List.all_eq_true]
      intro c hc
      simp only [List.mem_append] at hc
      simp only [bne_iff_ne]
      rintro rfl
      rcases hc with (hc | hc) | hc
      · exact absurd (hq _ hc) (by decide)
      · exact (hy _ hc).2 rfl
      · exact absurd (hr _ hc) (by decide)
    have := (span_unique (np hq hr hy) (noMore_cons (by decide)) (np hq' hr' hy') (noMore_cons (by decide)) h5).1
    rw [this]

theorem head_flatMap_some {α β : Type} {l : List α} {f : α → List β} {t : β}
    (h : (l.flatMap f).head? = some t) : ∃ x ∈ l, (f x).head? = some t := by
  induction l with
  | nil => simp at h
  | cons x xs ih =>
    rw [List.flatMap_cons, List.head?_append] at h
    cases hf : (f x).head? with
    | some u => rw [hf] at h; simp at h; subst h; exact ⟨x, by simp, hf⟩
    | none =>
      rw [hf] at h
      obtain ⟨y, hy, h'⟩ := ih (by simpa using h)
      exact ⟨y, by simp [hy], h'⟩

/-- what the regex of one tag matches -/
theorem tagRe_inv [Uni] {a line : Str} {t : St Nat} (h : rmatch (tagRe a) line = some t)
    (hn : '\n' ∉ line) : ∃ w e s v, line = w ++ e ++ s ++ v ∧ SameLetters a w ∧ NameExtension a e ∧
      Separator s ∧ v ≠ [] ∧ t.get 1 = some (w ++ e) ∧ t.get 2 = some s ∧ t.get 3 = some v := by
  unfold rmatch tagRe at h
  rw [run_bos_cat, ← run_cat_assoc, run_cat] at h
  obtain ⟨u, hu, h⟩ := head_flatMap_some h
  rw [mem_cat] at hu
  obtain ⟨u1, hu1, hu⟩ := hu
  rw [mem_grp] at hu1
  obtain ⟨u0, n, hu0, hn0, rfl⟩ := hu1
  rw [mem_nameRe] at hu0
  obtain ⟨w, e, r, h1, hw, he, rfl⟩ := hu0
  simp only [init] at h1 hn0
  obtain ⟨w1, w2, r2, h2, a1, a2, rfl⟩ := mem_grp_around hu
  simp only at h2
  have hnn : n = w ++ e := List.append_cancel_right (hn0.symm.trans h1)
  subst hnn
  subst h1
  subst h2
  have hd : r2.all dot = true := by
    rw [List.all_eq_true]
    intro c hc
    simp only [dot, bne_iff_ne]
    rintro rfl
    exact hn (by simp [hc])
  have hne : r2 ≠ [] := by
    rintro rfl
    have hm := List.mem_of_head? h
    rw [plus, mem_grp_rep] at hm
    obtain ⟨x, y, hx, _, hx2, _⟩ := hm
    simp at hx
    rw [hx.1] at hx2
    simp at hx2
  rw [plus, head_grp_rest (s := ⟨_, r2, _⟩) hd (by cases r2 <;> simp_all)] at h
  simp only [Option.some.injEq] at h
  subst h
  refine ⟨w, e, w1 ++ ':' :: w2, r2, by simp, hw, he, ⟨w1, w2, rfl, List.all_eq_true.1 a1,
    List.all_eq_true.1 a2⟩, hne, ?_, ?_, ?_⟩ <;> simp [St.get]

/-- a text with the shape of a tag is matched -/
theorem tagRe_match [Uni] {a w e s v : Str} (ha : a ∈ Constants.tagNames) (hw : SameLetters a w)
    (he : NameExtension a e) (hs : Separator s) (hv : v ≠ []) (hv2 : ∀ c ∈ v.head?, isSpace c = false)
    (hn : '\n' ∉ v) : ∃ t : St Nat, rmatch (tagRe a) (w ++ e ++ s ++ v) = some t ∧
      t.get 1 = some (w ++ e) ∧ t.get 2 = some s ∧ t.get 3 = some v := by
  have hname : TagName (w ++ e) := ⟨a, ha, w, e, rfl, hw, he⟩
  have hsep := hs
  obtain ⟨w1, w2, rfl, h1, h2⟩ := hs
  refine ⟨⟨v.reverse ++ (w2.reverse ++ ':' :: (w1.reverse ++ (w ++ e).reverse)), [],
    [(3, v), (2, w1 ++ ':' :: w2), (1, w ++ e)]⟩, ?_, by simp [St.get], by simp [St.get], by simp [St.get]⟩
  unfold rmatch tagRe
  rw [run_bos_cat, run_cat]
  rw [Conditions.head_flatMap_unique (a := ⟨(w ++ e).reverse, w1 ++ ':' :: (w2 ++ v), [(1, w ++ e)]⟩)]
  · refine head_grp_around (w1 := w1) (w2 := w2) (r' := v) rfl (List.all_eq_true.2 h1) (List.all_eq_true.2 h2)
      (by decide) hv2 ?_
    have hd : v.all dot = true := by
      rw [List.all_eq_true]
      intro c hc
      simp only [dot, bne_iff_ne]
      rintro rfl
      exact hn hc
    rw [plus, head_grp_rest hd (by cases v <;> simp_all)]
  · rw [mem_grp]
    refine ⟨⟨(w ++ e).reverse ++ [], w1 ++ ':' :: (w2 ++ v), []⟩, w ++ e, ?_, by simp [init], by simp⟩
    rw [mem_nameRe]
    exact ⟨w, e, _, by simp [init], hw, he, rfl⟩
  · intro u hu hne
    rw [run_eq_nil_iff]
    intro t ht
    apply hne
    rw [mem_grp] at hu
    obtain ⟨u0, n, hu0, hn0, rfl⟩ := hu
    rw [mem_nameRe] at hu0
    obtain ⟨w', e', r, h3, hw', he', rfl⟩ := hu0
    simp only [init] at h3 hn0
    have hnn : n = w' ++ e' := List.append_cancel_right (hn0.symm.trans h3)
    subst hnn
    rw [mem_cat] at ht
    obtain ⟨u2, hu2, _⟩ := ht
    obtain ⟨x1, x2, r2, h4, b1, b2, _⟩ := mem_grp_around hu2
    simp only at h4
    subst h4
    have hname' : TagName (w' ++ e') := ⟨a, ha, w', e', rfl, hw', he'⟩
    have := name_unique hname hsep hname' ⟨x1, x2, rfl, List.all_eq_true.1 b1, List.all_eq_true.1 b2⟩
      (v := v) (v' := r2) (by simpa using h3)
    rw [← this] at h3 ⊢
    have h5 := List.append_cancel_left (by simpa using h3 : (w ++ e) ++ (w1 ++ ':' :: (w2 ++ v)) = (w ++ e) ++ (x1 ++ ':' :: (x2 ++ r2)))
    rw [h5]
    simp [init]

/-- the list of names is `TAG_NAMES` in some order -/
def IsTagNames (names : List Str) : Prop := ∀ n, n ∈ names ↔ n ∈ Constants.tagNames

theorem tagMatch_inv [Uni] {names : List Str} (hN : IsTagNames names) {line : Str} {t : St Nat}
    (h : tagMatch names line = some t) (hn : '\n' ∉ line) :
    ∃ n s v, line = n ++ s ++ v ∧ TagName n ∧ Separator s ∧ v ≠ [] ∧
      t.get 1 = some n ∧ t.get 2 = some s ∧ t.get 3 = some v := by
  unfold tagMatch at h
  obtain ⟨a, ha, h⟩ := List.exists_of_findSome?_eq_some h
  obtain ⟨w, e, s, v, h1, hw, he, hs, hv, g1, g2, g3⟩ := tagRe_inv h hn
  exact ⟨w ++ e, s, v, h1, ⟨a, (hN a).1 ha, w, e, rfl, hw, he⟩, hs, hv, g1, g2, g3⟩

theorem tagMatch_none [Uni] {names : List Str} (hN : IsTagNames names) {line : Str}
    (h : ¬ TagLine line) (hn : '\n' ∉ line) : tagMatch names line = none := by
  cases hm : tagMatch names line with
  | none => rfl
  | some t =>
    obtain ⟨n, s, v, h1, h2, h3, h4, _⟩ := tagMatch_inv hN hm hn
    exact absurd ⟨n, s, v, h1, h2, h3, h4⟩ h

theorem separator_unique {s v s' v' : Str} (hs : Separator s) (hs' : Separator s')
    (hv : ∀ c ∈ v.head?, isSpace c = false) (hv' : ∀ c ∈ v'.head?, isSpace c = false)
    (h : s ++ v = s' ++ v') : s = s' ∧ v = v' := by
  obtain ⟨a, b, rfl, ha, hb⟩ := hs
  obtain ⟨a', b', rfl, ha', hb'⟩ := hs'
  have sp : ∀ {a : Str}, Spaces a → a.all isSpace = true := fun h => List.all_eq_true.2 h
  obtain ⟨rfl, h2⟩ := span_unique (sp ha) (noMore_cons (c := ':') (by decide)) (sp ha')
    (noMore_cons (c := ':') (by decide)) (by simpa using h)
  obtain ⟨rfl, rfl⟩ := span_unique (sp hb) hv (sp hb') hv' (by simpa using h2)
  exact ⟨rfl, rfl⟩

theorem tagMatch_of [Uni] {names : List Str} (hN : IsTagNames names) {n s v : Str} (hname : TagName n)
    (hs : Separator s) (hv : v ≠ []) (hv2 : ∀ c ∈ v.head?, isSpace c = false)
    (hn : '\n' ∉ n ++ s ++ v) : ∃ t : St Nat, tagMatch names (n ++ s ++ v) = some t ∧
      t.get 1 = some n ∧ t.get 2 = some s ∧ t.get 3 = some v := by
  have hname0 := hname
  obtain ⟨a, ha, w, e, rfl, hw, he⟩ := hname
  have hsome : (tagMatch names (w ++ e ++ s ++ v)).isSome = true := by
    unfold tagMatch
    rw [List.findSome?_isSome_iff]
    obtain ⟨t, ht, _⟩ := tagRe_match ha hw he hs hv hv2 (fun h => hn (by simp [h]))
    exact ⟨a, (hN a).2 ha, by rw [ht]; rfl⟩
  obtain ⟨t, ht⟩ := Option.isSome_iff_exists.1 hsome
  refine ⟨t, ht, ?_⟩
  unfold tagMatch at ht
  obtain ⟨a', ha', h'⟩ := List.exists_of_findSome?_eq_some ht
  obtain ⟨w', e', s', v', h1, hw', he', hs', hv', g1, g2, g3⟩ := tagRe_inv h' hn
  have hname' : TagName (w' ++ e') := ⟨a', (hN a').1 ha', w', e', rfl, hw', he'⟩
  have hnn := name_unique hname0 hs hname' hs' h1
  -- run the regex of the tag that matched on the same text
  rw [hnn]
  obtain ⟨t2, ht2, k1, k2, k3⟩ := tagRe_match ((hN a').1 ha') hw' he' hs hv hv2 (fun h => hn (by simp [h]))
  have e0 : w' ++ e' ++ s ++ v = w ++ e ++ s ++ v := by rw [hnn]
  rw [e0, h'] at ht2
  simp only [Option.some.injEq] at ht2
  subst ht2
  exact ⟨k1, k2, k3⟩

end Specfile.Tags
