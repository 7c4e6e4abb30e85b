import Verif.Model.Utils
import Verif.Regex.First
import Verif.Py.Num
/-
Helper lemmas about EVR/NEVR/NEVRA parsing.
-/
namespace Specfile
open Py Regex
namespace Utils

/-- the printed release part -/
def relPart (r : Str) : Str := if r.isEmpty then [] else '-' :: r

/-- caps after the version and release groups -/
def relCaps (v r : Str) (caps : List (Nat × Str)) : List (Nat × Str) :=
  if r.isEmpty then (2, v) :: caps else (3, r) :: (2, v) :: caps

theorem dash_split {a b c d : Str} (ha : '-' ∉ a) (hc : '-' ∉ c) (h : a ++ '-' :: b = c ++ '-' :: d) :
    a = c ∧ b = d := by
  induction a generalizing c with
  | nil =>
    cases c with
    | nil => simpa using h
    | cons x xs => simp at h hc; exact absurd h.1 hc.1
  | cons y ys ih =>
    cases c with
    | nil => simp at h ha; exact absurd h.1.symm ha.1
    | cons x xs =>
      simp at h ha hc
      obtain ⟨e1, e2⟩ := ih ha.2 hc.2 h.2
      exact ⟨by rw [h.1, e1], e2⟩

theorem notDash_all {w : Str} : w.all notDash = true ↔ '-' ∉ w := by
  simp only [notDash, List.all_eq_true, bne_iff_ne]
  constructor
  · intro h hm; exact h _ hm rfl
  · intro h c hc e; subst e; exact h hc

/-- the pattern `X` matches exactly the text `tail` within suffixes of `full`, giving `fin` -/
def Ends (X : Re Nat) (full tail : Str) (fin : St Nat → St Nat) : Prop :=
  ∀ s t : St Nat, s.rest <:+ full → (t ∈ run X s ↔ s.rest = tail ∧ t = fin s)

/-- the version and release groups, `([^-]+?)(?:-([^-]+))?` -/
def tailRe : Re Nat := .grp 2 (plusL notDash) ⬝ opt (ch '-' ⬝ .grp 3 (plus notDash))

/-- what a match of version and release followed by `X` looks like -/
theorem mem_tail_inv {X : Re Nat} {full tail : Str} {fin : St Nat → St Nat}
    (hX : Ends X full tail fin) {s t : St Nat} (hs : s.rest <:+ full)
    (h : t ∈ run (tailRe ⬝ X) s) :
    ∃ w r, s.rest = w ++ relPart r ++ tail ∧ w ≠ [] ∧ '-' ∉ w ∧ '-' ∉ r ∧
      t = fin ⟨(w ++ relPart r).reverse ++ s.pre, tail, relCaps w r s.caps⟩ := by
  simp only [tailRe, mem_cat, mem_grp, plusL, plus, mem_rep, mem_opt, mem_ch, St.adv] at h
  obtain ⟨u, ⟨_, ⟨_, w, ⟨w', r', h1, h2, h3, rfl⟩, h4, rfl⟩, h5⟩, h6⟩ := h
  simp only at h1 h4
  have hww : w = w' := List.append_cancel_right (h4.symm.trans h1)
  subst hww
  rw [notDash_all] at h2
  have hw0 : w ≠ [] := by rintro rfl; simp at h3
  rcases h5 with ⟨_, ⟨cs, h7, rfl⟩, _, w2, ⟨w3, r3, h8, h9, h10, rfl⟩, h11, rfl⟩ | rfl
  · simp only at h7 h8 h11
    have : w2 = w3 := List.append_cancel_right (h11.symm.trans h8)
    subst this
    rw [notDash_all] at h9
    subst h7 h8
    have hw2 : w2.isEmpty = false := by
      cases w2 with
      | nil => simp at h10
      | cons _ _ => rfl
    rw [hX _ _ (by
      refine List.IsSuffix.trans ?_ hs
      rw [h1]; exact ⟨w ++ '-' :: w2, by simp⟩)] at h6
    obtain ⟨h6, rfl⟩ := h6
    simp only at h6
    subst h6
    exact ⟨w, w2, by simp [relPart, hw2, h1], hw0, h2, h9, by simp [relPart, relCaps, hw2]⟩
  · rw [hX _ _ (by
      refine List.IsSuffix.trans ?_ hs
      rw [h1]; exact ⟨w, by simp⟩)] at h6
    obtain ⟨h6, rfl⟩ := h6
    simp only at h6
    subst h6
    exact ⟨w, [], by simp [relPart, h1], hw0, h2, by simp, by simp [relPart, relCaps]⟩

theorem relPart_inj {v r w r' : Str} (hv : '-' ∉ v) (hw : '-' ∉ w)
    (h : v ++ relPart r = w ++ relPart r') : v = w ∧ r = r' := by
  unfold relPart at h
  cases r with
  | nil =>
    cases r' with
    | nil => simpa using h
    | cons x xs =>
      simp only [List.isEmpty_nil, List.isEmpty_cons, if_true, List.append_nil] at h
      exfalso; apply hv; rw [h]; simp
  | cons y ys =>
    cases r' with
    | nil =>
      simp only [List.isEmpty_nil, List.isEmpty_cons, if_true, List.append_nil] at h
      exfalso; apply hw; rw [← h]; simp
    | cons x xs => exact dash_split hv hw (by simpa using h)

/-- version and optional release up to the end of the string -/
theorem mem_evrTail {X : Re Nat} {full tail : Str} {fin : St Nat → St Nat}
    (hX : Ends X full tail fin) {pre v r : Str} {caps : List (Nat × Str)} (hv0 : v ≠ [])
    (hv : '-' ∉ v) (hr : '-' ∉ r) (hf : v ++ relPart r ++ tail <:+ full) {t : St Nat} :
    t ∈ run (tailRe ⬝ X) ⟨pre, v ++ relPart r ++ tail, caps⟩ ↔
    t = fin ⟨(v ++ relPart r).reverse ++ pre, tail, relCaps v r caps⟩ := by
  constructor
  · intro h
    obtain ⟨w, r', e1, _, e2, e3, rfl⟩ := mem_tail_inv hX hf h
    simp only at e1
    obtain ⟨rfl, rfl⟩ := relPart_inj hv e2 (List.append_cancel_right e1)
    rfl
  · rintro rfl
    simp only [tailRe, mem_cat, mem_grp, plusL, plus, mem_rep, mem_opt, mem_ch, St.adv]
    refine ⟨⟨(v ++ relPart r).reverse ++ pre, tail, relCaps v r caps⟩,
      ⟨⟨v.reverse ++ pre, relPart r ++ tail, (2, v) :: caps⟩,
      ⟨⟨v.reverse ++ pre, relPart r ++ tail, caps⟩, v,
        ⟨v, relPart r ++ tail, by simp, notDash_all.mpr hv, ?_, rfl⟩, by simp, rfl⟩, ?_⟩, ?_⟩
    · cases v with
      | nil => exact absurd rfl hv0
      | cons _ _ => simp
    · cases hre : r.isEmpty with
      | true => right; simp [relPart, relCaps, hre]
      | false =>
        left
        refine ⟨⟨'-' :: (v.reverse ++ pre), r ++ tail, (2, v) :: caps⟩,
          ⟨r ++ tail, by simp [relPart, hre], rfl⟩,
            ⟨r.reverse ++ '-' :: (v.reverse ++ pre), tail, (2, v) :: caps⟩, r,
            ⟨r, tail, by simp, notDash_all.mpr hr, ?_, rfl⟩, by simp,
            by simp [relPart, relCaps, hre]⟩
        cases r with
        | nil => simp at hre
        | cons _ _ => simp
    · rw [hX _ _ (List.IsSuffix.trans ⟨v ++ relPart r, by simp⟩ hf)]
      exact ⟨rfl, rfl⟩

/-- an epoch prefix and a tail: `\d+:` followed by at least one character -/
def EpochLike [Uni] (v : Str) : Prop :=
  ∃ d w, v = d ++ ':' :: w ∧ d ≠ [] ∧ d.all Uni.isDecimal = true ∧ w ≠ []

theorem colon_not_decimal [Uni] : Uni.isDecimal ':' = false := by
  rw [Uni.decimal_ascii _ (by decide)]; decide

theorem dash_not_decimal [Uni] : Uni.isDecimal '-' = false := by
  rw [Uni.decimal_ascii _ (by decide)]; decide

theorem colon_split {p : Char → Bool} {sep : Char} (hp : p sep = false) {a b c d : Str}
    (ha : a.all p = true) (hc : c.all p = true) (h : a ++ sep :: b = c ++ sep :: d) :
    a = c ∧ b = d := by
  induction a generalizing c with
  | nil =>
    cases c with
    | nil => simpa using h
    | cons x xs =>
      simp only [List.nil_append, List.cons_append, List.cons.injEq] at h
      simp only [List.all_cons, Bool.and_eq_true] at hc
      rw [← h.1, hp] at hc; simp at hc
  | cons y ys ih =>
    cases c with
    | nil =>
      simp only [List.nil_append, List.cons_append, List.cons.injEq] at h
      simp only [List.all_cons, Bool.and_eq_true] at ha
      rw [h.1, hp] at ha; simp at ha
    | cons x xs =>
      simp only [List.cons_append, List.cons.injEq] at h
      simp only [List.all_cons, Bool.and_eq_true] at ha hc
      obtain ⟨e1, e2⟩ := ih ha.2 hc.2 h.2
      exact ⟨by rw [h.1, e1], e2⟩

/-- matches of the epoch group -/
theorem mem_epoch [Uni] {s t : St Nat} {d w : Str} (hd0 : d ≠ []) (hd : d.all Uni.isDecimal = true)
    (hs : s.rest = d ++ ':' :: w) :
    t ∈ run (.grp 1 (plus Uni.isDecimal) ⬝ ch ':' : Re Nat) s ↔
    t = ⟨':' :: (d.reverse ++ s.pre), w, (1, d) :: s.caps⟩ := by
  simp only [mem_cat, mem_grp, plus, mem_rep, mem_ch, St.adv]
  constructor
  · rintro ⟨_, ⟨_, w1, ⟨w2, r2, h1, h2, h3, rfl⟩, h4, rfl⟩, cs, h5, rfl⟩
    simp only at h4 h5
    have : w1 = w2 := List.append_cancel_right (h4.symm.trans h1)
    subst this
    subst h5
    rw [hs] at h1
    obtain ⟨rfl, rfl⟩ := colon_split colon_not_decimal hd h2 h1
    rfl
  · rintro rfl
    refine ⟨⟨d.reverse ++ s.pre, ':' :: w, (1, d) :: s.caps⟩,
      ⟨_, d, ⟨d, ':' :: w, hs, hd, ?_, rfl⟩, hs, rfl⟩, w, rfl, rfl⟩
    cases d with
    | nil => exact absurd rfl hd0
    | cons _ _ => simp

/-- the epoch group needs an epoch prefix -/
theorem mem_epoch_inv [Uni] {s t : St Nat}
    (h : t ∈ run (.grp 1 (plus Uni.isDecimal) ⬝ ch ':' : Re Nat) s) :
    ∃ d w, s.rest = d ++ ':' :: w ∧ d ≠ [] ∧ d.all Uni.isDecimal = true ∧ t.rest = w := by
  simp only [mem_cat, mem_grp, plus, mem_rep, mem_ch, St.adv] at h
  obtain ⟨_, ⟨_, w1, ⟨w2, r2, h1, h2, h3, rfl⟩, h4, rfl⟩, cs, h5, rfl⟩ := h
  simp only at h5
  subst h5
  refine ⟨w2, cs, h1, ?_, h2, rfl⟩
  rintro rfl
  simp at h3

theorem run_evr [Uni] (X : Re Nat) (s : St Nat) : run (evrRe ⬝ X) s =
    run ((.grp 1 (plus Uni.isDecimal) ⬝ ch ':') ⬝ (tailRe ⬝ X)) s ++ run (tailRe ⬝ X) s := by
  rw [evrRe, run_cat_assoc, run_opt_cat]
  rfl

theorem decimal_noDash [Uni] {d : Str} (h : d.all Uni.isDecimal = true) : '-' ∉ d := fun hm => by
  have := List.all_eq_true.mp h _ hm
  rw [dash_not_decimal] at this
  simp at this

/-- any match of `[epoch:]version[-release]` has at most one dash before the tail -/
theorem mem_evr_dashes [Uni] {X : Re Nat} {full tail : Str} {fin : St Nat → St Nat}
    (hX : Ends X full tail fin) {s t : St Nat} (hs : s.rest <:+ full)
    (h : t ∈ run (evrRe ⬝ X) s) :
    ∃ y, s.rest = y ++ tail ∧ y.count '-' ≤ 1 := by
  have key : ∀ {s t : St Nat}, s.rest <:+ full → t ∈ run (tailRe ⬝ X) s →
      ∃ y, s.rest = y ++ tail ∧ y.count '-' ≤ 1 := by
    intro s t hs h
    obtain ⟨w, r, e1, _, e2, e3, _⟩ := mem_tail_inv hX hs h
    refine ⟨_, e1, ?_⟩
    rw [List.count_append, List.count_eq_zero.mpr e2]
    unfold relPart
    split
    · simp
    · simp [List.count_eq_zero.mpr e3]
  rw [run_evr, List.mem_append] at h
  rcases h with h | h
  · rw [mem_cat] at h
    obtain ⟨u, h1, h2⟩ := h
    obtain ⟨d, w, e1, _, e3, e4⟩ := mem_epoch_inv h1
    obtain ⟨y, e5, e6⟩ := key (s := u) (by
      refine List.IsSuffix.trans ?_ hs
      rw [e1, e4]; exact ⟨d ++ [':'], by simp⟩) h2
    refine ⟨d ++ ':' :: y, by rw [e1, ← e4, e5]; simp, ?_⟩
    simp [List.count_append, List.count_eq_zero.mpr (decimal_noDash e3), e6]
  · exact key hs h

/-- the epoch prefix of a label -/
def epochPart (e : Nat) : Str := if e > 0 then natStr e ++ [':'] else []
def epochCaps (e : Nat) (caps : List (Nat × Str)) : List (Nat × Str) :=
  if e > 0 then (1, natStr e) :: caps else caps

/-- the string after the name in a well-formed label, with its captures -/
theorem head_evr [Uni] {X : Re Nat} {full tail : Str} {fin : St Nat → St Nat}
    (hX : Ends X full tail fin) {pre v r : Str} {e : Nat} {caps : List (Nat × Str)} (hv0 : v ≠ [])
    (hv : '-' ∉ v) (hr : '-' ∉ r) (hf : epochPart e ++ (v ++ relPart r ++ tail) <:+ full)
    (hep : e = 0 → ¬ EpochLike v) :
    (run (evrRe ⬝ X) ⟨pre, epochPart e ++ (v ++ relPart r ++ tail), caps⟩).head?
    = some (fin ⟨(epochPart e ++ (v ++ relPart r)).reverse ++ pre, tail,
        relCaps v r (epochCaps e caps)⟩) := by
  have hf' : v ++ relPart r ++ tail <:+ full := List.IsSuffix.trans ⟨epochPart e, rfl⟩ hf
  rw [run_evr]
  by_cases he : e > 0
  · rw [List.head?_append]
    have hmem : ∀ u, u ∈ run ((.grp 1 (plus Uni.isDecimal) ⬝ ch ':') ⬝ (tailRe ⬝ X) : Re Nat)
        ⟨pre, epochPart e ++ (v ++ relPart r ++ tail), caps⟩ ↔
        u = fin ⟨(epochPart e ++ (v ++ relPart r)).reverse ++ pre, tail,
        relCaps v r (epochCaps e caps)⟩ := by
      intro u
      simp only [epochPart, epochCaps, he, if_true]
      rw [mem_cat]
      have hm := fun t => mem_epoch
        (s := (⟨pre, natStr e ++ [':'] ++ (v ++ relPart r ++ tail), caps⟩ : St Nat))
        (t := t) (natStr_ne_nil e) (natStr_decimal e) (w := v ++ relPart r ++ tail) (by simp)
      have ht := fun pre caps => mem_evrTail hX (pre := pre) (caps := caps) hv0 hv hr hf' (t := u)
      constructor
      · rintro ⟨t, h1, h2⟩
        rw [hm] at h1
        subst h1
        have := (ht _ _).mp h2
        rw [this]
        simp
      · rintro rfl
        refine ⟨_, (hm _).mpr rfl, ?_⟩
        exact (ht (':' :: ((natStr e).reverse ++ pre)) ((1, natStr e) :: caps)).mpr (by simp)
    rw [head_of_unique ((hmem _).mpr rfl) (fun u hu => (hmem u).mp hu)]
    rfl
  · simp only [epochPart, epochCaps, he, if_false, List.nil_append]
    have h0 : run ((.grp 1 (plus Uni.isDecimal) ⬝ ch ':') ⬝ (tailRe ⬝ X) : Re Nat)
        ⟨pre, v ++ relPart r ++ tail, caps⟩ = [] := by
      rw [run_eq_nil_iff]
      intro t ht
      rw [mem_cat] at ht
      obtain ⟨u, h1, h2⟩ := ht
      obtain ⟨d, w, e1, e2, e3, e4⟩ := mem_epoch_inv h1
      simp only at e1
      obtain ⟨w1, r1, e5, e6, e7, e8, _⟩ := mem_tail_inv hX (by
        refine List.IsSuffix.trans ?_ hf'
        rw [e1, e4]; exact ⟨d ++ [':'], by simp⟩) h2
      have e9 : v ++ relPart r = (d ++ ':' :: w1) ++ relPart r1 := by
        apply List.append_cancel_right (bs := tail)
        rw [e1, ← e4, e5]; simp
      obtain ⟨rfl, rfl⟩ := relPart_inj hv (by simp [decimal_noDash e3, e7]) e9
      exact hep (by omega) ⟨d, w1, rfl, e2, e3, e6⟩
    rw [h0, List.nil_append]
    have ht := fun t => mem_evrTail hX (pre := pre) (caps := caps) hv0 hv hr hf' (t := t)
    exact head_of_unique ((ht _).mpr rfl) (fun u hu => (ht u).mp hu)

/-- `$` ends a text without newlines -/
theorem ends_eos {full : Str} (h : '\n' ∉ full) : Ends .eos full [] id := by
  intro s t hs
  rw [mem_eos]
  constructor
  · rintro ⟨rfl, h1 | h1⟩
    · exact ⟨h1, rfl⟩
    · exfalso; apply h; rw [h1] at hs; exact hs.subset (by simp)
  · rintro ⟨h1, rfl⟩; exact ⟨rfl, .inl h1⟩

/-- name, dash and label -/
theorem head_nevr [Uni] {X : Re Nat} {full tail : Str} {fin : St Nat → St Nat}
    (hX : Ends X full tail fin) {pre n v r : Str} {e : Nat} {caps : List (Nat × Str)}
    (hn0 : n ≠ []) (hnn : '\n' ∉ n) (hv0 : v ≠ [])
    (hv : '-' ∉ v) (hr : '-' ∉ r) (hdash : r ≠ [] ∨ '-' ∉ n)
    (hf : n ++ '-' :: (epochPart e ++ (v ++ relPart r ++ tail)) <:+ full)
    (hep : e = 0 → ¬ EpochLike v) :
    (run (nevrRe ⬝ X) ⟨pre, n ++ '-' :: (epochPart e ++ (v ++ relPart r ++ tail)), caps⟩).head?
    = some (fin ⟨(n ++ '-' :: (epochPart e ++ (v ++ relPart r))).reverse ++ pre, tail,
        relCaps v r (epochCaps e ((4, n) :: caps))⟩) := by
  rw [nevrRe, run_cat_assoc, run_grp_cat]
  have hnd : n.all dot = true := by
    simp only [dot, List.all_eq_true, bne_iff_ne]
    rintro c hc rfl; exact hnn hc
  refine head_rep_lazy (w := n) (r' := '-' :: (epochPart e ++ (v ++ relPart r ++ tail))) rfl hnd ?_
    ?_ ?_
  · cases n with
    | nil => exact absurd rfl hn0
    | cons _ _ => simp
  · simp only [St.adv]
    rw [run_cat_assoc]
    have := head_evr hX (pre := '-' :: (n.reverse ++ pre)) (caps := (4, n) :: caps) hv0 hv hr
      (List.IsSuffix.trans ⟨n ++ ['-'], by simp⟩ hf) hep
    simp only [ch, run, beq_self_eq_true, if_true, List.flatMap_cons, List.flatMap_nil,
      List.append_nil] at this ⊢
    simp only [List.length_append, List.length_cons, Nat.add_sub_cancel,
      List.take_left'] at this ⊢
    simpa using this
  · intro w' w'' hw hw0 _
    rw [run_eq_nil_iff]
    intro t ht
    simp only [St.adv] at ht
    rw [run_cat_assoc, mem_cat] at ht
    obtain ⟨u, h1, h2⟩ := ht
    rw [mem_ch] at h1
    obtain ⟨cs, h3, rfl⟩ := h1
    simp only at h3
    obtain ⟨y, e1, e2⟩ := mem_evr_dashes hX (by
      refine List.IsSuffix.trans ?_ hf
      refine ⟨w' ++ ['-'], ?_⟩
      rw [hw, List.append_assoc, List.append_assoc w', h3]; rfl) h2
    simp only at e1
    cases w'' with
    | nil => exact absurd rfl hw0
    | cons c w3 =>
      simp only [List.cons_append, List.cons.injEq] at h3
      obtain ⟨rfl, h3⟩ := h3
      have e3 : w3 ++ '-' :: (epochPart e ++ (v ++ relPart r)) = y := by
        apply List.append_cancel_right (bs := tail)
        rw [← e1, ← h3]; simp
      rcases hdash with h | h
      · have : 2 ≤ y.count '-' := by
          rw [← e3]
          unfold relPart
          cases r with
          | nil => exact absurd rfl h
          | cons x xs =>
            simp only [List.isEmpty_cons, List.count_append, List.count_cons_self,
              Bool.false_eq_true, if_false]
            omega
        omega
      · exact h (by rw [hw]; simp)

/-! ### architectures -/

theorem run_lit (a : Str) (s t : St Nat) :
    t ∈ run (lit a : Re Nat) s ↔ ∃ r, s.rest = a ++ r ∧ t = s.adv a r := by
  induction a generalizing s with
  | nil => simp [lit, St.adv]
  | cons c cs ih =>
    cases cs with
    | nil =>
      rw [lit, mem_ch]
      simp [St.adv]
    | cons d ds =>
      rw [lit, mem_cat]
      · constructor
        · rintro ⟨u, h1, h2⟩
          rw [mem_ch] at h1
          obtain ⟨r, h3, rfl⟩ := h1
          rw [ih] at h2
          obtain ⟨r', h4, rfl⟩ := h2
          simp only at h4
          exact ⟨r', by rw [h3, h4]; rfl, by simp [St.adv]⟩
        · rintro ⟨r, h1, rfl⟩
          refine ⟨⟨c :: s.pre, d :: ds ++ r, s.caps⟩, mem_ch.mpr ⟨_, by simpa using h1, rfl⟩, ?_⟩
          rw [ih]
          exact ⟨r, rfl, by simp [St.adv]⟩
      · simp

theorem mem_arch {arches : List Str} {s t : St Nat} :
    t ∈ run (archRe arches) s ↔
    ∃ a ∈ arches, ∃ r, s.rest = a ++ r ∧ t = ⟨a.reverse ++ s.pre, r, (5, a) :: s.caps⟩ := by
  have key : ∀ u, u ∈ run (arches.foldr (fun a r => lit a ∣∣ r) .fail : Re Nat) s ↔
      ∃ a ∈ arches, ∃ r, s.rest = a ++ r ∧ u = s.adv a r := by
    intro u
    induction arches with
    | nil => simp
    | cons b bs ih =>
      simp only [List.foldr_cons, mem_alt, ih, run_lit, List.mem_cons, exists_eq_or_imp]
  rw [archRe, mem_grp]
  constructor
  · rintro ⟨u, w, h1, h2, rfl⟩
    rw [key] at h1
    obtain ⟨a, ha, r, h3, rfl⟩ := h1
    simp only [St.adv] at h2 ⊢
    have : w = a := List.append_cancel_right (h2.symm.trans h3)
    subst this
    exact ⟨w, ha, r, h3, rfl⟩
  · rintro ⟨a, ha, r, h1, rfl⟩
    exact ⟨s.adv a r, a, (key _).mpr ⟨a, ha, r, h1, rfl⟩, h1, rfl⟩

theorem suffix_split {full a b : Str} {c : Char} (ha : a <:+ full) (h : b <:+ full)
    (hc1 : ∃ a', a = c :: a' ∧ c ∉ a') (hc2 : ∃ b', b = c :: b' ∧ c ∉ b') : a = b := by
  obtain ⟨a', rfl, h1⟩ := hc1
  obtain ⟨b', rfl, h2⟩ := hc2
  have key : ∀ {x y : Str}, c ∉ y → c :: x <:+ y → False := by
    intro x y hy h
    exact hy (h.subset (by simp))
  rcases List.suffix_or_suffix_of_suffix ha h with h | h
  · rcases List.suffix_cons_iff.mp h with h | h
    · exact h
    · exact (key h2 h).elim
  · rcases List.suffix_cons_iff.mp h with h | h
    · exact h.symm
    · exact (key h1 h).elim

theorem ends_arch {arches : List Str} (harch : ∀ a ∈ arches, '.' ∉ a) {full arch : Str}
    (hm : arch ∈ arches) (hnl : '\n' ∉ full) (hfull : '.' :: arch <:+ full) :
    Ends ((ch '.' ⬝ archRe arches) ⬝ .eos) full ('.' :: arch)
      (fun s => ⟨('.' :: arch).reverse ++ s.pre, [], (5, arch) :: s.caps⟩) := by
  intro s t hs
  rw [run_cat_assoc]
  simp only [mem_cat, mem_ch, mem_arch, mem_eos]
  constructor
  · rintro ⟨_, ⟨cs, h1, rfl⟩, _, ⟨a, ha, r, h2, rfl⟩, rfl, h3⟩
    simp only at h2 h3
    have hr : r = [] := by
      rcases h3 with h3 | h3
      · exact h3
      · exfalso; apply hnl; apply hs.subset; rw [h1, h2, h3]; simp
    subst hr
    simp only [List.append_nil] at h2
    subst h2
    rw [h1] at hs
    have := suffix_split hs hfull ⟨_, rfl, harch _ ha⟩ ⟨_, rfl, harch _ hm⟩
    simp only [List.cons.injEq, true_and] at this
    subst this
    exact ⟨h1, by simp⟩
  · rintro ⟨h1, rfl⟩
    exact ⟨⟨'.' :: s.pre, arch, s.caps⟩, ⟨arch, h1, rfl⟩, _, ⟨arch, hm, [], by simp, rfl⟩,
      by simp, .inl rfl⟩

/-! ### general inversion (arbitrary text) -/

theorem mem_tail_gen {X : Re Nat} {s t : St Nat} (h : t ∈ run (tailRe ⬝ X) s) :
    ∃ w r u, s.rest = w ++ relPart r ++ u.rest ∧ w ≠ [] ∧ '-' ∉ w ∧ '-' ∉ r ∧
      u.caps = relCaps w r s.caps ∧ t ∈ run X u := by
  simp only [tailRe, mem_cat, mem_grp, plusL, plus, mem_rep, mem_opt, mem_ch, St.adv] at h
  obtain ⟨u, ⟨_, ⟨_, w, ⟨w', r', h1, h2, h3, rfl⟩, h4, rfl⟩, h5⟩, h6⟩ := h
  simp only at h1 h4
  have hww : w = w' := List.append_cancel_right (h4.symm.trans h1)
  subst hww
  rw [notDash_all] at h2
  have hw0 : w ≠ [] := by rintro rfl; simp at h3
  rcases h5 with ⟨_, ⟨cs, h7, rfl⟩, _, w2, ⟨w3, r3, h8, h9, h10, rfl⟩, h11, rfl⟩ | rfl
  · simp only at h7 h8 h11
    have : w2 = w3 := List.append_cancel_right (h11.symm.trans h8)
    subst this
    rw [notDash_all] at h9
    subst h7 h8
    have hw2 : w2.isEmpty = false := by
      cases w2 with
      | nil => simp at h10
      | cons _ _ => rfl
    exact ⟨w, w2, _, by simp [relPart, hw2, h1], hw0, h2, h9, by simp [relCaps, hw2], h6⟩
  · exact ⟨w, [], _, by simp [relPart, h1], hw0, h2, by simp, by simp [relCaps], h6⟩

theorem mem_evr_gen [Uni] {X : Re Nat} {s t : St Nat} (h : t ∈ run (evrRe ⬝ X) s) :
    ∃ ep w r u caps, s.rest = ep ++ w ++ relPart r ++ u.rest ∧ w ≠ [] ∧ '-' ∉ w ∧ '-' ∉ r ∧
      u.caps = relCaps w r caps ∧ t ∈ run X u ∧
      ((ep = [] ∧ caps = s.caps) ∨ ∃ d, ep = d ++ [':'] ∧ d ≠ [] ∧ d.all Uni.isDecimal = true ∧
        caps = (1, d) :: s.caps) := by
  rw [run_evr, List.mem_append] at h
  rcases h with h | h
  · rw [mem_cat] at h
    obtain ⟨u, h1, h2⟩ := h
    simp only [mem_cat, mem_grp, plus, mem_rep, mem_ch, St.adv] at h1
    obtain ⟨_, ⟨_, w1, ⟨w2, r2, h1, h3, h4, rfl⟩, h5, rfl⟩, cs, h6, rfl⟩ := h1
    simp only at h5 h6
    subst h6
    have : w1 = w2 := List.append_cancel_right (h5.symm.trans h1)
    subst this
    obtain ⟨w, r, u, e1, e2, e3, e4, e5, e6⟩ := mem_tail_gen h2
    refine ⟨w1 ++ [':'], w, r, u, _, ?_, e2, e3, e4, e5, e6, .inr ⟨w1, rfl, ?_, h3, rfl⟩⟩
    · simp only at e1
      rw [h1, e1]; simp
    · rintro rfl; simp at h4
  · obtain ⟨w, r, u, e1, e2, e3, e4, e5, e6⟩ := mem_tail_gen h
    exact ⟨[], w, r, u, _, by simpa using e1, e2, e3, e4, e5, e6, .inl ⟨rfl, rfl⟩⟩

theorem mem_nevr_gen [Uni] {X : Re Nat} {s t : St Nat} (h : t ∈ run (nevrRe ⬝ X) s) :
    ∃ n u, s.rest = n ++ '-' :: u.rest ∧ n ≠ [] ∧ '\n' ∉ n ∧ u.caps = (4, n) :: s.caps ∧
      t ∈ run (evrRe ⬝ X) u := by
  rw [nevrRe, run_cat_assoc, mem_cat] at h
  obtain ⟨u, h1, h2⟩ := h
  rw [run_cat_assoc, mem_cat] at h2
  obtain ⟨u', h3, h4⟩ := h2
  simp only [mem_grp, plusL, mem_rep, St.adv] at h1
  obtain ⟨_, w1, ⟨w2, r2, h1, h5, h6, rfl⟩, h7, rfl⟩ := h1
  simp only at h7
  have : w1 = w2 := List.append_cancel_right (h7.symm.trans h1)
  subst this
  rw [mem_ch] at h3
  obtain ⟨cs, h8, rfl⟩ := h3
  simp only at h8
  refine ⟨w1, _, by rw [h1, h8], by rintro rfl; simp at h6, ?_, rfl, h4⟩
  intro hm
  have := List.all_eq_true.mp h5 _ hm
  simp [dot] at this

/-! ### reading the captures -/

theorem evrStr_nat {e : Nat} {v r : Str} :
    evrStr (e : Int) v r = epochPart e ++ (v ++ relPart r) := by
  unfold evrStr epochPart relPart
  by_cases h : e > 0
  · rw [if_pos (by omega), if_pos h]
    simp only [List.append_assoc]
    rfl
  · rw [if_neg (by omega), if_neg h]; simp

theorem newline_epochPart {e : Nat} : '\n' ∉ epochPart e := by
  unfold epochPart
  split
  · simp [natStr_not_mem (n := e) (c := '\n') (by decide)]
  · simp

theorem newline_relPart {r : Str} (h : '\n' ∉ r) : '\n' ∉ relPart r := by
  unfold relPart; split <;> simp [h]

theorem epochOf_caps [Uni] {e : Nat} {v r : Str} {caps : List (Nat × Str)} {s : St Nat}
    (h : s.caps = relCaps v r (epochCaps e caps)) (hc : caps.find? (fun x => decide (x.1 = 1)) = none) :
    epochOf (s.get 1) = (e : Int) := by
  unfold St.get
  rw [h]
  unfold relCaps epochCaps
  by_cases he : e > 0
  · have h1 : (natStr e).isEmpty = false := by
      cases hh : natStr e with
      | nil => exact absurd hh (natStr_ne_nil e)
      | cons _ _ => rfl
    cases r <;> simp [he, epochOf, h1]
  · have : e = 0 := by omega
    cases r <;> simp [this, epochOf, hc]

theorem get2_caps {v r : Str} {caps : List (Nat × Str)} {s : St Nat}
    (h : s.caps = relCaps v r caps) : s.get 2 = some v := by
  unfold St.get
  rw [h]
  unfold relCaps
  cases r <;> simp

theorem get3_caps {v r : Str} {caps : List (Nat × Str)} {s : St Nat}
    (h : s.caps = relCaps v r caps) (hc : caps.find? (fun x => decide (x.1 = 3)) = none) :
    s.get 3 = if r.isEmpty then none else some r := by
  unfold St.get
  rw [h]
  unfold relCaps
  cases r <;> simp [hc]

theorem get4_caps {v r n : Str} {e : Nat} {caps : List (Nat × Str)} {s : St Nat}
    (h : s.caps = relCaps v r (epochCaps e ((4, n) :: caps))) : s.get 4 = some n := by
  unfold St.get
  rw [h]
  unfold relCaps epochCaps
  cases r <;> by_cases he : e > 0 <;> simp [he]

end Utils
end Specfile
