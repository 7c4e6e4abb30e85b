import Verif.Proof.Utils
import Verif.Spec.Label
/-
C33, C34: EVR, NEVR and NEVRA.
-/
namespace Specfile.Props
open Py Regex Spec Utils

theorem epochLike_iff [Uni] {v : Str} : EpochLike v ↔ LooksLikeEpoch v := by
  simp [EpochLike, LooksLikeEpoch, List.all_eq_true]

/-! ### C33 -/

/-- C33 (EVR; the full claim is that every EVR survives formatting and parsing). Missing: labels
that are ambiguous as text, see `C33_evr_violation`. -/
theorem C33_evr_roundtrip_partial [Uni] {x : EVR} (h : GoodLabel x.epoch x.version x.release) :
    evrFromString (EVR.str x) = .ok x := by
  obtain ⟨e, v, r⟩ := x
  obtain ⟨he, hv0, hvd, hvn, hrd, hrn, hne⟩ := h
  simp only at *
  obtain ⟨e, rfl⟩ := Int.eq_ofNat_of_zero_le he
  have hnl : '\n' ∉ epochPart e ++ (v ++ relPart r ++ []) := by
    simp [newline_epochPart, hvn, newline_relPart hrn]
  have := head_evr (ends_eos hnl) (pre := []) (caps := []) hv0 hvd hrd List.suffix_rfl
    (fun h0 => by rw [epochLike_iff]; exact hne (by simp [h0]))
  unfold evrFromString rmatch
  simp only [EVR.str, evrStr_nat, init]
  have e1 : run ((Re.bos : Re Nat) ⬝ evrRe ⬝ Re.eos) ⟨[], epochPart e ++ (v ++ relPart r), []⟩ =
      run (evrRe ⬝ Re.eos) ⟨[], epochPart e ++ (v ++ relPart r), []⟩ := by
    simp only [run, List.isEmpty_nil, if_true, List.flatMap_cons, List.flatMap_nil,
      List.append_nil]
  simp only [List.append_nil] at this
  rw [e1, this]
  simp only [id]
  rw [epochOf_caps rfl rfl, get2_caps rfl, get3_caps rfl (by unfold epochCaps; split <;> rfl)]
  cases r <;> simp

section
attribute [local instance] asciiUni
example : GoodLabel 2 (s% "1:0.5~rc1") (s% "3.fc40") :=
  ⟨by decide, by decide, by decide, by decide, by decide, by decide, by simp⟩
example : evrFromString (EVR.str ⟨2, s% "1:0.5~rc1", s% "3.fc40"⟩) =
    .ok ⟨2, s% "1:0.5~rc1", s% "3.fc40"⟩ := rfl
end

/-- An EVR without epoch whose version looks like `epoch:version` does not survive. -/
theorem C33_evr_violation : ∃ (u : Uni) (x : EVR), x.epoch = 0 ∧ x.version = s% "1:2" ∧
    @evrFromString u (EVR.str x) = .ok ⟨1, s% "2", []⟩ ∧ x ≠ ⟨1, s% "2", []⟩ :=
  ⟨asciiUni, ⟨0, s% "1:2", []⟩, rfl, rfl, rfl, by decide⟩

/-- Such EVRs do occur: `from_string("0:1:2")` produces one, so normalising a string twice can
change its meaning. -/
theorem C33_normalisation_violation : ∃ (u : Uni) (s : Str) (x y : EVR),
    @evrFromString u s = .ok x ∧ @evrFromString u (EVR.str x) = .ok y ∧ x ≠ y :=
  ⟨asciiUni, s% "0:1:2", ⟨0, s% "1:2", []⟩, ⟨1, s% "2", []⟩, rfl, rfl, by decide⟩

/-- C33: what `EVR.from_string` accepts and how it reads it: `[digits:]version[-release]`, possibly
followed by one newline. -/
theorem C33_evr_from_string [Uni] {s : Str} {x : EVR} (h : evrFromString s = .ok x) :
    ∃ ep nl, s = ep ++ x.version ++ (if x.release = [] then [] else '-' :: x.release) ++ nl ∧
      (nl = [] ∨ nl = ['\n']) ∧ x.version ≠ [] ∧ '-' ∉ x.version ∧ '-' ∉ x.release ∧
      ((ep = [] ∧ x.epoch = 0) ∨ ∃ d, ep = d ++ [':'] ∧ d ≠ [] ∧
        (∀ c ∈ d, Uni.isDecimal c = true) ∧ x.epoch = decVal d) := by
  unfold evrFromString at h
  split at h
  · simp at h
  · rename_i t ht
    have hm := mem_of_rmatch ht
    rw [mem_cat] at hm
    obtain ⟨s0, h0, hm⟩ := hm
    rw [mem_bos] at h0
    obtain ⟨rfl, -⟩ := h0
    obtain ⟨ep, w, r, u, caps, e1, e2, e3, e4, e5, e6, e7⟩ := mem_evr_gen hm
    rw [mem_eos] at e6
    obtain ⟨rfl, e6⟩ := e6
    have hc3 : caps.find? (fun x => decide (x.1 = 3)) = none := by
      rcases e7 with ⟨-, rfl⟩ | ⟨d, -, -, -, rfl⟩ <;> simp [init]
    rw [get2_caps e5, get3_caps e5 hc3] at h
    simp only [Except.ok.injEq] at h
    subst h
    refine ⟨ep, t.rest, ?_, e6, by simpa using e2, by simpa using e3, ?_, ?_⟩
    · simp only [init] at e1
      rw [e1]
      cases r <;> simp [relPart]
    · cases r <;> simp_all
    · rcases e7 with ⟨rfl, rfl⟩ | ⟨d, rfl, h1, h2, rfl⟩
      · left
        refine ⟨rfl, ?_⟩
        simp only [St.get, e5, relCaps, init]
        cases r <;> simp [epochOf]
      · right
        refine ⟨d, rfl, h1, by simpa [List.all_eq_true] using h2, ?_⟩
        simp only [St.get, e5, relCaps]
        cases d with
        | nil => exact absurd rfl h1
        | cons _ _ => cases r <;> simp [epochOf]

/-- C33: and it accepts every such text. -/
theorem C33_evr_accepts [Uni] (ep v r : Str) (hv : v ≠ []) (hvd : '-' ∉ v) (hrd : '-' ∉ r)
    (hep : ep = [] ∨ ∃ d, ep = d ++ [':'] ∧ d ≠ [] ∧ ∀ c ∈ d, Uni.isDecimal c = true) :
    ∃ x, evrFromString (ep ++ v ++ (if r = [] then [] else '-' :: r)) = .ok x := by
  unfold evrFromString
  cases hm : rmatch (Re.bos ⬝ evrRe ⬝ Re.eos) (ep ++ v ++ (if r = [] then [] else '-' :: r)) with
  | some t => exact ⟨_, rfl⟩
  | none =>
    exfalso
    rw [rmatch_none] at hm
    have hrel : (if r = [] then [] else '-' :: r) = relPart r := by
      cases r <;> simp [relPart]
    rw [hrel] at hm
    have key : ∀ s : St Nat, s.rest = v ++ relPart r → ∃ t, t ∈ run (tailRe ⬝ Re.eos) s := by
      intro s hs
      have hX : ∀ full : Str, Ends (.eos ⬝ .eot) full [] id := by
        intro full s t _
        rw [mem_cat]
        simp only [mem_eos, mem_eot]
        constructor
        · rintro ⟨u, ⟨rfl, _⟩, rfl, h⟩; exact ⟨h, rfl⟩
        · rintro ⟨h, rfl⟩; exact ⟨_, ⟨rfl, .inl h⟩, rfl, h⟩
      have h := (mem_evrTail (hX (v ++ relPart r ++ [])) (pre := s.pre) (caps := s.caps) hv hvd hrd
        List.suffix_rfl (t := _)).mpr rfl
      rw [← run_cat_assoc, mem_cat] at h
      obtain ⟨t, h, -⟩ := h
      refine ⟨t, ?_⟩
      obtain ⟨p, rs, c⟩ := s
      simp only at hs
      subst hs
      simpa using h
    have hall : ∃ t, t ∈ run (evrRe ⬝ Re.eos) (init (ep ++ v ++ relPart r) : St Nat) := by
      rcases hep with rfl | ⟨d, rfl, h1, h2⟩
      · obtain ⟨t, ht⟩ := key (init ([] ++ v ++ relPart r)) (by simp [init])
        exact ⟨t, by rw [run_evr]; exact List.mem_append_right _ ht⟩
      · obtain ⟨t, ht⟩ := key ⟨':' :: (d.reverse ++ []), v ++ relPart r, [(1, d)]⟩ rfl
        refine ⟨t, ?_⟩
        rw [run_evr]
        apply List.mem_append_left
        rw [mem_cat]
        refine ⟨_, (mem_epoch h1 (by simpa [List.all_eq_true] using h2) (w := v ++ relPart r)
          (by simp [init])).mpr rfl, ht⟩
    obtain ⟨t, ht⟩ := hall
    refine hm t ?_
    rw [mem_cat]
    exact ⟨_, mem_bos.mpr ⟨rfl, rfl⟩, ht⟩

section
attribute [local instance] asciiUni
example : evrFromString (s% "12:4.5-6.fc40") = .ok ⟨12, s% "4.5", s% "6.fc40"⟩ := rfl
example : evrFromString (s% "a:4.5") = .ok ⟨0, s% "a:4.5", []⟩ := rfl
example : evrFromString (s% "1-2-3") = .error .specfileException := rfl
end

/-- C33 (NEVR; the full claim is that every NEVR survives formatting and parsing). Missing: names
with dashes when the release is empty, and labels that are ambiguous as text. -/
theorem C33_nevr_roundtrip_partial [Uni] {x : NEVR}
    (h : GoodLabel x.evr.epoch x.evr.version x.evr.release) (hn : GoodName x.name x.evr.release) :
    nevrFromString (NEVR.str x) = .ok x := by
  obtain ⟨n, e, v, r⟩ := x
  obtain ⟨he, hv0, hvd, hvn, hrd, hrn, hne⟩ := h
  obtain ⟨hn0, hnn, hnd⟩ := hn
  simp only at *
  obtain ⟨e, rfl⟩ := Int.eq_ofNat_of_zero_le he
  have hnl : '\n' ∉ n ++ '-' :: (epochPart e ++ (v ++ relPart r ++ [])) := by
    simp [newline_epochPart, hvn, newline_relPart hrn, hnn]
  have := head_nevr (ends_eos hnl) (pre := []) (caps := []) hn0 hnn hv0 hvd hrd hnd List.suffix_rfl
    (fun h0 => by rw [epochLike_iff]; exact hne (by simp [h0]))
  unfold nevrFromString rmatch
  simp only [NEVR.str, EVR.str, evrStr_nat, init]
  have e1 : run ((Re.bos : Re Nat) ⬝ nevrRe ⬝ Re.eos)
      ⟨[], n ++ '-' :: (epochPart e ++ (v ++ relPart r)), []⟩ =
      run (nevrRe ⬝ Re.eos) ⟨[], n ++ '-' :: (epochPart e ++ (v ++ relPart r)), []⟩ := by
    simp only [run, List.isEmpty_nil, if_true, List.flatMap_cons, List.flatMap_nil,
      List.append_nil]
  simp only [List.append_nil] at this
  rw [e1, this]
  simp only [id]
  rw [epochOf_caps rfl rfl, get2_caps rfl, get3_caps rfl (by unfold epochCaps; split <;> rfl),
    get4_caps rfl]
  cases r <;> simp

section
attribute [local instance] asciiUni
example : GoodLabel 1 (s% "3.12") (s% "1.fc40") ∧ GoodName (s% "python3-foo-bar") (s% "1.fc40") :=
  ⟨⟨by decide, by decide, by decide, by decide, by decide, by decide, by simp⟩,
   ⟨by decide, by decide, .inl (by decide)⟩⟩
example : nevrFromString (s% "python3-foo-bar-1:3.12-1.fc40") =
    .ok ⟨s% "python3-foo-bar", ⟨1, s% "3.12", s% "1.fc40"⟩⟩ := rfl
end

/-- Without a release, a dashed name is read as name, version and release. -/
theorem C33_nevr_violation : ∃ (u : Uni) (x y : NEVR), x.name = s% "foo-bar" ∧
    x.evr = ⟨0, s% "1", []⟩ ∧ @nevrFromString u (NEVR.str x) = .ok y ∧ y.name = s% "foo" ∧
    y.evr = ⟨0, s% "bar", s% "1"⟩ :=
  ⟨asciiUni, ⟨s% "foo-bar", ⟨0, s% "1", []⟩⟩, ⟨s% "foo", ⟨0, s% "bar", s% "1"⟩⟩,
    rfl, rfl, rfl, rfl, rfl⟩

/-- C33: `NEVR.from_string` reads `name-` followed by a label, with a nonempty one-line name. -/
theorem C33_nevr_from_string [Uni] {s : Str} {x : NEVR} (h : nevrFromString s = .ok x) :
    ∃ ep nl, s = x.name ++ '-' :: (ep ++ x.evr.version ++
        (if x.evr.release = [] then [] else '-' :: x.evr.release) ++ nl) ∧
      x.name ≠ [] ∧ '\n' ∉ x.name ∧
      (nl = [] ∨ nl = ['\n']) ∧ x.evr.version ≠ [] ∧ '-' ∉ x.evr.version ∧ '-' ∉ x.evr.release ∧
      ((ep = [] ∧ x.evr.epoch = 0) ∨ ∃ d, ep = d ++ [':'] ∧ d ≠ [] ∧
        (∀ c ∈ d, Uni.isDecimal c = true) ∧ x.evr.epoch = decVal d) := by
  unfold nevrFromString at h
  split at h
  · simp at h
  · rename_i t ht
    have hm := mem_of_rmatch ht
    rw [mem_cat] at hm
    obtain ⟨s0, h0, hm⟩ := hm
    rw [mem_bos] at h0
    obtain ⟨rfl, -⟩ := h0
    obtain ⟨n, s1, f1, f2, f3, f4, hm⟩ := mem_nevr_gen hm
    obtain ⟨ep, w, r, u, caps, e1, e2, e3, e4, e5, e6, e7⟩ := mem_evr_gen hm
    rw [mem_eos] at e6
    obtain ⟨rfl, e6⟩ := e6
    have hc3 : caps.find? (fun x => decide (x.1 = 3)) = none := by
      rcases e7 with ⟨-, rfl⟩ | ⟨d, -, -, -, rfl⟩ <;> simp [init, f4]
    have h4 : t.get 4 = some n := by
      simp only [St.get, e5, relCaps]
      rcases e7 with ⟨-, rfl⟩ | ⟨d, -, -, -, rfl⟩ <;> cases r <;> simp [f4]
    rw [get2_caps e5, get3_caps e5 hc3, h4] at h
    simp only [Except.ok.injEq] at h
    subst h
    refine ⟨ep, t.rest, ?_, f2, f3, e6, by simpa using e2, by simpa using e3, ?_, ?_⟩
    · simp only [init] at f1
      rw [f1, e1]
      cases r <;> simp [relPart]
    · cases r <;> simp_all
    · rcases e7 with ⟨rfl, rfl⟩ | ⟨d, rfl, h1, h2, rfl⟩
      · left
        refine ⟨rfl, ?_⟩
        simp only [St.get, e5, relCaps, f4, init]
        cases r <;> simp [epochOf]
      · right
        refine ⟨d, rfl, h1, by simpa [List.all_eq_true] using h2, ?_⟩
        simp only [St.get, e5, relCaps]
        cases d with
        | nil => exact absurd rfl h1
        | cons _ _ => cases r <;> simp [epochOf]

theorem arch_ok {arches : List Str} {a : Str} (ha : a ∈ arches) (x : NEVRA) (hx : x.arch = a) :
    nevraInit arches x = .ok x := by
  unfold nevraInit
  cases h : rmatch (Re.bos ⬝ archRe arches ⬝ Re.eos) x.arch with
  | some t => rfl
  | none =>
    exfalso
    rw [rmatch_none] at h
    refine h ⟨a.reverse, [], [(5, a)]⟩ ?_
    simp only [mem_cat, mem_bos, mem_arch, mem_eos]
    exact ⟨_, ⟨rfl, rfl⟩, _, ⟨a, ha, [], by simp [init, hx], by simp [init]⟩, rfl, .inl rfl⟩

/-- C33 (NEVRA; the full claim is that every NEVRA survives formatting and parsing). The alternatives
of the architecture pattern come from a Python set, so the theorem is for every list `arches` with
the elements of that set. Missing: as for NEVR. -/
theorem C33_nevra_roundtrip_partial [Uni] {arches : List Str}
    (harches : ∀ a, a ∈ arches ↔ a ∈ allArches) {x : NEVRA} {r : Str}
    (hr : x.release = if r.isEmpty then none else some r)
    (h : GoodLabel x.epoch x.version r) (hn : GoodName x.name r) (ha : x.arch ∈ allArches) :
    nevraFromString arches (NEVRA.str x) = .ok x := by
  obtain ⟨n, e, v, ro, a⟩ := x
  obtain ⟨he, hv0, hvd, hvn, hrd, hrn, hne⟩ := h
  obtain ⟨hn0, hnn, hnd⟩ := hn
  simp only at *
  subst hr
  obtain ⟨e, rfl⟩ := Int.eq_ofNat_of_zero_le he
  have hdot : ∀ b ∈ arches, '.' ∉ b := by
    intro b hb
    rw [harches] at hb
    revert b
    decide +kernel
  have harchnl : '\n' ∉ a := by
    have : ∀ b ∈ allArches, '\n' ∉ b := by decide +kernel
    exact this a ha
  have hnl : '\n' ∉ n ++ '-' :: (epochPart e ++ (v ++ relPart r ++ '.' :: a)) := by
    simp [newline_epochPart, hvn, newline_relPart hrn, hnn, harchnl]
  have hE := ends_arch hdot ((harches a).mpr ha) hnl
    ⟨n ++ '-' :: (epochPart e ++ (v ++ relPart r)), by simp⟩
  have := head_nevr hE (pre := []) (caps := []) hn0 hnn hv0 hvd hrd hnd List.suffix_rfl
    (fun h0 => by rw [epochLike_iff]; exact hne (by simp [h0]))
  unfold nevraFromString rmatch
  have hro : ((if r.isEmpty then none else some r).getD [] : Str) = r := by
    cases r <;> simp
  simp only [NEVRA.str, evrStr_nat, init, hro]
  have e2 : n ++ '-' :: (epochPart e ++ (v ++ relPart r)) ++ '.' :: a =
      n ++ '-' :: (epochPart e ++ (v ++ relPart r ++ '.' :: a)) := by simp
  rw [e2]
  have e1 : run ((Re.bos : Re Nat) ⬝ nevraRe arches ⬝ Re.eos)
      ⟨[], n ++ '-' :: (epochPart e ++ (v ++ relPart r ++ '.' :: a)), []⟩ =
      run (nevrRe ⬝ ((ch '.' ⬝ archRe arches) ⬝ Re.eos))
        ⟨[], n ++ '-' :: (epochPart e ++ (v ++ relPart r ++ '.' :: a)), []⟩ := by
    rw [← run_cat_assoc nevrRe]
    rw [show ∀ (r : Re Nat) (s : St Nat), run (Re.bos ⬝ r) s =
      (run Re.bos s).flatMap (run r) from fun _ _ => rfl]
    simp only [run, List.isEmpty_nil, if_true, List.flatMap_cons, List.flatMap_nil,
      List.append_nil, nevraRe]
  rw [e1, this]
  simp only
  rw [arch_ok ((harches a).mpr ha) _ (by simp [St.get])]
  congr 1
  have g : ∀ k, k ≠ 5 → ∀ (p q : Str) (c : List (Nat × Str)),
      St.get (⟨p, q, (5, a) :: c⟩ : St Nat) k = St.get (⟨p, q, c⟩ : St Nat) k := by
    intro k hk p q c
    simp only [St.get, List.find?_cons]
    rw [decide_eq_false (by simpa using fun h => hk h.symm)]
  rw [g 1 (by decide), g 2 (by decide), g 3 (by decide), g 4 (by decide),
    epochOf_caps rfl rfl, get2_caps rfl, get3_caps rfl (by unfold epochCaps; split <;> rfl),
    get4_caps rfl]
  simp [St.get]

section
attribute [local instance] asciiUni
example : nevraFromString allArches (s% "foo-bar-1:3.12-1.fc40.noarch") =
    .ok ⟨s% "foo-bar", 1, s% "3.12", some (s% "1.fc40"), s% "noarch"⟩ := rfl
end

/-! ### C34 -/

/-- C34: if the label comparison is a total preorder, the six operators of EVR are those of one
total preorder: exactly one of `<`, `==`, `>` holds, the other three are derived from them, and
`<=` is transitive. -/
theorem C34_evr_total_preorder {lc : Label → Label → Int} (h : LabelOrder lc) (x y z : EVR) :
    ((EVR.lt lc x y, EVR.eq lc x y, EVR.gt lc x y) ∈
        [(true, false, false), (false, true, false), (false, false, true)]) ∧
    EVR.le lc x y = (EVR.lt lc x y || EVR.eq lc x y) ∧
    EVR.ge lc x y = (EVR.gt lc x y || EVR.eq lc x y) ∧
    EVR.ne lc x y = !EVR.eq lc x y ∧
    EVR.gt lc x y = EVR.lt lc y x ∧ EVR.eq lc x y = EVR.eq lc y x ∧ EVR.eq lc x x = true ∧
    (EVR.le lc x y = true → EVR.le lc y z = true → EVR.le lc x z = true) := by
  have hs1 : EVR.cmp lc x y < 0 ↔ EVR.cmp lc y x > 0 := h.swap (EVR.label x) (EVR.label y)
  have hs2 : EVR.cmp lc y x < 0 ↔ EVR.cmp lc x y > 0 := h.swap (EVR.label y) (EVR.label x)
  have hr : EVR.cmp lc x x = 0 := h.refl (EVR.label x)
  have ht : EVR.cmp lc x y ≤ 0 → EVR.cmp lc y z ≤ 0 → EVR.cmp lc x z ≤ 0 :=
    h.trans (EVR.label x) (EVR.label y) (EVR.label z)
  simp only [EVR.lt, EVR.le, EVR.eq, EVR.ne, EVR.ge, EVR.gt, decide_eq_true_eq]
  generalize EVR.cmp lc x y = a at *
  generalize EVR.cmp lc y x = b at *
  refine ⟨?_, ?_, ?_, ?_, ?_, ?_, ?_, ht⟩
  · rcases Int.lt_trichotomy a 0 with h | h | h
    · simp [h]; omega
    · simp [h]
    · simp [h]; omega
  · rw [Bool.eq_iff_iff]; simp; omega
  · rw [Bool.eq_iff_iff]; simp; omega
  · simp
  · rw [Bool.eq_iff_iff]; simp; omega
  · rw [Bool.eq_iff_iff]; simp; omega
  · simp [hr]

/-- C34: the operators are those of RPM's comparison of epoch, version and release, where the epoch is written in
decimal and an empty version stands for 0. -/
theorem C34_evr_operators (lc : Label → Label → Int) (x y : EVR) (e f : Nat) (hx : x.epoch = e) (hy : y.epoch = f) :
    let c := lc (natStr e, shownVersion x.version, x.release) (natStr f, shownVersion y.version, y.release)
    (EVR.lt lc x y = true ↔ c < 0) ∧ (EVR.le lc x y = true ↔ c ≤ 0) ∧ (EVR.eq lc x y = true ↔ c = 0) ∧
    (EVR.ne lc x y = true ↔ c ≠ 0) ∧ (EVR.ge lc x y = true ↔ c ≥ 0) ∧ (EVR.gt lc x y = true ↔ c > 0) := by
  obtain ⟨xe, xv, xr⟩ := x
  obtain ⟨ye, yv, yr⟩ := y
  simp only at hx hy
  subst hx hy
  have hv : ∀ v : Str, (if v.isEmpty = true then s% "0" else v) = shownVersion v := by
    intro v; cases v <;> simp [shownVersion]
  simp only [EVR.lt, EVR.le, EVR.eq, EVR.ne, EVR.ge, EVR.gt, EVR.cmp, EVR.label, hv, decide_eq_true_eq]
  exact ⟨Iff.rfl, Iff.rfl, Iff.rfl, Iff.rfl, Iff.rfl, Iff.rfl⟩

/-- C34: an empty version is compared as if it was 0. -/
theorem C34_empty_version (lc : Label → Label → Int) (h : LabelOrder lc) (e : Nat) (r : Str) :
    EVR.eq lc ⟨e, [], r⟩ ⟨e, s% "0", r⟩ = true ∧ EVR.lt lc ⟨e, [], r⟩ ⟨e, s% "0", r⟩ = false := by
  have key := C34_evr_operators lc ⟨e, [], r⟩ ⟨e, s% "0", r⟩ e e rfl rfl
  have e0 : shownVersion [] = s% "0" := rfl
  have e1 : shownVersion (s% "0") = s% "0" := rfl
  simp only [e0, e1, h.refl] at key
  refine ⟨key.2.2.1.mpr trivial, ?_⟩
  have := key.1
  cases hb : EVR.lt lc ⟨e, [], r⟩ ⟨e, s% "0", r⟩ with
  | false => rfl
  | true => exact absurd (this.mp hb) (by decide)

/-- a lawful comparison that tells labels apart: by the length of the version -/
example : LabelOrder (fun a b => (a.2.1.length : Int) - b.2.1.length) :=
  ⟨by simp, by intro a b; omega, by intro a b c; omega⟩

/-- C34: NEVR and NEVRA objects are ordered only against objects of the same name (and
architecture), and then as their EVR; equality requires the same name (and architecture), and `!=`
is its negation. -/
theorem C34_nevr_comparison (lc : Label → Label → Int) (x y : NEVR) :
    (x.name = y.name → NEVR.lt lc x y = some (EVR.lt lc x.evr y.evr) ∧
      NEVR.le lc x y = some (EVR.le lc x.evr y.evr) ∧
      NEVR.gt lc x y = some (EVR.gt lc x.evr y.evr) ∧
      NEVR.ge lc x y = some (EVR.ge lc x.evr y.evr)) ∧
    (x.name ≠ y.name → NEVR.lt lc x y = none ∧ NEVR.le lc x y = none ∧
      NEVR.gt lc x y = none ∧ NEVR.ge lc x y = none) ∧
    (NEVR.eq lc x y = true ↔ x.name = y.name ∧ EVR.eq lc x.evr y.evr = true) ∧
    (NEVR.ne lc x y = !NEVR.eq lc x y) := by
  refine ⟨?_, ?_, ?_, ?_⟩
  · intro h; simp [NEVR.lt, NEVR.le, NEVR.gt, NEVR.ge, h]
  · intro h; simp [NEVR.lt, NEVR.le, NEVR.gt, NEVR.ge, h]
  · simp [NEVR.eq]
  · simp [NEVR.eq, NEVR.ne, EVR.eq, EVR.ne, bne]

theorem C34_nevra_comparison (lc : Label → Label → Int) (x y : NEVRA) :
    (x.name = y.name ∧ x.arch = y.arch →
      NEVRA.lt lc x y = some (EVR.lt lc (NEVRA.evr x) (NEVRA.evr y)) ∧
      NEVRA.le lc x y = some (EVR.le lc (NEVRA.evr x) (NEVRA.evr y)) ∧
      NEVRA.gt lc x y = some (EVR.gt lc (NEVRA.evr x) (NEVRA.evr y)) ∧
      NEVRA.ge lc x y = some (EVR.ge lc (NEVRA.evr x) (NEVRA.evr y))) ∧
    (¬ (x.name = y.name ∧ x.arch = y.arch) → NEVRA.lt lc x y = none ∧ NEVRA.le lc x y = none ∧
      NEVRA.gt lc x y = none ∧ NEVRA.ge lc x y = none) ∧
    (NEVRA.eq lc x y = true ↔
      x.name = y.name ∧ x.arch = y.arch ∧ EVR.eq lc (NEVRA.evr x) (NEVRA.evr y) = true) ∧
    (NEVRA.ne lc x y = !NEVRA.eq lc x y) := by
  have hc : NEVRA.comparable x y = true ↔ x.name = y.name ∧ x.arch = y.arch := by
    simp [NEVRA.comparable]
  refine ⟨?_, ?_, ?_, ?_⟩
  · intro h; simp [NEVRA.lt, NEVRA.le, NEVRA.gt, NEVRA.ge, hc.mpr h]
  · intro h; rw [← hc] at h; simp [NEVRA.lt, NEVRA.le, NEVRA.gt, NEVRA.ge, h]
  · simp [NEVRA.eq, and_assoc]
  · simp [NEVRA.eq, NEVRA.ne, EVR.eq, EVR.ne, bne]

/-- C34, hashing (the full claim is that equal EVRs have equal hash keys). Proved part: it holds
whenever the label comparison distinguishes the labels and both versions are nonempty. -/
theorem C34_hash_contract_partial {lc : Label → Label → Int} (hlc : ∀ a b, lc a b = 0 → a = b)
    {x y : EVR} (hx : x.version ≠ []) (hy : y.version ≠ []) (hxe : 0 ≤ x.epoch) (hye : 0 ≤ y.epoch)
    (h : EVR.eq lc x y = true) : EVR.key x = EVR.key y := by
  obtain ⟨e, v, r⟩ := x
  obtain ⟨e', v', r'⟩ := y
  simp only [EVR.eq, decide_eq_true_eq] at h
  have := hlc _ _ h
  simp only [EVR.label] at this hx hy hxe hye
  obtain ⟨e, rfl⟩ := Int.eq_ofNat_of_zero_le hxe
  obtain ⟨e', rfl⟩ := Int.eq_ofNat_of_zero_le hye
  cases v with
  | nil => exact absurd rfl hx
  | cons c cs =>
    cases v' with
    | nil => exact absurd rfl hy
    | cons d ds =>
      simp only [List.isEmpty_cons, Bool.false_eq_true, if_false, Prod.mk.injEq] at this
      obtain ⟨h1, h2, h3⟩ := this
      have : e = e' := natStr_injective h1
      subst this h3
      rw [h2]

/-- The hash contract fails for every label comparison that equates a label with itself: an empty
version compares as "0" but hashes as "". -/
theorem C34_hash_violation (lc : Label → Label → Int) (h : LabelOrder lc) :
    ∃ x y : EVR, EVR.eq lc x y = true ∧ EVR.key x ≠ EVR.key y :=
  ⟨⟨0, [], []⟩, ⟨0, s% "0", []⟩, by
    have := h.refl (s% "0", s% "0", [])
    simp only [EVR.eq, decide_eq_true_eq]
    exact this, by decide⟩

example : ∃ lc : Label → Label → Int, (∀ a b, lc a b = 0 → a = b) ∧ lc (s% "1", s% "2", []) (s% "1", s% "2", []) = 0 :=
  ⟨fun a b => if a = b then 0 else 1, by intro a b; simp, by simp⟩

end Specfile.Props
