import Verif.Spec.SpecParser
/-
Lemmas about dummy sources, the environment, and the cache of the parser.
-/
namespace Specfile.SpecParser
open Py Spec

/-! ### dummy sources -/

theorem pathExists_iff {fs : Files} (h : NoDangling fs) (n : Str) : pathExists fs n = true ↔ fs n ≠ none := by
  unfold pathExists
  cases e : fs n with
  | none => simp
  | some x =>
    cases x with
    | file c => simp
    | dir => simp
    | link t =>
      have := h n t e
      simp only [ne_eq, reduceCtorEq, not_false_eq_true, iff_true]
      cases e' : fs t with
      | none => exact absurd e' this
      | some => rfl

theorem noDangling_put {fs : Files} (h : NoDangling fs) {n : Str} {c : List Nat} :
    NoDangling (put fs n (some (.file c))) := by
  intro m t e
  unfold put at e ⊢
  by_cases hm : m = n
  · rw [if_pos hm] at e; cases e
  · rw [if_neg hm] at e
    split
    · simp
    · exact h m t e

/-- what `create` does: the files of the named sources that do not exist and can be written -/
theorem create_spec {F : Faults} (hF : Benign F) (content : Str → List Nat) : ∀ (ss : List Str) (fs : Files) (made : List Str),
    NoDangling fs → ∃ fs' made', create F content ss fs made = (fs', .ok (made ++ made')) ∧ NoDangling fs' ∧
      made'.Nodup ∧ (∀ n, n ∈ made' ↔ fs n = none ∧ Named ss n ∧ F.write n = .none) ∧
      ∀ n, fs' n = if n ∈ made' then some (.file (content n)) else fs n := by
  intro ss
  induction ss with
  | nil =>
    intro fs made h
    refine ⟨fs, [], by simp [create], h, List.nodup_nil, ?_, by simp⟩
    intro n
    simp [Named]
  | cons s ss ih =>
    intro fs made h
    rw [create]
    by_cases hskip : (Utils.filenameFromLocation s).isEmpty = true ∨ pathExists fs (Utils.filenameFromLocation s) = true
    · have : ((Utils.filenameFromLocation s).isEmpty || pathExists fs (Utils.filenameFromLocation s)) = true := by
        rcases hskip with h | h <;> simp [h]
      simp only [this, if_true]
      obtain ⟨fs', made', e, hd, hnd, hm, hf⟩ := ih fs made h
      refine ⟨fs', made', e, hd, hnd, fun n => ?_, hf⟩
      rw [hm n]
      constructor
      · rintro ⟨h1, ⟨h2, x, hx, hxe⟩, h3⟩; exact ⟨h1, ⟨h2, x, by simp [hx], hxe⟩, h3⟩
      · rintro ⟨h1, ⟨h2, x, hx, hxe⟩, h3⟩
        refine ⟨h1, ⟨h2, x, ?_, hxe⟩, h3⟩
        rcases List.mem_cons.1 hx with rfl | hx
        · rcases hskip with h' | h'
          · rw [hxe] at h'; exact absurd (List.isEmpty_iff.1 h') h2
          · rw [hxe, pathExists_iff h] at h'; exact absurd h1 h'
        · exact hx
    · have hskip' : ((Utils.filenameFromLocation s).isEmpty || pathExists fs (Utils.filenameFromLocation s)) = false := by
        rw [Bool.eq_false_iff]; simpa using hskip
      simp only [hskip', Bool.false_eq_true, if_false]
      have hnone : fs (Utils.filenameFromLocation s) = none := by
        cases e : fs (Utils.filenameFromLocation s) with
        | none => rfl
        | some x => exact absurd (.inr ((pathExists_iff h _).2 (by rw [e]; simp))) hskip
      have hne : Utils.filenameFromLocation s ≠ [] := by
        intro e; exact hskip (.inl (by rw [e]; rfl))
      rcases hF.1 (Utils.filenameFromLocation s) with hw | hw
      · have ht : writeTarget fs (Utils.filenameFromLocation s) = Utils.filenameFromLocation s := by
          simp [writeTarget, hnone]
        simp only [write, hw, ht]
        obtain ⟨fs', made', e, hd, hnd, hm, hf⟩ := ih (put fs (Utils.filenameFromLocation s)
          (some (.file (content (Utils.filenameFromLocation s))))) (made ++ [Utils.filenameFromLocation s]) (noDangling_put h)
        have hnot : Utils.filenameFromLocation s ∉ made' := by
          intro hmem
          have := ((hm _).1 hmem).1
          simp [put] at this
        refine ⟨fs', Utils.filenameFromLocation s :: made', by rw [e]; simp, hd, List.nodup_cons.2 ⟨hnot, hnd⟩, fun n => ?_, fun n => ?_⟩
        · by_cases hn : n = Utils.filenameFromLocation s
          · subst hn
            simp only [List.mem_cons, true_or, true_iff]
            exact ⟨hnone, ⟨hne, s, by simp, rfl⟩, hw⟩
          · simp only [List.mem_cons, hn, false_or, hm n, put, if_false]
            constructor
            · rintro ⟨h1, ⟨h2, x, hx, hxe⟩, h3⟩; exact ⟨h1, ⟨h2, x, by simp [hx], hxe⟩, h3⟩
            · rintro ⟨h1, ⟨h2, x, hx, hxe⟩, h3⟩
              refine ⟨h1, ⟨h2, x, ?_, hxe⟩, h3⟩
              rcases List.mem_cons.1 hx with rfl | hx
              · exact absurd hxe.symm hn
              · exact hx
        · rw [hf n]
          by_cases hn : n = Utils.filenameFromLocation s
          · subst hn; simp [put]
          · simp [hn, put]
      · simp only [write, hw]
        obtain ⟨fs', made', e, hd, hnd, hm, hf⟩ := ih fs made h
        refine ⟨fs', made', e, hd, hnd, fun n => ?_, hf⟩
        rw [hm n]
        constructor
        · rintro ⟨h1, ⟨h2, x, hx, hxe⟩, h3⟩; exact ⟨h1, ⟨h2, x, by simp [hx], hxe⟩, h3⟩
        · rintro ⟨h1, ⟨h2, x, hx, hxe⟩, h3⟩
          refine ⟨h1, ⟨h2, x, ?_, hxe⟩, h3⟩
          rcases List.mem_cons.1 hx with rfl | hx
          · rw [hxe, h3] at hw; cases hw
          · exact hx

theorem unlinkAll_spec {F : Faults} (hF : Benign F) : ∀ (ns : List Str) (fs : Files), ns.Nodup →
    (∀ n ∈ ns, fs n ≠ none ∧ fs n ≠ some .dir) →
    unlinkAll F ns fs = (fun n => if n ∈ ns then none else fs n, none) := by
  intro ns
  induction ns with
  | nil => intro fs _ _; simp [unlinkAll]
  | cons n ns ih =>
    intro fs hnd h
    have hn := h n (by simp)
    rw [unlinkAll, hF.2]
    simp only
    have key : unlinkAll F ns (put fs n none) = (fun m => if m ∈ n :: ns then none else fs m, none) := by
      rw [ih _ (List.nodup_cons.1 hnd).2]
      · congr 1
        funext m
        by_cases hm : m = n
        · simp [hm, put]
        · simp [hm, put]
      · intro m hm
        have : m ≠ n := by rintro rfl; exact (List.nodup_cons.1 hnd).1 hm
        simp only [put, if_neg this]
        exact h m (by simp [hm])
    split
    · next e => exact absurd e hn.1
    · next e => exact absurd e hn.2
    · exact key

/-- the whole of `_make_dummy_sources` -/
theorem withDummies_spec {α : Type} {F : Faults} (hF : Benign F) (sources nonEmpty : List Str)
    (body : List Str → World → World × Except Err α) (w : World) (h : NoDangling w.files) :
    ∃ made, made.Nodup ∧
      (∀ n, n ∈ made ↔ w.files n = none ∧ (Named sources n ∨ Named nonEmpty n) ∧ F.write n = .none) ∧
      ((∀ n ∈ made, ((body made { w with files := faked F sources nonEmpty w.files }).1.files n ≠ none ∧
          (body made { w with files := faked F sources nonEmpty w.files }).1.files n ≠ some .dir)) →
        withDummies F sources nonEmpty body w =
          ({ (body made { w with files := faked F sources nonEmpty w.files }).1 with
              files := fun n => if n ∈ made then none
                else (body made { w with files := faked F sources nonEmpty w.files }).1.files n },
            (body made { w with files := faked F sources nonEmpty w.files }).2)) := by
  obtain ⟨fs1, m1, e1, d1, nd1, hm1, hf1⟩ := create_spec hF magic sources w.files [] h
  obtain ⟨fs2, m2, e2, d2, nd2, hm2, hf2⟩ := create_spec hF (fun _ => dummyText) nonEmpty fs1 ([] ++ m1) d1
  have hm2' : ∀ n, n ∈ m2 ↔ w.files n = none ∧ n ∉ m1 ∧ Named nonEmpty n ∧ F.write n = .none := by
    intro n
    rw [hm2, hf1]
    by_cases hn : n ∈ m1 <;> simp [hn]
  have hfk : fs2 = faked F sources nonEmpty w.files := by
    funext n
    rw [hf2, hf1]
    unfold faked
    cases e : w.files n with
    | some x =>
      have h1 : n ∉ m1 := by intro hx; rw [(hm1 n).1 hx |>.1] at e; cases e
      have h2 : n ∉ m2 := by intro hx; rw [(hm2' n).1 hx |>.1] at e; cases e
      simp [h1, h2]
    | none =>
      by_cases c1 : Named sources n ∧ F.write n = .none
      · have h1 : n ∈ m1 := (hm1 n).2 ⟨e, c1⟩
        have h2 : n ∉ m2 := by intro hx; exact ((hm2' n).1 hx).2.1 h1
        simp [h1, h2, c1]
      · have h1 : n ∉ m1 := by intro hx; exact c1 ((hm1 n).1 hx).2
        simp only [if_neg c1, if_neg h1]
        by_cases c2 : Named nonEmpty n ∧ F.write n = .none
        · rw [if_pos ((hm2' n).2 ⟨e, h1, c2⟩), if_pos c2]
        · rw [if_neg (fun hx => c2 ((hm2' n).1 hx).2.2), if_neg c2]
  refine ⟨m1 ++ m2, ?_, ?_, ?_⟩
  · rw [List.nodup_append]
    refine ⟨nd1, nd2, ?_⟩
    intro a ha b hb e
    subst e
    exact ((hm2' a).1 hb).2.1 ha
  · intro n
    rw [List.mem_append, hm1, hm2']
    constructor
    · rintro (⟨h1, h2, h3⟩ | ⟨h1, -, h2, h3⟩)
      · exact ⟨h1, .inl h2, h3⟩
      · exact ⟨h1, .inr h2, h3⟩
    · rintro ⟨h1, h2, h3⟩
      by_cases hn : n ∈ m1
      · exact .inl ((hm1 n).1 hn)
      · rcases h2 with h2 | h2
        · exact .inl ⟨h1, h2, h3⟩
        · exact .inr ⟨h1, hn, h2, h3⟩
  · intro hb
    unfold withDummies
    rw [e1]
    simp only
    rw [e2]
    simp only [List.nil_append, hfk]
    rw [unlinkAll_spec hF _ _ ?_ hb]
    rw [List.nodup_append]
    refine ⟨nd1, nd2, ?_⟩
    intro a ha b hb e
    subst e
    exact ((hm2' a).1 hb).2.1 ha

/-- if the body leaves the files alone, nothing changed in the end -/
theorem withDummies_files {α : Type} {F : Faults} (hF : Benign F) (sources nonEmpty : List Str)
    (body : List Str → World → World × Except Err α) (w : World) (h : NoDangling w.files)
    (hb : ∀ l w, (body l w).1.files = w.files) :
    ∃ made, (∀ n, n ∈ made ↔ w.files n = none ∧ (Named sources n ∨ Named nonEmpty n) ∧ F.write n = .none) ∧
      withDummies F sources nonEmpty body w =
        ({ (body made { w with files := faked F sources nonEmpty w.files }).1 with files := w.files },
          (body made { w with files := faked F sources nonEmpty w.files }).2) := by
  obtain ⟨made, -, hm, hx⟩ := withDummies_spec hF sources nonEmpty body w h
  refine ⟨made, hm, ?_⟩
  have hfk : ∀ n ∈ made, faked F sources nonEmpty w.files n ≠ none ∧ faked F sources nonEmpty w.files n ≠ some .dir := by
    intro n hn
    obtain ⟨h1, h2, h3⟩ := (hm n).1 hn
    unfold faked
    rw [h1]
    simp only
    split
    · simp
    · next hc =>
      rcases h2 with h2 | h2
      · exact absurd ⟨h2, h3⟩ hc
      · simp [h2, h3]
  rw [hx (by intro n hn; rw [hb]; exact hfk n hn)]
  have e : (fun n => if n ∈ made then none
      else (body made { w with files := faked F sources nonEmpty w.files }).1.files n) = w.files := by
   funext n
   simp only [hb]
   split
   · next hn => exact ((hm n).1 hn).1.symm
   · next hn =>
    unfold faked
    cases e : w.files n with
    | some => rfl
    | none =>
      simp only
      split
      · next c => exact absurd ((hm n).2 ⟨e, .inl c.1, c.2⟩) hn
      · split
        · next c => exact absurd ((hm n).2 ⟨e, .inr c.1, c.2⟩) hn
        · rfl
  rw [e]

end Specfile.SpecParser
