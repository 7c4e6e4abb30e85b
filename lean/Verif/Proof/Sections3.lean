import Verif.Proof.Sections2
/-
Sections of a list of lines.
-/
namespace Specfile.Sections
open Py Regex Spec Tags

theorem optstring_eq (n : Str) : optstring n = acceptedOptions n := by
  unfold optstring acceptedOptions
  by_cases h : n ∈ Constants.scriptSections
  · rw [if_pos (by simpa using h), if_pos h]
  · rw [if_neg (by simpa using h), if_neg h]
    simp only [Constants.sectionOptionsBase, List.find?_cons, List.find?_nil]
    by_cases h1 : n = s% "description"
    · subst h1; rfl
    · by_cases h2 : n = s% "files"
      · subst h2; rfl
      · by_cases h3 : n = s% "package"
        · subst h3; rfl
        · by_cases h4 : n = s% "sepolicy"
          · subst h4; rfl
          · have b1 : (s% "description" == n) = false := beq_eq_false_iff_ne.mpr (fun e => h1 e.symm)
            have b2 : (s% "files" == n) = false := beq_eq_false_iff_ne.mpr (fun e => h2 e.symm)
            have b3 : (s% "package" == n) = false := beq_eq_false_iff_ne.mpr (fun e => h3 e.symm)
            have b4 : (s% "sepolicy" == n) = false := beq_eq_false_iff_ne.mpr (fun e => h4 e.symm)
            rw [b1, b2, b3, b4]
            simp only [h1, h2, h3, h4, or_self, if_false, Option.map_none, Option.getD_none]

/-- `split_id` and the constructor give the section that the header describes -/
theorem section_iff [Uni] {ex : Str → Except Err Str} {line : Str} {data : List Str} {s : Section} :
    (∃ h, splitId ex line = .ok h ∧
      mkSection h.name h.options h.delimiter h.separator (h.content ++ data) = .ok s) ↔
    ∃ p, HeaderText ex ('%' :: line) p ∧ SectionFor p data s := by
  constructor
  · rintro ⟨h, h1, h2⟩
    obtain ⟨p, hp, i1, i2, i3⟩ := parts_of_splitId h1
    refine ⟨p, hp, ?_⟩
    unfold mkSection at h2
    split at h2
    · simp at h2
    · rename_i hk
      simp only [Except.ok.injEq] at h2
      subst h2
      rw [i1] at hk
      refine ⟨by simpa using hk, i1, ?_, ?_, ?_, ?_⟩
      · rw [← optstring_eq]
        cases ho : p.options with
        | none => rw [ho] at i2; simp only at i2; rw [i2.1, i1]; rfl
        | some x =>
          rw [ho] at i2
          simp only at i2
          obtain ⟨ts, _, e, _⟩ := i2
          rw [e]; rfl
      · cases ho : p.options with
        | none => rw [ho] at i2; simp only at i2; rw [i2.1]; rfl
        | some x =>
          rw [ho] at i2
          simp only at i2
          obtain ⟨ts, _, e, _⟩ := i2
          rw [e]; rfl
      · cases ho : p.options with
        | none => rw [ho] at i2; simp only at i2 ⊢; rw [i2.1]; exact ⟨rfl, i2.2⟩
        | some x =>
          rw [ho] at i2
          simp only at i2 ⊢
          obtain ⟨ts, e1, e, e2⟩ := i2
          rw [e]; exact ⟨e1, e2⟩
      · cases hm : p.moved with
        | none => rw [hm] at i3; simp only at i3 ⊢; simp [i3]
        | some x => rw [hm] at i3; simp only at i3 ⊢; simp [i3]
  · rintro ⟨p, hp, k, s1, s2, s3, s4, s5⟩
    obtain ⟨n, opts, d, sep, dat⟩ := s
    obtain ⟨ts, os, df⟩ := opts
    simp only at s1 s2 s3 s4 s5
    subst s1 s2 s3
    have hk : (!Constants.sectionNames.contains (Uni.lower p.name)) = false := by simpa using k
    obtain ⟨pn, po, pm⟩ := p
    simp only at k s4 s5 hp hk
    refine ⟨⟨pn, po.map (fun _ => ⟨ts, optstring (Uni.lower pn), []⟩), d, sep,
      (pm.map (·.2)).toList⟩, splitId_of_parts hp ⟨rfl, ?_, ?_⟩, ?_⟩
    · cases po with
      | none => simp only at s4; simp [s4.2]
      | some x =>
        obtain ⟨a, b⟩ := x
        simp only at s4
        exact ⟨ts, s4.1, rfl, s4.2⟩
    · cases pm with
      | none => simp only at s5; simp [s5.1]
      | some x => obtain ⟨a, b⟩ := x; simp only at s5; simp [s5.1]
    · unfold mkSection
      rw [hk]
      simp only [Bool.false_eq_true, if_false, Except.ok.injEq, Section.mk.injEq, true_and]
      refine ⟨?_, ?_⟩
      · cases po with
        | none => simp only at s4; simp [s4.1, optstring_eq]
        | some x => simp [optstring_eq]
      · cases pm with
        | none => simp only at s5; simp [s5.2]
        | some x => obtain ⟨a, b⟩ := x; simp only at s5; simp [s5.2]

theorem le_starts [Uni] {ex : List Conditions.Range} {i : Nat} {ls : List Str} :
    ∀ k ∈ starts ex i ls, i ≤ k := by
  induction ls generalizing i with
  | nil => simp [starts]
  | cons l ls ih =>
    intro k hk
    unfold starts at hk
    split at hk
    · rcases List.mem_cons.mp hk with rfl | hk
      · omega
      · have := ih k hk; omega
    · have := ih k hk; omega

theorem headD_append_ge [Uni] {ex : List Conditions.Range} {i n : Nat} {ls : List Str} (h : i ≤ n) :
    i ≤ (starts ex i ls ++ [n]).headD 0 := by
  cases hs : starts ex i ls with
  | nil => simpa
  | cons k ks =>
    have := le_starts (ex := ex) (i := i) (ls := ls) k (by rw [hs]; simp)
    simpa

theorem drop_take_cons {pre ls : List Str} {l : Str} {k : Nat} (h : pre.length < k) :
    ((pre ++ l :: ls).take k).drop pre.length =
      l :: ((pre ++ l :: ls).take k).drop (pre.length + 1) := by
  have e : (pre ++ l :: ls).take k = pre ++ l :: ls.take (k - pre.length - 1) := by
    rw [List.take_append, List.take_of_length_le (by omega)]
    congr 1
    have : k - pre.length = (k - pre.length - 1) + 1 := by omega
    rw [this]; simp
  rw [e]
  simp

theorem build_iff [Uni] {ex : Conditions.Oracle} {exc : List Conditions.Range} {pre ls : List Str}
    (hl : ∀ l ∈ ls, '\n' ∉ l) {data : List Str} {ss : Sections} :
    (build ex (pre ++ ls) ((starts exc pre.length ls ++ [(pre ++ ls).length]).zip
        (starts exc pre.length ls ++ [(pre ++ ls).length]).tail) = .ok ss ∧
      data = ((pre ++ ls).take ((starts exc pre.length ls ++ [(pre ++ ls).length]).headD 0)).drop pre.length) ↔
    SectionsOf ex (fun i => Conditions.isExcluded exc i = true) pre.length ls data ss := by
  induction ls generalizing pre data ss with
  | nil =>
    simp only [starts, List.nil_append, List.tail_cons, List.zip_nil_right, build, Except.ok.injEq,
      List.append_nil, List.headD_cons, List.take_length, List.drop_length]
    constructor
    · rintro ⟨rfl, rfl⟩; exact .nil
    · intro h; cases h; exact ⟨rfl, rfl⟩
  | cons l ls ih =>
    have ih' := fun data ss => ih (pre := pre ++ [l]) (fun x hx => hl x (by simp [hx])) (data := data) (ss := ss)
    have hlen : (pre ++ [l]).length = pre.length + 1 := by simp
    have hne : '\n' ∉ l := hl l (by simp)
    rw [hlen] at ih'
    simp only [List.append_assoc, List.singleton_append] at ih'
    have hcond : (!Conditions.isExcluded exc pre.length && isHeader l) = true ↔
        Conditions.isExcluded exc pre.length ≠ true ∧ HeaderLine l := by
      rw [Bool.and_eq_true, isHeader_iff hne]
      simp
    have hge := headD_append_ge (ex := exc) (i := pre.length + 1) (n := (pre ++ l :: ls).length) (ls := ls)
      (by simp)
    by_cases hc : (!Conditions.isExcluded exc pre.length && isHeader l) = true
    · have hs : starts exc pre.length (l :: ls) = pre.length :: starts exc (pre.length + 1) ls := by
        conv => lhs; unfold starts
        rw [if_pos hc]
      obtain ⟨hc1, hc2⟩ := hcond.mp hc
      have hline : '%' :: ((pre ++ l :: ls).getD pre.length []).drop 1 = l := by
        obtain ⟨n, _, w, r, e, _⟩ := hc2
        simp [e]
      have hzip : ((pre.length :: starts exc (pre.length + 1) ls ++ [(pre ++ l :: ls).length]).zip
          (pre.length :: starts exc (pre.length + 1) ls ++ [(pre ++ l :: ls).length]).tail) =
          (pre.length, (starts exc (pre.length + 1) ls ++ [(pre ++ l :: ls).length]).headD 0) ::
          (starts exc (pre.length + 1) ls ++ [(pre ++ l :: ls).length]).zip
            (starts exc (pre.length + 1) ls ++ [(pre ++ l :: ls).length]).tail := by
        rw [List.cons_append, List.tail_cons]
        cases hx : starts exc (pre.length + 1) ls ++ [(pre ++ l :: ls).length] with
        | nil => simp at hx
        | cons y ys => simp
      rw [hs, hzip]
      have hd : ((pre ++ l :: ls).take ((pre.length :: starts exc (pre.length + 1) ls ++
          [(pre ++ l :: ls).length]).headD 0)).drop pre.length = [] := by simp
      rw [hd]
      have sec := fun s => section_iff (ex := ex pre.length) (line := ((pre ++ l :: ls).getD pre.length []).drop 1)
        (data := ((pre ++ l :: ls).take ((starts exc (pre.length + 1) ls ++
          [(pre ++ l :: ls).length]).headD 0)).drop (pre.length + 1)) (s := s)
      rw [hline] at sec
      constructor
      · rintro ⟨hb, rfl⟩
        unfold build at hb
        split at hb
        · simp at hb
        · rename_i h hsp
          split at hb
          · simp at hb
          · rename_i s hmk
            split at hb
            · simp at hb
            · rename_i ss' hrest
              simp only [Except.ok.injEq] at hb
              subst hb
              obtain ⟨p, hp1, hp2⟩ := (sec s).mp ⟨h, hsp, hmk⟩
              exact .header hc1 hc2 hp1 hp2 ((ih' _ _).mp ⟨hrest, rfl⟩)
      · intro h
        cases h with
        | line h0 _ => rcases h0 with h0 | h0; exact absurd h0 hc1; exact absurd hc2 h0
        | @header _ _ _ data' ss' p s _ _ hp1 hp2 h3 =>
          obtain ⟨hr, rfl⟩ := (ih' _ _).mpr h3
          obtain ⟨h, e1, e2⟩ := (sec s).mpr ⟨p, hp1, hp2⟩
          refine ⟨?_, rfl⟩
          simp only [build, e1, e2, hr]
    · have hs : starts exc pre.length (l :: ls) = starts exc (pre.length + 1) ls := by
        conv => lhs; unfold starts
        rw [if_neg hc]
      have hn : Conditions.isExcluded exc pre.length = true ∨ ¬ HeaderLine l := by
        by_cases hx : Conditions.isExcluded exc pre.length = true
        · exact Or.inl hx
        · exact Or.inr (fun hh => hc (hcond.mpr ⟨hx, hh⟩))
      rw [hs, drop_take_cons (by omega)]
      constructor
      · rintro ⟨hb, rfl⟩
        exact .line hn ((ih' _ _).mp ⟨hb, rfl⟩)
      · intro h
        cases h with
        | line _ h1 =>
          obtain ⟨hb, rfl⟩ := (ih' _ _).mpr h1
          exact ⟨hb, rfl⟩
        | header h0 h1 _ _ _ =>
          rcases hn with hn | hn
          · exact absurd hn h0
          · exact absurd h1 hn

theorem lower_preamble [Uni] : Uni.lower preamble = preamble := by
  rw [Uni.lower_ascii _ (by decide)]
  decide

theorem mk_preamble [Uni] (data : List Str) :
    mkSection preamble none [] ['\n'] data = .ok (preambleOf data) := by
  unfold mkSection
  rw [lower_preamble]
  have : (!Constants.sectionNames.contains preamble) = false := by decide
  rw [this]
  simp only [Bool.false_eq_true, if_false, Option.getD_none]
  have : optstring preamble = s% "n:" := by decide
  rw [this]
  rfl

theorem parse_iff [Uni] {ex : Conditions.Oracle} {lines : List Str} (hl : ∀ l ∈ lines, '\n' ∉ l)
    {ss : Sections} : parse ex lines = .ok ss ↔ ∃ data rest, ss = preambleOf data :: rest ∧
      SectionsOf ex (InDefinition lines) 0 lines data rest := by
  have h := fun data rest => build_iff (ex := ex) (exc := (MacroDefinitions.parseLines lines).excluded)
    (pre := []) hl (data := data) (ss := rest)
  simp only [List.nil_append, List.length_nil, List.drop_zero] at h
  unfold parse parseWith
  simp only [mk_preamble]
  constructor
  · intro hp
    split at hp
    · simp at hp
    · rename_i r hr
      simp only [Except.ok.injEq] at hp
      exact ⟨_, r, hp.symm, (h _ r).mp ⟨hr, rfl⟩⟩
  · rintro ⟨data, rest, rfl, hs⟩
    obtain ⟨h1, h2⟩ := (h data rest).mpr hs
    rw [h1, ← h2]

end Specfile.Sections
