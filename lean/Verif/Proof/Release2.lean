import Verif.Proof.Release
/-
Bumping a release.
-/
namespace Specfile.Release
open Py Regex Spec

theorem contains_iff {x s : Str} : contains x s = true ↔ x <:+: s := by
  induction s with
  | nil => simp [contains]
  | cons c s ih => simp only [contains, Bool.or_eq_true, ih, List.isPrefixOf_iff_prefix, List.infix_cons_iff]

theorem digits_cons [Uni] {ds : Str} (h : Digits ds) : ∃ c t, ds = c :: t ∧ Uni.isDecimal c = true := by
  obtain ⟨h1, h2⟩ := h
  cases ds with
  | nil => exact absurd rfl h1
  | cons c t => exact ⟨c, t, rfl, by simp at h2; exact h2.1⟩

/-- `p ++ ds` starts with a digit -/
theorem lead_digit [Uni] {p ds : Str} (hp : p = [] ∨ p = s% "0.") (hd : Digits ds) (r : Str) :
    ∃ c t, p ++ (ds ++ r) = c :: t ∧ Uni.isDecimal c = true := by
  rcases hp with rfl | rfl
  · obtain ⟨c, t, rfl, hc⟩ := digits_cons hd
    exact ⟨c, t ++ r, rfl, hc⟩
  · exact ⟨'0', _, rfl, by rw [Uni.decimal_ascii _ (by decide)]; decide⟩

/-- the state behind a match of the first expression -/
def leadState (f p ds post nl : Str) : St Nat :=
  ⟨post.reverse ++ (ds.reverse ++ (p.reverse ++ f.reverse)), nl,
    (4, post) :: (3, ds) :: ((if p.isEmpty then [] else [(2, p)]) ++ (if f.isEmpty then [] else [(1, f)]))⟩

theorem lead_tail [Uni] {pre ds post nl : Str} {caps : List (Nat × Str)} (hd : Digits ds)
    (hw : ∀ c ∈ post.head?, Uni.isDecimal c = false) (hl : '\n' ∉ post) (hn : nl ∈ finalNewline) :
    (run (.grp 3 (plus Uni.isDecimal) ⬝ .grp 4 (star dot) ⬝ .eos : Re Nat)
      ⟨pre, ds ++ (post ++ nl), caps⟩).head? =
      some ⟨post.reverse ++ (ds.reverse ++ pre), nl, (4, post) :: (3, ds) :: caps⟩ := by
  rw [mem_finalNewline] at hn
  obtain ⟨h1, h2⟩ := digits_iff.1 hd
  refine head_grp_greedy rfl h1 h2 ?_ ?_
  · intro c hc
    cases post with
    | nil =>
      rcases hn with rfl | rfl
      · simp at hc
      · simp at hc; subst hc; rw [Uni.decimal_ascii _ (by decide)]; decide
    | cons d post => exact hw c (by simpa using hc)
  · refine head_grp_greedy rfl ?_ (by omega) ?_ ?_
    · rw [List.all_eq_true]
      intro c hc
      have : c ≠ '\n' := by rintro rfl; exact hl hc
      simpa [dot] using this
    · intro c hc
      rcases hn with rfl | rfl
      · simp at hc
      · simp at hc; subst hc; rfl
    · simp [run, hn]

theorem pre_first_run [Uni] {pre ds post nl : Str} {caps : List (Nat × Str)} (hn : nl ∈ finalNewline)
    (hp : ¬ ∃ c t, ds ++ post = '0' :: '.' :: c :: t ∧ Uni.isDecimal c = true) :
    run (.grp 2 (lit (s% "0.")) ⬝ .grp 3 (plus Uni.isDecimal) ⬝ .grp 4 (star dot) ⬝ .eos : Re Nat)
      ⟨pre, ds ++ (post ++ nl), caps⟩ = [] := by
  rw [run_eq_nil_iff]
  intro t ht
  rw [mem_cat] at ht
  obtain ⟨u, hu, ht⟩ := ht
  rw [mem_grp] at hu
  obtain ⟨v, w, hv, -, rfl⟩ := hu
  rw [mem_lit] at hv
  obtain ⟨r, hr, rfl⟩ := hv
  rw [mem_cat] at ht
  obtain ⟨x, hx, -⟩ := ht
  unfold plus at hx
  rw [mem_grp_rep] at hx
  obtain ⟨ds', r', e, h1, h2, -⟩ := hx
  obtain ⟨c, tl, rfl, hc⟩ := digits_cons (digits_iff.2 ⟨h1, h2⟩)
  simp only at e hr
  rw [e] at hr
  apply hp
  rw [mem_finalNewline] at hn
  rcases hn with rfl | rfl
  · exact ⟨c, tl ++ r', by simpa using hr, hc⟩
  · have hr1 : (ds ++ post) ++ ['\n'] = '0' :: '.' :: c :: (tl ++ r') := by simpa using hr
    generalize tl ++ r' = y at hr1
    rcases List.eq_nil_or_concat y with rfl | ⟨q, z, rfl⟩
    · have := (List.append_inj' (s₁ := ds ++ post) (s₂ := ['0', '.']) (t₂ := [c]) hr1 rfl).2
      simp at this
      exact absurd this.symm (decimal_ne hc (by decide) (by decide))
    · have hr' : (ds ++ post) ++ ['\n'] = ('0' :: '.' :: c :: q) ++ [z] := by simpa using hr1
      exact ⟨c, q, (List.append_inj' hr' rfl).1, hc⟩

theorem lead_pre [Uni] {pre p ds post nl : Str} {caps : List (Nat × Str)} (hp : p = [] ∨ p = s% "0.")
    (hd : Digits ds) (hw : ∀ c ∈ post.head?, Uni.isDecimal c = false) (hl : '\n' ∉ post)
    (hn : nl ∈ finalNewline)
    (hf : p = [] → ¬ ∃ c t, ds ++ post = '0' :: '.' :: c :: t ∧ Uni.isDecimal c = true) :
    (run (opt (.grp 2 (lit (s% "0."))) ⬝ .grp 3 (plus Uni.isDecimal) ⬝ .grp 4 (star dot) ⬝ .eos : Re Nat)
      ⟨pre, p ++ (ds ++ (post ++ nl)), caps⟩).head? =
      some ⟨post.reverse ++ (ds.reverse ++ (p.reverse ++ pre)), nl,
        (4, post) :: (3, ds) :: ((if p.isEmpty then [] else [(2, p)]) ++ caps)⟩ := by
  rw [run_opt_cat]
  rcases hp with rfl | rfl
  · rw [List.nil_append, pre_first_run hn (hf rfl), List.nil_append, lead_tail hd hw hl hn]
    simp
  · apply head_append_left
    rw [run_cat, run_grp_lit rfl]
    simp only [List.flatMap_cons, List.flatMap_nil, List.append_nil]
    rw [lead_tail hd hw hl hn]
    simp

/-- the first expression finds the leading number -/
theorem bumpRe_leading [Uni] {f p ds post nl : Str} (hn : nl ∈ finalNewline) (hfn : ReleaseFunc f)
    (hp : p = [] ∨ p = s% "0.") (hd : Digits ds) (hw : ∀ c ∈ post.head?, Uni.isDecimal c = false)
    (hf : p = [] → ¬ ∃ c t, ds ++ post = '0' :: '.' :: c :: t ∧ Uni.isDecimal c = true)
    (hl : '\n' ∉ post) :
    rmatch bumpRe (f ++ (p ++ (ds ++ (post ++ nl)))) = some (leadState f p ds post nl) := by
  unfold rmatch bumpRe leadState
  rw [run_bos_cat, run_opt_cat]
  obtain ⟨c, t, ec, hc⟩ := lead_digit hp hd (post ++ nl)
  rcases hfn with rfl | ⟨w, rfl, hwn, hws⟩
  · have : run (.grp 1 (lit (s% "%release_func") ⬝ plus isSpace) ⬝ opt (.grp 2 (lit (s% "0."))) ⬝
        .grp 3 (plus Uni.isDecimal) ⬝ .grp 4 (star dot) ⬝ .eos : Re Nat)
        (init ([] ++ (p ++ (ds ++ (post ++ nl))))) = [] := by
      rw [run_eq_nil_iff]
      intro t ht
      rw [mem_cat] at ht
      obtain ⟨u, hu, -⟩ := ht
      rw [mem_grp] at hu
      obtain ⟨v, w, hv, -, -⟩ := hu
      rw [mem_cat] at hv
      obtain ⟨x, hx, -⟩ := hv
      rw [mem_lit] at hx
      obtain ⟨r, hr, -⟩ := hx
      simp only [init, List.nil_append, ec] at hr
      exact decimal_ne hc (d := '%') (by decide) (by decide) (by simp at hr; exact hr.1)
    rw [this, List.nil_append, init, List.nil_append, lead_pre hp hd hw hl hn hf]
    simp
  · apply head_append_left
    rw [run_grp_cat, run_cat, List.flatMap_assoc, run_lit_eq, if_pos (by simp [init])]
    simp only [List.flatMap_cons, List.flatMap_nil, List.append_nil]
    refine head_greedy (w := w) (r' := p ++ (ds ++ (post ++ nl))) (by simp [init]) hws
      (by cases w <;> simp_all) ?_ ?_
    · intro d hd'
      rw [ec] at hd'
      simp at hd'
      subst hd'
      exact decimal_not_space hc
    · have e : (init (s% "%release_func" ++ w ++ (p ++ (ds ++ (post ++ nl)))) : St Nat).rest =
          (s% "%release_func" ++ w) ++ (p ++ (ds ++ (post ++ nl))) := rfl
      simp only [e, take_left_length]
      rw [lead_pre hp hd hw hl hn hf]
      simp [init]

theorem releaseFunc_state {f : Str} : ((if f.isEmpty then [] else [(1, f)]) : List (Nat × Str)).find?
    (fun x => decide (x.1 = 1)) = if f.isEmpty then none else some (1, f) := by
  cases f <;> simp

theorem leadState_get {f p ds post nl : Str} :
    ((leadState f p ds post nl).get 1).getD [] = f ∧ ((leadState f p ds post nl).get 2).getD [] = p ∧
    ((leadState f p ds post nl).get 3).getD [] = ds ∧ ((leadState f p ds post nl).get 4).getD [] = post := by
  cases f <;> cases p <;> simp [leadState, St.get]

theorem no_newline_of_digits [Uni] {ds : Str} (h : Digits ds) : '\n' ∉ ds := fun hc =>
  decimal_ne (List.all_eq_true.1 h.2 _ hc) (by decide) (by decide) rfl

/-- the longest number at the start of a text -/
theorem number_extends [Uni] {x : Str} (h : ∃ c t, x = c :: t ∧ Uni.isDecimal c = true) :
    ∃ ds post, x = ds ++ post ∧ Digits ds ∧ ∀ c ∈ post.head?, Uni.isDecimal c = false := by
  refine ⟨x.takeWhile Uni.isDecimal, x.dropWhile Uni.isDecimal, (List.takeWhile_append_dropWhile ..).symm, ?_, ?_⟩
  · obtain ⟨c, t, rfl, hc⟩ := h
    exact ⟨by simp [hc], by rw [List.all_eq_true]; intro d hd; exact List.all_eq_true.1 (List.all_takeWhile) d hd⟩
  · intro c hc
    have := List.head?_dropWhile_not Uni.isDecimal x
    rw [Option.mem_def] at hc
    rw [hc] at this
    simpa using this

/-- a text with a leading number has a longest one -/
theorem leading_of_number [Uni] {s f p ds post nl : Str} (hn : nl ∈ finalNewline) (hf : ReleaseFunc f)
    (hp : p = [] ∨ p = s% "0.") (hd : Digits ds) (hl : '\n' ∉ post)
    (e : s = f ++ (p ++ (ds ++ (post ++ nl)))) : ∃ p ds' post', Leading s f p ds' post' := by
  have hx : '\n' ∉ ds ++ post := by
    rw [List.mem_append]; exact fun h => h.elim (no_newline_of_digits hd) hl
  have key : ∀ p x, (p = [] ∨ p = s% "0.") → '\n' ∉ x → (∃ c t, x = c :: t ∧ Uni.isDecimal c = true) →
      s = f ++ (p ++ (x ++ nl)) →
      (p = [] → ¬ ∃ c t, x = '0' :: '.' :: c :: t ∧ Uni.isDecimal c = true) →
      ∃ p ds' post', Leading s f p ds' post' := by
    intro p x hp hx hc es hq
    obtain ⟨ds', post', rfl, h1, h2⟩ := number_extends hc
    exact ⟨p, ds', post', ⟨nl, hn, by rw [es, List.append_assoc]⟩, hf, hp, h1, h2, hq,
      fun h => hx (List.mem_append_right _ h)⟩
  obtain ⟨c, t, rfl, hc⟩ := digits_cons hd
  rcases hp with rfl | rfl
  · by_cases hq : ∃ c' t', (c :: t) ++ post = '0' :: '.' :: c' :: t' ∧ Uni.isDecimal c' = true
    · obtain ⟨c', t', eq, hc'⟩ := hq
      refine key (s% "0.") (c' :: t') (Or.inr rfl) ?_ ⟨c', t', rfl, hc'⟩ ?_ (by simp)
      · rw [eq] at hx
        exact fun h => hx (by simp only [List.mem_cons] at h ⊢; exact Or.inr (Or.inr h))
      · rw [e, ← List.append_assoc (c :: t), eq]; rfl
    · exact key [] ((c :: t) ++ post) (Or.inl rfl) hx ⟨c, t ++ post, rfl, hc⟩ (by rw [e]; simp) (fun _ => hq)
  · exact key (s% "0.") ((c :: t) ++ post) (Or.inr rfl) hx ⟨c, t ++ post, rfl, hc⟩ (by rw [e]; simp) (by simp)

theorem rmatch_bump [Uni] {s f p ds post : Str} (h : Leading s f p ds post) :
    ∃ nl ∈ finalNewline, s = f ++ (p ++ (ds ++ (post ++ nl))) ∧ rmatch bumpRe s = some (leadState f p ds post nl) := by
  obtain ⟨⟨nl, hn, rfl⟩, h1, h2, h3, h4, h5, h6⟩ := h
  exact ⟨nl, hn, rfl, bumpRe_leading hn h1 h2 h3 h4 h5 h6⟩

/-- a match of the first expression gives a leading number -/
theorem leading_of_match [Uni] {s : Str} {t : St Nat} (h : rmatch bumpRe s = some t) :
    ∃ f p ds post, Leading s f p ds post := by
  have h := mem_of_rmatch h
  unfold bumpRe at h
  rw [mem_cat] at h
  obtain ⟨u0, hu0, h⟩ := h
  rw [mem_bos] at hu0
  obtain ⟨rfl, -⟩ := hu0
  rw [mem_cat] at h
  obtain ⟨u, hu, h⟩ := h
  have hf : ∃ f, ReleaseFunc f ∧ s = f ++ u.rest := by
    rw [mem_opt] at hu
    rcases hu with hu | rfl
    · rw [mem_grp] at hu
      obtain ⟨v, w, hv, hw, rfl⟩ := hu
      rw [mem_cat] at hv
      obtain ⟨x, hx, hv⟩ := hv
      rw [mem_lit] at hx
      obtain ⟨r, hr, rfl⟩ := hx
      unfold plus at hv
      rw [mem_rep'] at hv
      obtain ⟨w', r', e, h1, h2, rfl⟩ := hv
      simp only [init] at e hr ⊢
      exact ⟨_, Or.inr ⟨w', rfl, by rintro rfl; simp at h2, h1⟩, by rw [hr, e]; simp⟩
    · exact ⟨[], Or.inl rfl, rfl⟩
  obtain ⟨f, hf, es⟩ := hf
  rw [mem_cat] at h
  obtain ⟨v, hv, h⟩ := h
  have hp : ∃ p, (p = [] ∨ p = s% "0.") ∧ u.rest = p ++ v.rest := by
    rw [mem_opt] at hv
    rcases hv with hv | rfl
    · rw [mem_grp] at hv
      obtain ⟨x, w, hx, hw, rfl⟩ := hv
      rw [mem_lit] at hx
      obtain ⟨r, hr, rfl⟩ := hx
      exact ⟨_, Or.inr rfl, hr⟩
    · exact ⟨[], Or.inl rfl, rfl⟩
  obtain ⟨p, hp, ep⟩ := hp
  rw [mem_cat] at h
  obtain ⟨x, hx, h⟩ := h
  unfold plus at hx
  rw [mem_grp_rep] at hx
  obtain ⟨ds, r, e1, h1, h2, rfl⟩ := hx
  rw [mem_cat] at h
  obtain ⟨y, hy, h⟩ := h
  unfold star at hy
  rw [mem_grp_rep] at hy
  obtain ⟨post, nl, e2, h3, -, rfl⟩ := hy
  rw [mem_eos] at h
  simp only at e1 e2 h
  obtain ⟨p', ds', post', h⟩ := leading_of_number (s := s) (nl := nl) (mem_finalNewline.2 h.2) hf hp
    (digits_iff.2 ⟨h1, h2⟩) (post := post)
    (by intro hc; have := List.all_eq_true.1 h3 _ hc; simp [dot] at this) (by rw [es, ep, e1, e2])
  exact ⟨f, p', ds', post', h⟩

theorem bumpsFirst_iff {f p ds post nl : Str} (hp : p = [] ∨ p = s% "0.") :
    bumpsFirst (leadState f p ds post nl) = true ↔ MayBumpLeading p post := by
  unfold bumpsFirst MayBumpLeading prereleaseWords
  obtain ⟨-, h2, -, h4⟩ := leadState_get (f := f) (p := p) (ds := ds) (post := post) (nl := nl)
  rw [h2, h4]
  simp only [Bool.or_eq_true, List.all_eq_true, Bool.not_eq_true', Bool.eq_false_iff, ne_eq, contains_iff]
  rcases hp with rfl | rfl <;> simp

/-! the trailing number -/

theorem mem_lastRe [Uni] {s : Str} {t : St Nat} (h : t ∈ run lastRe (init s)) :
    ∃ a ds, Trailing s a ds ∧ t.get 1 = some (a ++ ['.']) ∧ t.get 2 = some ds := by
  unfold lastRe at h
  rw [mem_cat] at h
  obtain ⟨u0, hu0, h⟩ := h
  rw [mem_bos] at hu0
  obtain ⟨rfl, -⟩ := hu0
  rw [mem_cat] at h
  obtain ⟨u, hu, h⟩ := h
  rw [mem_grp] at hu
  obtain ⟨v, w, hv, hw, rfl⟩ := hu
  rw [mem_cat] at hv
  obtain ⟨x, hx, hv⟩ := hv
  unfold plus at hx
  rw [mem_rep'] at hx
  obtain ⟨a, r, e, h1, h2, rfl⟩ := hx
  rw [mem_ch] at hv
  obtain ⟨cs, e2, rfl⟩ := hv
  rw [mem_cat] at h
  obtain ⟨y, hy, h⟩ := h
  unfold plus at hy
  rw [mem_grp_rep] at hy
  obtain ⟨ds, nl, e3, h3, h4, rfl⟩ := hy
  rw [mem_eos] at h
  obtain ⟨rfl, hn⟩ := h
  simp only [init] at e e2 e3 hw hn
  have hwa : w = a ++ ['.'] := by
    rw [e, e2] at hw
    exact (List.append_cancel_right (bs := cs) (by simpa using hw)).symm
  refine ⟨a, ds, ⟨by rintro rfl; simp at h2, ?_, digits_iff.2 ⟨h3, h4⟩, nl, mem_finalNewline.2 hn, by rw [e, e2, e3]⟩, ?_, ?_⟩
  · intro hc; have := List.all_eq_true.1 h1 _ hc; simp [dot] at this
  · simp [St.get, hwa]
  · simp [St.get]

theorem lastRe_exists [Uni] {s a ds : Str} (h : Trailing s a ds) : ∃ t, t ∈ run lastRe (init s) := by
  obtain ⟨ha, hl, hd, nl, hn, rfl⟩ := h
  obtain ⟨h1, h2⟩ := digits_iff.1 hd
  unfold lastRe
  refine ⟨_, mem_cat.2 ⟨_, mem_bos.2 ⟨rfl, rfl⟩, mem_cat.2 ⟨_, mem_grp.2 ⟨_, a ++ ['.'], mem_cat.2 ⟨_,
    mem_rep'.2 ⟨a, '.' :: (ds ++ nl), rfl, ?_, ?_, rfl⟩, mem_ch.2 ⟨_, rfl, rfl⟩⟩, ?_, rfl⟩, mem_cat.2 ⟨_, mem_grp_rep.2
      ⟨ds, nl, rfl, h1, h2, rfl⟩, mem_eos.2 ⟨rfl, mem_finalNewline.1 hn⟩⟩⟩⟩⟩
  · rw [List.all_eq_true]
    intro c hc
    have : c ≠ '\n' := by rintro rfl; exact hl hc
    simpa [dot] using this
  · cases a <;> simp_all
  · simp [init]

theorem trailing_unique [Uni] {s a ds a' ds' : Str} (h : Trailing s a ds) (h' : Trailing s a' ds') :
    a = a' ∧ ds = ds' := by
  obtain ⟨-, -, hd, nl, hn, rfl⟩ := h
  obtain ⟨-, -, hd', nl', hn', e⟩ := h'
  have hdot : ∀ {x y : Str}, Digits x → y ∈ finalNewline → '.' ∉ x ++ y := by
    intro x y hx hy hc
    rw [mem_finalNewline] at hy
    rw [List.mem_append] at hc
    rcases hc with hc | hc
    · exact decimal_ne (List.all_eq_true.1 hx.2 _ hc) (by decide) (by decide) rfl
    · rcases hy with rfl | rfl <;> exact absurd hc (by decide)
  obtain ⟨rfl, e2⟩ := last_unique e (hdot hd hn) (hdot hd' hn')
  refine ⟨rfl, ?_⟩
  have := (tail_unique (m := some ds) (m' := some ds') (by simpa using hd) (by simpa using hd') hn hn'
    (by simp [minorText, e2])).1
  simpa using this

theorem bumpLast_trailing [Uni] {s a ds : Str} (h : Trailing s a ds) :
    bumpLast s = a ++ '.' :: natStr (decVal ds + 1) := by
  unfold bumpLast
  obtain ⟨t, ht⟩ := lastRe_exists h
  cases hm : rmatch lastRe s with
  | none => exact absurd ht (rmatch_none.1 hm t)
  | some st =>
    obtain ⟨a', ds', h', g1, g2⟩ := mem_lastRe (mem_of_rmatch hm)
    obtain ⟨rfl, rfl⟩ := trailing_unique h h'
    simp [g1, g2]

theorem bumpLast_none [Uni] {s : Str} (h : ∀ a ds, ¬ Trailing s a ds) : bumpLast s = s ++ s% ".1" := by
  unfold bumpLast
  cases hm : rmatch lastRe s with
  | none => rfl
  | some st =>
    obtain ⟨a', ds', h', -, -⟩ := mem_lastRe (mem_of_rmatch hm)
    exact absurd h' (h a' ds')

theorem bumpLast_bumped [Uni] {s : Str} (hn : ∀ f p ds post, Leading s f p ds post → ¬ MayBumpLeading p post) :
    Bumped s (bumpLast s) := by
  by_cases h : ∃ a ds, Trailing s a ds
  · obtain ⟨a, ds, h⟩ := h
    rw [bumpLast_trailing h]
    exact .trailing hn h
  · rw [bumpLast_none (fun a ds ht => h ⟨a, ds, ht⟩)]
    exact .append hn (fun a ds ht => h ⟨a, ds, ht⟩)

theorem bump_leading [Uni] {s f p ds post : Str} (h : Leading s f p ds post) (hb : MayBumpLeading p post) :
    bump s = f ++ (p ++ (natStr (decVal ds + 1) ++ post)) := by
  obtain ⟨nl, hn, -, e⟩ := rmatch_bump h
  unfold bump
  obtain ⟨h1, h2, h3, h4⟩ := leadState_get (f := f) (p := p) (ds := ds) (post := post) (nl := nl)
  simp only [e, (bumpsFirst_iff h.pre).2 hb, if_true, h1, h2, h3, h4]

theorem bump_no_leading [Uni] {s : Str} (hn : ∀ f p ds post, Leading s f p ds post → ¬ MayBumpLeading p post) :
    bump s = bumpLast s := by
  unfold bump
  cases hm : rmatch bumpRe s with
  | none => rfl
  | some st =>
    obtain ⟨f, p, ds, post, h⟩ := leading_of_match hm
    obtain ⟨nl, -, -, e⟩ := rmatch_bump h
    rw [hm] at e
    cases e
    have := hn f p ds post h
    rw [← bumpsFirst_iff (f := f) (ds := ds) (nl := nl) h.pre] at this
    simp [this]

/-- `bump` computes what the specification says -/
theorem bump_iff [Uni] {s s' : Str} : bump s = s' ↔ Bumped s s' := by
  constructor
  · rintro rfl
    by_cases h : ∃ f p ds post, Leading s f p ds post ∧ MayBumpLeading p post
    · obtain ⟨f, p, ds, post, h, hb⟩ := h
      rw [bump_leading h hb]
      exact .leading h hb
    · have hn : ∀ f p ds post, Leading s f p ds post → ¬ MayBumpLeading p post :=
        fun f p ds post h1 h2 => h ⟨f, p, ds, post, h1, h2⟩
      rw [bump_no_leading hn]
      exact bumpLast_bumped hn
  · intro h
    cases h with
    | leading h hb => exact bump_leading h hb
    | trailing hn h => rw [bump_no_leading hn, bumpLast_trailing h]
    | append hn h => rw [bump_no_leading hn, bumpLast_none h]

end Specfile.Release
