import Verif.Proof.ConditionLine
/-
Processing of well-formed conditions.
-/
namespace Specfile
open Py Regex Spec
open MacroDefinitions (EndText end_head)
namespace Conditions

theorem listed_eq (target text : Str) : listed target text = decide (target ∈ words text) := by
  unfold listed
  rw [Bool.eq_iff_iff]
  simp [List.any_eq_true]

theorem resolve_of_holds [Uni] {ex : Str → Except Err Str} {kw e : Str} {t : Bool}
    (h : Holds ex kw e t) : resolve ex kw e = .ok t := by
  cases h with
  | expr hk hv =>
    have hk' : (kw == s% "%if" || kw == s% "%elif") = true := by
      rcases hk with rfl | rfl <;> rfl
    unfold resolve
    simp only [hk', if_true]
    generalize ex (s% "%{expr:" ++ e ++ ['}']) = r at hv
    cases hv with
    | invalid => rfl
    | unexpanded h =>
      simp [startsWith, List.isPrefixOf_iff_prefix.2 h]
    | @number r i h hi =>
      have : startsWith r (s% "%{expr:") = false := by
        rw [Bool.eq_false_iff]; intro hc; exact h (List.isPrefixOf_iff_prefix.1 hc)
      simp only [this, hi]
      rfl
    | @string r h hi =>
      have : startsWith r (s% "%{expr:") = false := by
        rw [Bool.eq_false_iff]; intro hc; exact h (List.isPrefixOf_iff_prefix.1 hc)
      simp only [this, hi]
      rfl
  | arch hk h1 h2 =>
    rcases hk with rfl | rfl <;>
    · unfold resolve
      simp only [h1, h2, listed_eq]
      rfl
  | notArch h1 h2 =>
    unfold resolve
    simp only [h1, h2, listed_eq]
    simp [endsWith, List.isSuffixOf, List.isPrefixOf]
  | os hk h1 h2 =>
    rcases hk with rfl | rfl <;>
    · unfold resolve
      simp only [h1, h2, listed_eq]
      rfl
  | notOs h1 h2 =>
    unfold resolve
    simp only [h1, h2, listed_eq]
    simp [endsWith, List.isSuffixOf, List.isPrefixOf]

theorem expandLine_of {ex : Str → Except Err Str} {line l : Str} (h : Expands ex line l) :
    expandLine ex line = .ok l := by
  rcases h with h | ⟨h, rfl⟩ <;> simp [expandLine, h]

section steps
variable [Uni] {ex : Oracle} {exc : List Range} {i : Nat} {line l : Str} {ls : List Str}

omit [Uni] in
theorem opener_class {kw : Str} (h : kw ∈ openers) : kw ∈ keywords ∧ (kw == s% "%endif") = false ∧
    startsWith kw (s% "%el") = false ∧ startsWith kw (s% "%if") = true := by
  simp only [openers, List.mem_cons, List.not_mem_nil, or_false] at h
  rcases h with rfl | rfl | rfl | rfl | rfl <;> decide

omit [Uni] in
theorem elif_class {kw : Str} (h : kw ∈ elifs ++ negElifs) : kw ∈ keywords ∧ (kw == s% "%endif") = false ∧
    startsWith kw (s% "%el") = true ∧ startsWith kw (s% "%elif") = true := by
  simp only [elifs, negElifs, List.cons_append, List.nil_append, List.mem_cons, List.not_mem_nil, or_false] at h
  rcases h with rfl | rfl | rfl | rfl | rfl <;> decide

theorem step_excluded (top : Bool) (outer : List Bool) (hi : isExcluded exc i = true) :
    step ex exc i line ls (top :: outer) = .ok (top, [], top :: outer) := by
  simp [step, hi]

theorem step_plain (top : Bool) (outer : List Bool) (hi : isExcluded exc i = false)
    (hx : Expands (ex i) line l) (hp : NoCondition l) :
    step ex exc i line ls (top :: outer) = .ok (top, [], top :: outer) := by
  simp [step, hi, expandLine_of hx, condRe_noCondition hp]

theorem step_if {kw text e : Str} {cont : List Str} {t : Bool} (top : Bool) (outer : List Bool)
    (hi : isExcluded exc i = false) (hx : Expands (ex i) line l) (hk : kw ∈ openers)
    (hf : ConditionLine l kw text) (ht : ConditionText text cont e)
    (hh : top = true → Holds (ex i) kw e t) :
    step ex exc i line (cont ++ ls) (top :: outer) =
      .ok (top, List.replicate cont.length top, (top && t) :: top :: outer) := by
  obtain ⟨c1, c2, c3, c4⟩ := opener_class hk
  obtain ⟨m, m1, m2, m3⟩ := condRe_expression c1 hf ht
  simp only [step, hi, Bool.false_eq_true, if_false, expandLine_of hx, m1, m2, Option.getD_some, c2, c3, c4,
    if_true, m3]
  cases top with
  | false => simp
  | true => simp [resolve_of_holds (hh rfl)]

theorem step_endif {text : Str} (top b : Bool) (outer : List Bool)
    (hi : isExcluded exc i = false) (hx : Expands (ex i) line l)
    (hf : ConditionLine l (s% "%endif") text) :
    step ex exc i line ls (top :: b :: outer) = .ok (b, [], b :: outer) := by
  obtain ⟨m, m1, m2, -⟩ := condRe_line (by decide) hf
  simp [step, hi, expandLine_of hx, m1, m2]

theorem step_else {text : Str} (top b : Bool) (outer : List Bool)
    (hi : isExcluded exc i = false) (hx : Expands (ex i) line l)
    (hf : ConditionLine l (s% "%else") text) :
    step ex exc i line ls (top :: b :: outer) = .ok (b, [], (if b then !top else top) :: b :: outer) := by
  obtain ⟨m, m1, m2, -⟩ := condRe_line (by decide) hf
  simp [step, hi, expandLine_of hx, m1, m2, startsWith, List.isPrefixOf]

theorem step_elif {kw text e : Str} {cont : List Str} {t : Bool} (top b : Bool) (outer : List Bool)
    (hi : isExcluded exc i = false) (hx : Expands (ex i) line l) (hk : kw ∈ elifs)
    (hf : ConditionLine l kw text) (ht : ConditionText text cont e)
    (hh : (if b then !top else top) = true → Holds (ex i) kw e t) :
    step ex exc i line (cont ++ ls) (top :: b :: outer) =
      .ok (b, List.replicate cont.length (if b then !top else top), ((if b then !top else top) && t) :: b :: outer) := by
  obtain ⟨c1, c2, c3, c4⟩ := elif_class (List.mem_append_left _ hk)
  obtain ⟨m, m1, m2, m3⟩ := condRe_expression c1 hf ht
  simp only [step, hi, Bool.false_eq_true, if_false, expandLine_of hx, m1, m2, Option.getD_some, c2, c3, c4,
    if_true, m3]
  generalize (if b then !top else top) = top' at hh
  cases top' with
  | false => simp
  | true => simp [resolve_of_holds (hh rfl)]

end steps

/-- put lines in front of a result -/
def pre (xs : List (Str × Bool)) : Except Err (List (Str × Bool)) → Except Err (List (Str × Bool))
  | .error e => .error e
  | .ok r => .ok (xs ++ r)

theorem pre_pre (a b : List (Str × Bool)) (r) : pre a (pre b r) = pre (a ++ b) r := by
  cases r <;> simp [pre]

theorem pre_nil (r) : pre [] r = r := by cases r <;> simp [pre]

theorem loop_step [Uni] {ex : Oracle} {exc : List Range} {i : Nat} {l : Str} {ls : List Str}
    {br br' : List Bool} {f : Bool} {skip : List Bool}
    (h : step ex exc i l ls br = .ok (f, skip, br')) :
    loop ex exc i [] br (l :: ls) = pre [(l, f)] (loop ex exc (i + 1) skip br' ls) := by
  simp only [loop, h]
  cases loop ex exc (i + 1) skip br' ls <;> simp [pre]

theorem loop_skip [Uni] {ex : Oracle} {exc : List Range} {i : Nat} (a more : List Str)
    {br : List Bool} (f : Bool) :
    loop ex exc i (List.replicate a.length f) br (a ++ more) =
      pre (a.zip (List.replicate a.length f)) (loop ex exc (i + a.length) [] br more) := by
  induction a generalizing i with
  | nil => simp [pre_nil]
  | cons l ls ih =>
    simp only [List.length_cons, List.replicate_succ, List.cons_append, loop, ih, List.zip_cons_cons]
    rw [show i + 1 + ls.length = i + (ls.length + 1) by omega]
    cases loop ex exc (i + (ls.length + 1)) [] br more <;> simp [pre]

theorem zip_append' {α β} {a b : List α} {c d : List β} (h : a.length = c.length) :
    (a ++ b).zip (c ++ d) = a.zip c ++ b.zip d := List.zip_append h

theorem blocks_loop [Uni] {ex : Oracle} {exc : List Range} {inBody : Nat → Prop}
    (hb : ∀ i, inBody i ↔ isExcluded exc i = true)
    {mode : Mode} {i : Nat} {enc : Bool} {ls : List Str} {fs : List Bool}
    (h : Blocks ex inBody false mode i enc ls fs) :
    ls.length = fs.length ∧
    match mode with
    | .body => ∀ outer more, loop ex exc i [] (enc :: outer) (ls ++ more) =
        pre (ls.zip fs) (loop ex exc (i + ls.length) [] (enc :: outer) more)
    | .rest taken late => ∀ outer more,
        loop ex exc i [] ((enc && taken && !late) :: enc :: outer) (ls ++ more) =
          pre (ls.zip fs) (loop ex exc (i + ls.length) [] (enc :: outer) more) := by
  have hb' : ∀ {i}, ¬ inBody i → isExcluded exc i = false := by
    intro i hi; rw [Bool.eq_false_iff, ne_eq, ← hb]; exact hi
  induction h with
  | done => exact ⟨rfl, fun outer more => by simp [pre_nil]⟩
  | @inBody i enc line ls fs hi _ ih =>
    obtain ⟨ih1, ih2⟩ := ih
    refine ⟨by simp [ih1], ?_⟩
    intro outer more
    simp only at ih2
    rw [List.cons_append, loop_step (step_excluded _ _ ((hb i).1 hi)), ih2, pre_pre]
    simp only [List.zip_cons_cons, List.length_cons, List.singleton_append]
    rw [show i + 1 + ls.length = i + (ls.length + 1) by omega]
  | @plain i enc line l ls fs hi hx hp _ ih =>
    obtain ⟨ih1, ih2⟩ := ih
    refine ⟨by simp [ih1], ?_⟩
    intro outer more
    simp only at ih2
    rw [List.cons_append, loop_step (step_plain _ _ (hb' hi) hx hp), ih2, pre_pre]
    simp only [List.zip_cons_cons, List.length_cons, List.singleton_append]
    rw [show i + 1 + ls.length = i + (ls.length + 1) by omega]
  | @cond i enc line l kw text cont e t body fb rest fr ls fs hi hx hk hf ht hh _ _ _ ih1 ih2 ih3 =>
    obtain ⟨a1, a2⟩ := ih1
    obtain ⟨b1, b2⟩ := ih2
    obtain ⟨c1, c2⟩ := ih3
    simp only at a2 b2 c2
    refine ⟨by simp [a1, b1, c1], ?_⟩
    intro outer more
    simp only [List.cons_append, List.append_assoc]
    rw [loop_step (step_if _ _ (hb' hi) hx hk hf ht hh), loop_skip, a2]
    have := b2 outer (ls ++ more)
    simp only [Bool.not_false, Bool.and_true] at this
    rw [this, c2]
    simp only [pre_pre]
    simp only [List.zip_cons_cons, List.length_cons, List.length_append]
    rw [zip_append' (by simp), zip_append' a1, zip_append' b1]
    simp only [List.cons_append, List.nil_append]
    rw [show i + 1 + cont.length + body.length + rest.length + ls.length =
      i + (cont.length + (body.length + (rest.length + ls.length)) + 1) by omega]
  | @endif i enc taken late line l text hi hx hf =>
    refine ⟨rfl, ?_⟩
    intro outer more
    rw [List.cons_append, loop_step (step_endif _ _ _ (hb' hi) hx hf)]
    simp
  | @else_ i enc taken late line l text body fb rest fr hl hi hx hf _ _ ih1 ih2 =>
    obtain ⟨a1, a2⟩ := ih1
    obtain ⟨b1, b2⟩ := ih2
    simp only at a2 b2
    refine ⟨by simp [a1, b1], ?_⟩
    intro outer more
    have htop : (if enc then !(enc && taken && !late) else (enc && taken && !late)) = (enc && !taken) := by
      rcases hl with hl | hl | hl
      · simp at hl
      · simp [hl]
      · subst hl; cases enc <;> cases taken <;> rfl
    simp only [List.cons_append, List.append_assoc]
    rw [loop_step (step_else _ _ _ (hb' hi) hx hf), htop, a2]
    have := b2 outer more
    simp only [Bool.and_true] at this
    rw [this]
    simp only [pre_pre, List.zip_cons_cons, List.length_cons, List.length_append]
    rw [zip_append' a1]
    simp only [List.cons_append, List.nil_append]
    rw [show i + 1 + body.length + rest.length = i + (body.length + rest.length + 1) by omega]
  | @elif i enc taken late line l kw text cont e t body fb rest fr hl hi hx hk hf ht hh _ _ ih1 ih2 =>
    obtain ⟨a1, a2⟩ := ih1
    obtain ⟨b1, b2⟩ := ih2
    simp only at a2 b2
    refine ⟨by simp [a1, b1], ?_⟩
    intro outer more
    have htop : (if enc then !(enc && taken && !late) else (enc && taken && !late)) = (enc && !taken) := by
      rcases hl with hl | hl | hl
      · simp at hl
      · simp [hl]
      · subst hl; cases enc <;> cases taken <;> rfl
    simp only [List.cons_append, List.append_assoc]
    rw [loop_step (step_elif _ _ _ (hb' hi) hx hk hf ht (t := t) (by
      rw [htop]; simp only [Bool.and_eq_true, Bool.not_eq_true', and_imp]; exact hh)), htop, loop_skip, a2]
    have := b2 outer more
    have e2 : (enc && (taken || t) && !taken) = (enc && !taken && t) := by
      cases enc <;> cases taken <;> cases t <;> rfl
    rw [e2] at this
    rw [this]
    simp only [pre_pre, List.zip_cons_cons, List.length_cons, List.length_append]
    rw [zip_append' (by simp), zip_append' a1]
    simp only [List.cons_append, List.nil_append]
    rw [show i + 1 + cont.length + body.length + rest.length = i + (cont.length + (body.length + rest.length) + 1) by omega]

/-! ### the lines of the result -/

theorem loop_lines [Uni] (ex : Oracle) (exc : List Range) (i : Nat) (skip br : List Bool) (ls : List Str)
    {r : List (Str × Bool)} (h : loop ex exc i skip br ls = .ok r) : r.map (·.1) = ls := by
  induction ls generalizing i skip br r with
  | nil => simp [loop] at h; simp [← h]
  | cons l ls ih =>
    cases skip with
    | cons f skip =>
      simp only [loop] at h
      split at h
      · simp at h
      · rename_i r' hr
        simp at h; subst h
        simp [ih _ _ _ hr]
    | nil =>
      simp only [loop] at h
      split at h
      · simp at h
      · split at h
        · simp at h
        · rename_i r' hr
          simp at h; subst h
          simp [ih _ _ _ hr]

/-! ### failures -/

theorem resolve_error [Uni] {ex : Str → Except Err Str} {kw e : Str} {er : Err}
    (h : resolve ex kw e = .error er) : ∃ s, ex s = .error er := by
  unfold resolve at h
  split at h
  · split at h
    · simp at h
    · rename_i e' _ he; simp at h; subst h; exact ⟨_, he⟩
    · split at h
      · simp at h
      · split at h <;> simp at h
  · split at h
    · split at h
      · rename_i he; simp at h; subst h; exact ⟨_, he⟩
      · split at h
        · rename_i he; simp at h; subst h; exact ⟨_, he⟩
        · simp at h
    · split at h
      · split at h
        · rename_i he; simp at h; subst h; exact ⟨_, he⟩
        · split at h
          · rename_i he; simp at h; subst h; exact ⟨_, he⟩
          · simp at h
      · simp at h

theorem guard_error [Uni] {ex : Str → Except Err Str} {kw e : Str} {er : Err} {p : Prop} [Decidable p]
    (h : (if p then .ok false else resolve ex kw e) = .error er) : ∃ s, ex s = .error er := by
  split at h
  · simp at h
  · exact resolve_error h

theorem step_error [Uni] {ex : Oracle} {exc : List Range} {i : Nat} {line : Str} {ls : List Str}
    {br : List Bool} {e : Err} (h : step ex exc i line ls br = .error e) :
    (∃ s, ex i s = .error e) ∨ (e = .indexError ∧ br.length ≤ 1) := by
  unfold step at h
  split at h
  · simp at h; exact .inr ⟨h.symm, by simp⟩
  · split at h
    · simp at h
    · split at h
      · rename_i e' he
        simp at h; subst h
        left
        unfold expandLine at he
        split at he <;> simp at he
        rename_i he'; subst he; exact ⟨_, he'⟩
      · split at h
        · simp at h
        · simp only at h
          split at h
          · split at h
            · simp at h; exact .inr ⟨h.symm, by simp⟩
            · simp at h
          · split at h
            · split at h
              · simp at h; exact .inr ⟨h.symm, by simp⟩
              · split at h
                · split at h
                  · rename_i he
                    simp at h; subst h
                    exact .inl (guard_error he)
                  · simp at h
                · simp at h
            · split at h
              · split at h
                · rename_i he
                  simp at h; subst h
                  split at he
                  · simp at he
                  · exact .inl (resolve_error he)
                · simp at h
              · simp at h

theorem loop_error [Uni] {ex : Oracle} {exc : List Range} {i : Nat} {skip br : List Bool} {ls : List Str}
    {e : Err} (h : loop ex exc i skip br ls = .error e) :
    (∃ j s, ex j s = .error e) ∨ e = .indexError := by
  induction ls generalizing i skip br with
  | nil => simp [loop] at h
  | cons l ls ih =>
    cases skip with
    | cons f skip =>
      simp only [loop] at h
      split at h
      · rename_i he; simp at h; subst h; exact ih he
      · simp at h
    | nil =>
      simp only [loop] at h
      split at h
      · rename_i he
        simp at h; subst h
        rcases step_error he with ⟨s, h⟩ | h
        · exact .inl ⟨_, s, h⟩
        · exact .inr h.1
      · split at h
        · rename_i he; simp at h; subst h; exact ih he
        · simp at h

end Conditions
end Specfile
