import Verif.Proof.Format6
/-
Objects are put back.
-/
namespace Specfile.Formatter
open Py Spec

theorem noQuoted_append {s r : Str} (hs : NoQuotedObject s) (hr : NoQuotedObject r)
    (h : (∀ q, s.getLast? = some q → q ≠ '\'' ∧ q ≠ '"') ∨ r.head? ≠ some '<') : NoQuotedObject (s ++ r) := by
  intro a q b he
  rcases List.append_eq_append_iff.1 he with ⟨c, h1, h2⟩ | ⟨c, h1, h2⟩
  · exact hr c q b h2
  · rcases c with _ | ⟨x, _ | ⟨y, c⟩⟩
    · exact hr [] q b (by simpa using h2.symm)
    · simp at h2
      obtain ⟨rfl, rfl⟩ := h2
      rcases h with h | h
      · exact h _ (by rw [h1]; simp)
      · simp at h
    · simp at h2
      obtain ⟨rfl, rfl, rfl⟩ := h2
      exact hs a q c h1

theorem noQuoted_of_not_mem {s : Str} (h : '<' ∉ s) : NoQuotedObject s := by
  intro a q b he
  exact absurd (by simp [he]) h

theorem replaceOnce_at {q : Char} (hq : q = '\'' ∨ q = '"') (r new post : Str) {s : Str} (hs : NoQuotedObject s) :
    replaceOnce (q :: '<' :: r) new (s ++ ((q :: '<' :: r) ++ post)) = s ++ (new ++ post) := by
  induction s with
  | nil =>
    rw [List.nil_append, List.cons_append, replaceOnce, if_pos (by rw [List.isPrefixOf_iff_prefix]; exact ⟨post, rfl⟩)]
    rw [← List.cons_append, List.drop_left]; rfl
  | cons c s ih =>
    rw [List.cons_append, replaceOnce, if_neg, ih]
    · rfl
    · intro a x b he
      exact hs (c :: a) x b (by simp [he])
    · rw [List.isPrefixOf_iff_prefix]
      rintro ⟨t, ht⟩
      rw [List.cons_append, List.cons.injEq] at ht
      obtain ⟨rfl, ht⟩ := ht
      rcases s with _ | ⟨d, s⟩
      · simp at ht
        rcases hq with rfl | rfl <;> simp at ht
      · simp at ht
        obtain ⟨rfl, _⟩ := ht
        have := hs [] q s rfl
        rcases hq with rfl | rfl <;> simp at this

/-- the objects among tokens -/
def objects : List Tok → List Str
  | [] => []
  | .const r :: ts => if isObject r then r :: objects ts else objects ts
  | .op _ :: ts => objects ts
  | .name _ :: ts => objects ts

theorem objects_filter (ts : List Tok) : objects (ts.filter isAtom) = objects ts := by
  induction ts with
  | nil => rfl
  | cons t ts ih => cases t <;> simp [List.filter, isAtom, objects, ih]

theorem text_cons' (p : Piece) (ps : List Piece) : text (p :: ps) = p.text ++ text ps := by
  simp [text]

theorem revert_objects {repr : Str → Str} (hq : QuotedBy repr) : ∀ (B : List Piece) (s : Str) (b : Bool), NoQuotedObject s →
    (b = false → ∀ q, s.getLast? = some q → q ≠ '\'' ∧ q ≠ '"') → Apart b (tokens B) → (∀ t ∈ tokens B, PlainTok t) →
    AllPlain B → revert repr (objects (tokens B)) (s ++ text (B.map (hide repr))) = s ++ text B := by
  intro B
  induction B with
  | nil => intros; rfl
  | cons p B ih =>
    intro s b hs hb ha hp hpl
    have hpl' : AllPlain B := fun x hx => hpl x (by simp [hx])
    have hp0 := hpl p (by simp)
    -- a piece without quotes and brackets
    have step : ∀ (w : Str) (b' : Bool), hide repr p = p → p.text = w → '<' ∉ w → (∀ q ∈ w, q ≠ '\'' ∧ q ≠ '"') →
        (b' = false → b = false ∨ w ≠ []) → objects (tokens (p :: B)) = objects (tokens B) → Apart b' (tokens B) →
        (∀ t ∈ tokens B, PlainTok t) →
        revert repr (objects (tokens (p :: B))) (s ++ text ((p :: B).map (hide repr))) = s ++ text (p :: B) := by
      intro w b' h1 h2 h3 h4 h5 h6 h7 h8
      rw [h6, List.map_cons, text_cons', text_cons', h1, h2, ← List.append_assoc, ← List.append_assoc]
      refine ih (s ++ w) b' ?_ ?_ h7 h8 hpl'
      · exact noQuoted_append hs (noQuoted_of_not_mem h3) (Or.inr (by
          intro hh; exact h3 (List.mem_of_mem_head? hh)))
      · intro hb' q hq
        rcases List.eq_nil_or_concat w with rfl | ⟨w', x, rfl⟩
        · rcases h5 hb' with h | h
          · exact hb h q (by simpa using hq)
          · exact absurd rfl h
        · rw [List.concat_eq_append, ← List.append_assoc] at hq
          simp at hq
          subst hq
          exact h4 _ (by simp)
    cases p with
    | ws w =>
      refine step w b rfl rfl ?_ ?_ (fun h => Or.inl h) rfl ha hp
      · intro hm; rcases hp0 _ hm with h | h <;> simp at h
      · intro q hm; rcases hp0 _ hm with h | h <;> subst h <;> decide
    | tok t =>
      cases t with
      | op c =>
        have hc : c ∈ opChars := hp0
        refine step [c] false rfl rfl ?_ ?_ (fun _ => Or.inr (by simp)) rfl ha (fun t ht => hp t (by simp [tokens, ht]))
        · intro hm; simp at hm; subst hm; revert hc; decide
        · intro q hm; simp at hm; subst hm
          constructor <;> (rintro rfl; revert hc; decide)
      | name n =>
        have hn : PlainTok (.name n) := hp _ (by simp [tokens])
        refine step n b rfl rfl hn.1 ?_ (fun h => Or.inl h) rfl ha (fun t ht => hp t (by simp [tokens, ht]))
        intro q hm
        constructor
        · rintro rfl; exact hn.2.1 hm
        · rintro rfl; exact hn.2.2 hm
      | const r =>
        have hr : PlainTok (.const r) := hp _ (by simp [tokens])
        obtain ⟨hb0, ha'⟩ : b = false ∧ Apart true (tokens B) := ha
        have hnext : NoQuotedObject (s ++ r) := noQuoted_append hs hr.1 (Or.inl (hb hb0))
        have hp' : ∀ t ∈ tokens B, PlainTok t := fun t ht => hp t (by simp [tokens, ht])
        cases ho : isObject r with
        | false =>
          have e1 : objects (tokens (.tok (.const r) :: B)) = objects (tokens B) := by simp [tokens, objects, ho]
          have e2 : hide repr (.tok (.const r)) = .tok (.const r) := by simp [hide, hideTok, ho]
          rw [e1, List.map_cons, text_cons', text_cons', e2, ← List.append_assoc, ← List.append_assoc]
          exact ih (s ++ r) true hnext (by simp) ha' hp' hpl'
        | true =>
          have e1 : objects (tokens (.tok (.const r) :: B)) = r :: objects (tokens B) := by simp [tokens, objects, ho]
          have e2 : hide repr (.tok (.const r)) = .tok (.const (repr r)) := by simp [hide, hideTok, ho]
          obtain ⟨_, q, r', hq', hre⟩ := hq r ho (hr.2 ho).oneLine
          rw [e1, List.map_cons, text_cons', text_cons', e2, revert]
          have e3 : replaceOnce (repr r) r (s ++ ((Piece.tok (.const (repr r))).text ++ text (B.map (hide repr)))) =
              s ++ (r ++ text (B.map (hide repr))) := by
            show replaceOnce (repr r) r (s ++ (repr r ++ _)) = _
            rw [hre]
            exact replaceOnce_at hq' r' r _ hs
          rw [e3, ← List.append_assoc, ← List.append_assoc]
          exact ih (s ++ r) true hnext (by simp) ha' hp' hpl'

theorem onlyLF_append {a b : Str} : OnlyLF (a ++ b) ↔ OnlyLF a ∧ OnlyLF b := by
  constructor
  · intro h
    exact ⟨fun c hc => h c (by simp [hc]), fun c hc => h c (by simp [hc])⟩
  · rintro ⟨h1, h2⟩ c hc
    rcases List.mem_append.1 hc with hc | hc
    · exact h1 c hc
    · exact h2 c hc

theorem onlyLF_hide {repr : Str → Str} (hq : QuotedBy repr) {ps : List Piece} (h : OnlyLF (text ps))
    (hp : ∀ t ∈ tokens ps, PlainTok t) : OnlyLF (text (ps.map (hide repr))) := by
  induction ps with
  | nil => exact h
  | cons p ps ih =>
    rw [text_cons', onlyLF_append] at h
    rw [List.map_cons, text_cons', onlyLF_append]
    refine ⟨?_, ih h.2 (fun t ht => hp t (by cases p <;> simp [tokens, ht]))⟩
    cases p with
    | ws w => exact h.1
    | tok t =>
      cases t with
      | op c => exact h.1
      | name n => exact h.1
      | const r =>
        simp only [hide, hideTok]
        split
        · rename_i ho
          intro c hc hb
          have hr : PlainTok (.const r) := hp _ (by simp [tokens])
          have := (hq r ho (hr.2 ho).oneLine).1 c hc
          rw [this] at hb; simp at hb
        · exact h.1

theorem text_append' (a b : List Piece) : text (a ++ b) = text a ++ text b := by simp [text]

theorem getLast_append (a : Str) {b : Str} (h : b ≠ []) : (a ++ b).getLast? = b.getLast? := by
  rcases List.eq_nil_or_concat b with rfl | ⟨w, x, rfl⟩
  · exact absurd rfl h
  · rw [List.concat_eq_append, ← List.append_assoc]; simp

theorem parseLoop_objects {parse : Str → Parsed} {repr : Str → Str} {src : List Piece} (hq : QuotedBy repr)
    (hr : ReadBy parse repr src) (hlf : OnlyLF (text src)) (hl : (text src).getLast? ≠ some '\n')
    (hp : ∀ t ∈ tokens src, PlainTok t) {e : Expr} (he : parsePython (tokens (src.map (hide repr))) = some e) :
    ∀ (b a : List Piece) (fuel : Nat), src = a ++ b → (objects (tokens b)).length ≤ fuel →
      parseLoop parse repr fuel (text (a.map (hide repr) ++ b)) = .ok (e, objects (tokens b)) := by
  intro b
  induction b with
  | nil =>
    intro a fuel h _
    rw [List.append_nil] at h
    subst h
    rw [List.append_nil, parseLoop, hr.tree e he]
    rfl
  | cons p b ih =>
    intro a fuel h hf
    -- the piece is no object
    have skip : hide repr p = p → objects (tokens (p :: b)) = objects (tokens b) →
        parseLoop parse repr fuel (text (a.map (hide repr) ++ p :: b)) = .ok (e, objects (tokens (p :: b))) := by
      intro h1 h2
      have := ih (a ++ [p]) fuel (by simp [h]) (by rw [h2] at hf; exact hf)
      rw [h2]
      simpa [h1] using this
    cases p with
    | ws w => exact skip rfl rfl
    | tok t =>
      cases t with
      | op c => exact skip rfl rfl
      | name n => exact skip rfl rfl
      | const v =>
        cases ho : isObject v with
        | false => exact skip (by simp [hide, hideTok, ho]) (by simp [tokens, objects, ho])
        | true =>
          have e1 : objects (tokens (.tok (.const v) :: b)) = v :: objects (tokens b) := by simp [tokens, objects, ho]
          have henc : Enclosed v := by
            have : PlainTok (.const v) := hp _ (by rw [h, tokens_append]; simp [tokens])
            exact this.2 ho
          rw [e1] at hf ⊢
          cases fuel with
          | zero => simp at hf
          | succ fuel =>
            rw [parseLoop, hr.object a v b h ho]
            simp only
            have hlf' := onlyLF_hide hq hlf hp
            have hv : v ≠ [] := by rintro rfl; simp [isObject] at ho
            have hS := substitute_object (repr := repr) (pre := text (a.map (hide repr))) (v := v) (post := text b) (by
                rw [h, List.map_append, text_append', onlyLF_append] at hlf'
                rw [h, text_append', text_cons', onlyLF_append, onlyLF_append] at hlf
                rw [onlyLF_append, onlyLF_append]
                exact ⟨⟨hlf'.1, hlf.2.1⟩, hlf.2.2⟩) (by
                rw [h, text_append', text_cons'] at hl
                rw [List.append_assoc]
                have hne : v ++ text b ≠ [] := by simp [hv]
                rw [getLast_append _ hne]
                have e2 := getLast_append (text a) hne
                intro hc
                exact hl (e2.trans hc)) ho henc
            have et : text (a.map (hide repr) ++ .tok (.const v) :: b) = text (a.map (hide repr)) ++ v ++ text b := by
              rw [text_append', text_cons', List.append_assoc]; rfl
            rw [et, hS]
            simp only
            have := ih (a ++ [.tok (.const v)]) fuel (by simp [h]) (by simpa using hf)
            have et' : text ((a ++ [Piece.tok (.const v)]).map (hide repr) ++ b) = text (a.map (hide repr)) ++ repr v ++ text b := by
              simp [text_append', text_cons', hide, hideTok, ho, Piece.text, Tok.text]
            rw [et'] at this
            rw [this]

theorem length_objects (src : List Piece) : (objects (tokens src)).length = objectCount src := by
  unfold objectCount
  generalize tokens src = ts
  induction ts with
  | nil => rfl
  | cons t ts ih =>
    cases t with
    | const r =>
      rw [objects]
      by_cases h : isObject r = true <;> simp [h, ih]
    | _ => simp [objects, ih]

theorem unhide (repr : Str → Str) : ∀ (ps : List Piece) (ts : List Tok), tokens ps = ts.map (hideTok repr) →
    ∃ qs, ps = qs.map (hide repr) ∧ tokens qs = ts := by
  intro ps
  induction ps with
  | nil => intro ts h; exact ⟨[], rfl, by simpa [tokens] using h.symm⟩
  | cons p ps ih =>
    intro ts h
    cases p with
    | ws w =>
      obtain ⟨qs, h1, h2⟩ := ih ts h
      exact ⟨.ws w :: qs, by simp [hide, h1], h2⟩
    | tok t =>
      rcases ts with _ | ⟨t', ts⟩
      · simp [tokens] at h
      · simp [tokens] at h
        obtain ⟨qs, h1, h2⟩ := ih ts h.2
        exact ⟨.tok t' :: qs, by simp [hide, h1, h.1], by simp [tokens, h2]⟩

theorem spaceInside_hide (repr : Str → Str) : ∀ (ps : List Piece) (d : Int), SpaceInside d (ps.map (hide repr)) → SpaceInside d ps := by
  intro ps
  induction ps with
  | nil => intros; trivial
  | cons p ps ih =>
    intro d h
    cases p with
    | ws w => exact ⟨h.1, ih d h.2⟩
    | tok t => cases t <;> exact ih _ h

theorem plain_unhide (repr : Str → Str) {ps : List Piece} (h : AllPlain (ps.map (hide repr))) : AllPlain ps := by
  intro x hx
  have := h (hide repr x) (List.mem_map_of_mem hx)
  cases x with
  | ws w => exact this
  | tok t => cases t <;> exact this

/-- the whole function -/
theorem formatExpression_objects {parse : Str → Parsed} {repr : Str → Str} {src : List Piece} {e : Expr} (hq : QuotedBy repr)
    (hr : ReadBy parse repr src) (hlf : OnlyLF (text src)) (hl : (text src).getLast? ≠ some '\n')
    (hp : ∀ t ∈ tokens src, PlainTok t) (he : parsePython (tokens src) = some e) (hg : GoodExpr e) (threshold : Nat)
    {fuel : Nat} (hf : objectCount src ≤ fuel) :
    ∃ ps, formatExpression parse repr threshold fuel (text src) = .ok (text ps) ∧ parsePython (tokens ps) = some e ∧
      SpaceInside 0 ps := by
  have tokens_map : ∀ l : List Piece, tokens (l.map (hide repr)) = (tokens l).map (hideTok repr) := by
    intro l
    induction l with
    | nil => rfl
    | cons p l ih => cases p <;> simp [tokens, hide, ih]
  have hh : parsePython (tokens (src.map (hide repr))) = some (hideExpr repr e) := by
    rw [tokens_map]; exact parsePython_hide he
  have hloop := parseLoop_objects hq hr hlf hl hp hh src [] fuel rfl (by rw [length_objects]; exact hf)
  rw [List.map_nil, List.nil_append] at hloop
  have hg' : GoodExpr (hideExpr repr e) := good_hide hg
  obtain ⟨ps, hps⟩ := fmt_isOk (good_supported hg') threshold 0 []
  obtain ⟨t, ht, hs⟩ := fmt_shows hps hg'
  have hsp : SpaceInside 0 ps := by
    have := fmt_space hps (d := 0) (by omega) (Or.inl rfl) (Neutral.nil _) [] trivial
    rwa [List.append_nil] at this
  obtain ⟨ts, rfl, hts⟩ := shows_hide hs
  have ht' : tokens ps = ts.map (hideTok repr) := by simpa [tokens] using ht
  obtain ⟨qs, rfl, rfl⟩ := unhide repr ps ts ht'
  refine ⟨qs, ?_, parsePython_shows hts hg, spaceInside_hide repr _ _ hsp⟩
  have hatoms : (tokens qs).filter isAtom = (tokens src).filter isAtom := by
    rw [shows_atoms hts, parsePython_atoms he]
  have hobj : objects (tokens qs) = objects (tokens src) := by
    rw [← objects_filter, hatoms, objects_filter]
  rw [formatExpression, hloop]
  simp only
  rw [format, hps]
  simp only [Except.ok.injEq]
  rw [← hobj]
  have := revert_objects hq qs [] false (noQuoted_of_not_mem (by simp)) (by simp)
    (by simpa using shows_apart hts [] trivial) (by
      intro t htm
      by_cases ha : isAtom t = true
      · have : t ∈ (tokens src).filter isAtom := by rw [← hatoms]; exact List.mem_filter.2 ⟨htm, ha⟩
        exact hp t (List.mem_filter.1 this).1
      · cases t with
        | op c => trivial
        | _ => simp [isAtom] at ha) (plain_unhide repr (fmt_plain hps .nil))
  simpa using this

/-- what the loop raises -/
theorem parseLoop_error {parse : Str → Parsed} {repr : Str → Str} : ∀ {fuel : Nat} {s : Str} {f : Failure},
    parseLoop parse repr fuel s = .error f → f = .unfinished ∨ f = .syntaxError ∨
      (f = .err .indexError ∧ ∃ s' l o, parse s' = .syntaxError (some (l + 1)) (some (o + 1)) ∧
        ∀ line, (splitlines s')[l]? = some line → line.length ≤ o) := by
  intro fuel
  induction fuel with
  | zero =>
    intro s f h
    rw [parseLoop] at h
    split at h
    · cases h
    · cases h; exact Or.inl rfl
  | succ fuel ih =>
    intro s f h
    rw [parseLoop] at h
    split at h
    · cases h
    · rename_i lineno offset hp
      simp only at h
      split at h
      · rename_i e he
        cases h
        right
        unfold substitute at he
        simp only at he
        split at he
        · rename_i l o
          split at he
          · rename_i hl
            cases he
            exact Or.inr ⟨rfl, s, l, o, hp, fun line hline => by rw [hl] at hline; cases hline⟩
          · rename_i line hl
            split at he
            · rename_i ho
              cases he
              refine Or.inr ⟨rfl, s, l, o, hp, fun line' hline => ?_⟩
              rw [hl] at hline; cases hline
              simpa using ho
            · split at he
              · cases he; exact Or.inl rfl
              · split at he
                · cases he; exact Or.inl rfl
                · cases he
        · cases he; exact Or.inl rfl
      · rename_i he
        split at h
        · rename_i hrec
          cases h
          exact ih hrec
        · cases h

end Specfile.Formatter
