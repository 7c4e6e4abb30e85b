import Verif.Proof.Prep
import Verif.Props.Options
import Verif.Props.Utils
/-
What `Prep.parse` reads, and what is written back.
-/
namespace Specfile

namespace ValueParser
open Py

theorem mem_joinC {c x : Char} {l : List Str} (h : x ∈ joinC c l) : x = c ∨ ∃ w ∈ l, x ∈ w := by
  induction l with
  | nil => simp at h
  | cons a l ih =>
    by_cases hl : l = []
    · subst hl; simp at h; exact .inr ⟨a, by simp, h⟩
    · rw [joinC_cons c a hl] at h
      simp only [List.mem_append, List.mem_cons] at h
      rcases h with h | h | h
      · exact .inr ⟨a, by simp, h⟩
      · exact .inl h
      · rcases ih h with h | ⟨w, hw, h⟩
        · exact .inl h
        · exact .inr ⟨w, by simp [hw], h⟩

/-- printing adds no whitespace but blanks -/
theorem parseF_space [Uni] {x : Char} (hx : isSpace x = true) (hx' : x ≠ ' ') (fuel : Nat) :
    ∀ {start : Nat} {rest : Str} {offset : Nat} {ns : List Node},
    parseF fuel start rest offset = .ok ns → x ∈ Node.strs ns → x ∈ rest := by
  induction fuel with
  | zero => intro _ _ _ _ h; simp [parseF] at h
  | succ fuel ih =>
    intro start rest offset ns h
    rcases parseF_ok_cases h with ⟨rfl, rfl⟩ | ⟨_, _, rfl⟩ | ⟨b, a, _, _, h⟩ |
      ⟨b, c, a, m, rest', node, ns', e1, e2, hc, hm, hn, hr, rfl⟩
    · simp [Node.strs]
    · simp [Node.strs, Node.str]
    · exact ih h
    · have hd := rest_decomp e1 (findMacroEnd_append hm)
      have h1 : x ∈ node.str → x ∈ '%' :: m := by
        rcases mkNode_ok_cases hm hn with ⟨b, rfl, rfl⟩ | ⟨b, rfl, rfl⟩ |
          ⟨p, n, b, ns'', rfl, _, hb, rfl⟩ | ⟨n, b, rfl, rfl⟩ |
          ⟨p, s, n, args, rfl, _, _, _, _, hw, rfl⟩ | ⟨p, n, rfl, _, _, rfl⟩
        · exact id
        · exact id
        · intro hm
          simp only [Node.str, List.mem_cons, List.mem_append, List.append_assoc, List.not_mem_nil,
            or_false] at hm ⊢
          rcases hm with h | h | h | h | h | h | h
          · exact .inl h
          · exact .inr (.inl h)
          · exact .inr (.inr (.inl h))
          · exact .inr (.inr (.inr (.inl h)))
          · exact .inr (.inr (.inr (.inr (.inl h))))
          · exact .inr (.inr (.inr (.inr (.inr (.inl (ih hb h))))))
          · exact .inr (.inr (.inr (.inr (.inr (.inr h)))))
        · exact id
        · intro hm
          rw [encl_str] at hm
          simp only [List.mem_cons, List.mem_append, List.append_assoc] at hm ⊢
          rcases hm with h | h | h | h | h
          · exact .inl h
          · exact .inr (.inl h)
          · exact .inr (.inr (.inl h))
          · rcases mem_joinC h with h | ⟨w, hw', h⟩
            · exact absurd h hx'
            · rw [← hw] at hw'
              have := mem_words_no_space hw' x h
              rw [hx] at this; simp at this
          · exact .inr (.inr (.inr (.inr h)))
        · exact id
      intro hm'
      rw [strs_append, strs_optLit, Node.strs, List.mem_append, List.mem_append (s := node.str)] at hm'
      rw [hd]
      rcases hm' with h | h | h
      · simp only [List.mem_append]; exact .inl (List.mem_append.mp h)
      · have := h1 h
        simp only [List.mem_append, List.mem_cons] at this ⊢
        rcases this with h | h
        · exact .inr (.inl h)
        · exact .inr (.inr (.inl h))
      · have := ih hr h
        simp only [List.mem_append, List.mem_cons]
        exact .inr (.inr (.inr this))

end ValueParser

namespace Prep
open Py Regex Spec

theorem wrapped_newline [Uni] {l pfx body sfx : Str} (h : Wrapped l pfx body sfx) (hn : '\n' ∉ l) :
    '\n' ∉ body := by
  cases h with
  | @cond p n b e =>
    intro hb
    refine hn (ValueParser.parseF_space (x := '\n') (by decide) (by decide) _ e ?_)
    simp [Node.strs, Node.str, hb]
  | plain _ _ => exact hn
  | broken _ => exact hn

theorem putAbove_above {l : Str} {p : Prep} {ls : List Str} :
    (match p.data with
      | [] => (⟨[], ls ++ [l] ++ p.remainder⟩ : Prep)
      | m :: ms => ⟨{ m with preceding := ls ++ [l] ++ m.preceding } :: ms, p.remainder⟩) =
    (match (putAbove l p).data with
      | [] => ⟨[], ls ++ (putAbove l p).remainder⟩
      | m :: ms => ⟨{ m with preceding := ls ++ m.preceding } :: ms, (putAbove l p).remainder⟩) := by
  unfold putAbove
  cases h : p.data <;> simp

/-- lines above everything -/
def putAll (ls : List Str) (p : Prep) : Prep := ls.foldr putAbove p

theorem putAll_nil (p : Prep) : putAll [] p = p := rfl

theorem putAll_append (a b : List Str) (p : Prep) : putAll (a ++ b) p = putAll a (putAll b p) := by
  simp [putAll]

theorem putAll_empty (ls r : List Str) : putAll ls ⟨[], r⟩ = ⟨[], ls ++ r⟩ := by
  induction ls with
  | nil => rfl
  | cons l ls ih => 
    show putAbove l (putAll ls ⟨[], r⟩) = _
    rw [ih]; rfl

theorem putAll_cons (ls r : List Str) (m : PrepMacro) (ms : List PrepMacro) :
    putAll ls ⟨m :: ms, r⟩ = ⟨{ m with preceding := ls ++ m.preceding } :: ms, r⟩ := by
  induction ls with
  | nil => rfl
  | cons l ls ih => 
    show putAbove l (putAll ls ⟨m :: ms, r⟩) = _
    rw [ih]; rfl

theorem macroRaw_above (ls : List Str) (m : PrepMacro) :
    macroRaw { m with preceding := ls ++ m.preceding } = ls ++ macroRaw m := by
  simp only [macroRaw, settle, List.append_assoc]
  split <;> rfl

theorem raw_putAll (ls : List Str) (p : Prep) : raw (putAll ls p) = ls ++ raw p := by
  obtain ⟨d, r⟩ := p
  cases d with
  | nil => rw [putAll_empty]; simp [raw]
  | cons m ms =>
    rw [putAll_cons]
    simp only [raw, List.map_cons, macroRaw_above, List.flatten_cons, List.append_assoc]

theorem raw_putAbove (l : Str) (p : Prep) : raw (putAbove l p) = l :: raw p := by
  have := raw_putAll [l] p
  simpa [putAll] using this

theorem parseLoop_iff [Uni] {ls : List Str} (hn : ∀ l ∈ ls, '\n' ∉ l) {buffer : List Str} {p : Prep} :
    parseLoop buffer ls = .ok p ↔ ∃ q, ReadsPrep ls q ∧ p = putAll buffer q := by
  induction ls generalizing buffer p with
  | nil =>
    simp only [parseLoop, Except.ok.injEq]
    constructor
    · rintro rfl
      exact ⟨⟨[], []⟩, .nil, by rw [putAll_empty]; simp⟩
    · rintro ⟨q, h, rfl⟩
      cases h
      rw [putAll_empty]; simp
  | cons l ls ih =>
    have hl : '\n' ∉ l := hn l (by simp)
    replace ih := fun buffer p => ih (fun x hx => hn x (by simp [hx])) (buffer := buffer) (p := p)
    unfold parseLoop
    constructor
    · intro h
      cases hs : Utils.splitConditional l with
      | error e => rw [hs] at h; simp at h
      | ok sp =>
        rw [hs] at h
        have hw := splitConditional_iff.mp hs
        have hb := wrapped_newline hw hl
        simp only at h
        rcases macro_or_none sp.body with h1 | ⟨k, before, name, d, o, h1⟩
        · rw [lineMacro_none hb h1] at h
          simp only at h
          obtain ⟨q, hq, rfl⟩ := (ih _ _).mp h
          exact ⟨_, .other hw h1 hq, by rw [putAll_append]; rfl⟩
        · rw [lineMacro_some hb h1] at h
          cases ht : Options.tokenize o with
          | error e => rw [ht] at h; simp [Except.map] at h
          | ok ts =>
            rw [ht] at h
            simp only [Except.map] at h
            cases hr : parseLoop [] ls with
            | error e => rw [hr] at h; simp at h
            | ok r =>
              rw [hr] at h
              simp only [Except.ok.injEq] at h
              obtain ⟨q, hq, rfl⟩ := (ih _ _).mp hr
              subst h
              refine ⟨_, .found hw h1 ht hq, ?_⟩
              rw [putAll_cons]; simp
    · rintro ⟨q, hq, rfl⟩
      cases hq with
      | @other _ _ pfx body sfx q hw h1 hq =>
        rw [(splitConditional_iff (sp := ⟨body, pfx, sfx⟩)).mpr hw]
        simp only
        rw [lineMacro_none (wrapped_newline hw hl) h1]
        simp only
        rw [ih]
        exact ⟨q, hq, by rw [putAll_append]; rfl⟩
      | @found _ _ pfx body sfx k before name d o ts q hw h1 ht hq =>
        rw [(splitConditional_iff (sp := ⟨body, pfx, sfx⟩)).mpr hw]
        simp only
        rw [lineMacro_some (wrapped_newline hw hl) h1, ht]
        simp only [Except.map]
        rw [(ih [] q).mpr ⟨q, hq, rfl⟩, putAll_cons]
        simp

theorem settle_delim {m : PrepMacro} (h : m.delimiter = [] → Options.tokensStr m.options.tokens = []) :
    settle m = m := by
  unfold settle
  rw [if_neg]
  simp only [Bool.and_eq_true, Bool.not_eq_true', List.isEmpty_iff, List.isEmpty_eq_false_iff]
  rintro ⟨h1, h2⟩
  exact h1 (h h2)

theorem tokensStr_nil [Uni] {ts : List Token} (h : Options.tokenize [] = .ok ts) : ts = [] := by
  have : Options.tokenize [] = .ok [] := by
    rw [Options.tokenize, show ValueParser.parse [] = .ok [] by simp [ValueParser.parse, ValueParser.parseF]]
    rfl
  rw [this] at h
  simpa using h.symm

/-- how lines are written back -/
theorem written [Uni] {ls : List Str} {p : Prep} (h : ReadsPrep ls p) :
    ∃ ls', raw p = ls' ∧ ls'.length = ls.length ∧ ∀ (i : Nat) l l', ls[i]? = some l → ls'[i]? = some l' → WrittenAs l l' := by
  refine ⟨raw p, rfl, ?_⟩
  induction h with
  | nil => exact ⟨rfl, by simp [raw]⟩
  | @other l ls pfx body sfx p hw h1 _ ih =>
    rw [raw_putAbove]
    refine ⟨by simp [ih.1], ?_⟩
    intro i l l' e1 e2
    cases i with
    | zero => 
      simp only [List.length_cons, Nat.zero_lt_succ, getElem?_pos, List.getElem_cons_zero, Option.some.injEq] at e1 e2
      subst e1 e2
      exact .other hw h1
    | succ i => exact ih.2 i l l' (by simpa using e1) (by simpa using e2)
  | @found l ls pfx body sfx k before name d o ts p hw h1 ht _ ih =>
    have hset : settle ⟨k, name, ⟨ts, optstring k, defaults k⟩, d, pfx ++ before, sfx, []⟩ =
        ⟨k, name, ⟨ts, optstring k, defaults k⟩, d, pfx ++ before, sfx, []⟩ := by
      apply settle_delim
      intro hd
      simp only at hd ⊢
      rw [h1.apart hd] at ht
      rw [tokensStr_nil ht]; rfl
    have hr : raw ⟨⟨k, name, ⟨ts, optstring k, defaults k⟩, d, pfx ++ before, sfx, []⟩ :: p.data, p.remainder⟩ =
        (pfx ++ before ++ name ++ d ++ Options.tokensStr ts ++ sfx) :: raw p := by
      simp [raw, macroRaw, hset, line]
    rw [hr]
    refine ⟨by simp [ih.1], ?_⟩
    intro i l l' e1 e2
    cases i with
    | zero => 
      simp only [List.length_cons, Nat.zero_lt_succ, getElem?_pos, List.getElem_cons_zero, Option.some.injEq] at e1 e2
      subst e1 e2
      exact .found hw h1 ht
    | succ i => exact ih.2 i l l' (by simpa using e1) (by simpa using e2)

end Prep
end Specfile
