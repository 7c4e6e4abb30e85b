import Verif.Proof.Tags
import Verif.Py.More
import Verif.Proof.ValueParserInv
import Verif.Proof.MacroDefinitions5
import Verif.Proof.MacroDefinitions6
import Verif.Props.Utils
/-
Reading tags and writing them back.
-/
namespace Specfile
open Py Regex Spec

/-! ### splitting off the whitespace at the end of a line -/

namespace MacroDefinitions

theorem endsInBlank_append {a w : Str} (hw : w.all inlineSpace = true) (hne : w ≠ []) :
    EndsInBlank (a ++ w) := by
  refine ⟨w.getLast hne, ?_, ?_⟩
  · rw [List.getLast?_append, List.getLast?_eq_some_getLast hne]; rfl
  · have := List.all_eq_true.1 hw _ (List.getLast_mem hne)
    simpa [inlineSpace] using this

theorem splitTrailing_line {l : Str} (hn : '\n' ∉ l) :
    l = (splitTrailing l).1 ++ (splitTrailing l).2 ∧ (splitTrailing l).2.all inlineSpace = true ∧
    (∀ c ∈ (splitTrailing l).1.getLast?, isSpace c = false) ∧
    ((splitTrailing l).2 = [] ↔ ¬ EndsInBlank l) := by
  obtain ⟨w, h1, h2, h3⟩ := rstrip_spec l
  have hw : w.all inlineSpace = true := by
    rw [List.all_eq_true] at h2 ⊢
    intro c hc
    simp only [inlineSpace, Bool.and_eq_true, bne_iff_ne]
    refine ⟨h2 c hc, ?_⟩
    rintro rfl
    exact hn (by rw [h1]; simp [hc])
  have hs : splitTrailing l = (rstrip l, w) := by
    conv => lhs; rw [h1]
    exact splitTrailing_append h3 hw
  rw [hs]
  refine ⟨h1, hw, h3, ?_⟩
  simp only
  constructor
  · rintro rfl ⟨c, hc, hb, _⟩
    rw [h1] at hc
    simp only [List.append_nil] at hc
    rw [h3 c hc] at hb
    simp at hb
  · intro h
    rcases Classical.em (w = []) with h' | h'
    · exact h'
    · exfalso
      apply h
      rw [h1]
      exact endsInBlank_append hw h'

end MacroDefinitions

/-! ### newlines -/

namespace ValueParser

theorem newline_joinC {l : List Str} (h : ∀ w ∈ l, '\n' ∉ w) : '\n' ∉ joinC ' ' l := by
  induction l with
  | nil => simp
  | cons a l ih =>
    cases l with
    | nil => simpa using h
    | cons b l =>
      rw [joinC_cons ' ' a (by simp)]
      simp only [List.mem_append, List.mem_cons, not_or]
      refine ⟨h a (by simp), by decide, ih (fun w hw => h w (by simp [hw]))⟩

theorem parseF_newline [Uni] (fuel : Nat) : ∀ {start : Nat} {rest : Str} {offset : Nat}
    {ns : List Node}, parseF fuel start rest offset = .ok ns → '\n' ∉ rest → '\n' ∉ Node.strs ns := by
  induction fuel with
  | zero => intro _ _ _ _ h; simp [parseF] at h
  | succ fuel ih =>
    intro start rest offset ns h hnl
    rcases parseF_ok_cases h with ⟨rfl, rfl⟩ | ⟨_, _, rfl⟩ | ⟨b, a, _, _, h⟩ |
      ⟨b, c, a, m, rest', node, ns', e1, e2, hc, hm, hn, hr, rfl⟩
    · simp [Node.strs]
    · simpa [Node.strs, Node.str] using hnl
    · exact ih h hnl
    · have hd := rest_decomp e1 (findMacroEnd_append hm)
      have hm0 : '\n' ∉ m := fun hx => hnl (by rw [hd]; simp [hx])
      have hr0 : '\n' ∉ rest' := fun hx => hnl (by rw [hd]; simp [hx])
      have h1 : '\n' ∉ node.str := by
        have hp : '\n' ≠ '%' := by decide
        rcases mkNode_ok_cases hm hn with ⟨b, rfl, rfl⟩ | ⟨b, rfl, rfl⟩ |
          ⟨p, n, b, ns'', rfl, _, hb, rfl⟩ | ⟨n, b, rfl, rfl⟩ |
          ⟨p, s, n, args, rfl, _, _, _, _, hw, rfl⟩ | ⟨p, n, rfl, _, _, rfl⟩
        · simp [Node.str] at hm0 ⊢; exact hm0
        · simp [Node.str] at hm0 ⊢; exact hm0
        · have := ih hb (fun hx => hm0 (by simp [hx]))
          simp [Node.str] at hm0 ⊢
          exact ⟨hm0.1, hm0.2.1, this⟩
        · simp [Node.str] at hm0 ⊢; exact hm0
        · rw [encl_str, ← hw]
          have : '\n' ∉ joinC ' ' (words s) := newline_joinC (fun w hw hx => by
            have := mem_words_no_space hw _ hx
            revert this; decide)
          simp at hm0 ⊢
          exact ⟨hm0.1, this⟩
        · simp [Node.str] at hm0 ⊢; exact hm0
      rw [strs_append, strs_optLit, Node.strs]
      simp only [List.mem_append, not_or]
      refine ⟨?_, h1, ih hr hr0⟩
      rw [hd] at hnl
      simp only [List.mem_append, not_or] at hnl
      exact hnl.1

end ValueParser

namespace Utils

theorem splitConditional_newline [Uni] {v : Str} {r : Split} (h : splitConditional v = .ok r)
    (hn : '\n' ∉ v) : '\n' ∉ r.body ∧ '\n' ∉ r.pfx ++ r.body ++ r.sfx := by
  unfold splitConditional at h
  split at h
  · simp at h; subst h; simpa using hn
  · simp at h
  · rename_i p n body hp
    simp at h; subst h
    have := ValueParser.parseF_newline _ hp hn
    simp [Node.strs, Node.str] at this
    simp only
    refine ⟨this.2.2, ?_⟩
    simp
    exact this
  · simp at h; subst h; simpa using hn

end Utils

namespace Tags
open MacroDefinitions (splitTrailing splitTrailing_line inlineSpace countBrackets_spaces countBrackets_suffix)

theorem open_iff (t : Str) : open_ t = true ↔ OpenBracket t := by
  unfold open_ OpenBracket
  simp only [Bool.or_eq_true, decide_eq_true_eq]
  have h := fun b p => Props.C48_count_brackets t b p
  have key := (h (Utils.countBrackets t).1 (Utils.countBrackets t).2).1 rfl
  constructor
  · rintro (h1 | h1)
    · left
      refine ⟨(Utils.countBrackets t).1 - 1, ?_⟩
      rw [show (Utils.countBrackets t).1 - 1 + 1 = (Utils.countBrackets t).1 by omega]
      exact key.1
    · right
      refine ⟨(Utils.countBrackets t).2 - 1, ?_⟩
      rw [show (Utils.countBrackets t).2 - 1 + 1 = (Utils.countBrackets t).2 by omega]
      exact key.2
  · rintro (⟨n, h1⟩ | ⟨n, h1⟩)
    · left
      have := (h (n + 1) (Utils.countBrackets t).2).2 ⟨h1, key.2⟩
      rw [this]; simp
    · right
      have := (h (Utils.countBrackets t).1 (n + 1)).2 ⟨key.1, h1⟩
      rw [this]; simp

theorem inlineSpace_space {w : Str} (h : w.all inlineSpace = true) : w.all isSpace = true := by
  rw [List.all_eq_true] at h ⊢
  intro c hc
  have := h c hc
  simp only [inlineSpace, Bool.and_eq_true] at this
  exact this.1

theorem open_spaces {x w : Str} (h : w.all inlineSpace = true) : open_ (x ++ w) = open_ x := by
  unfold open_
  rw [countBrackets_spaces x w (inlineSpace_space h)]

theorem open_suffix {x y : Str} (h : ∀ c ∈ x.getLast?, c ≠ '\\' ∧ c ≠ '%') (hy : open_ y = true) :
    open_ (x ++ y) = true := by
  have := countBrackets_suffix x y h
  unfold open_ at hy ⊢
  simp only [Bool.or_eq_true, decide_eq_true_eq] at hy ⊢
  omega

/-- the value with the whitespace at its end is the text of the lines consumed -/
theorem takeValue_spec (ls : List (Str × Bool)) (value ws : Str) (hws : ws.all inlineSpace = true)
    (hn : ∀ l ∈ ls, '\n' ∉ l.1)
    (hf : ∀ mid z post, ls.map (·.1) = mid ++ z :: post →
      open_ (joinC '\n' ((value ++ ws) :: mid)) = true →
      EndsInBlank (joinC '\n' ((value ++ ws) :: mid)) → EndsInBlank z) :
    (takeValue value ws ls).2.2 ≤ ls.length ∧
    (takeValue value ws ls).1 ++ (takeValue value ws ls).2.1 =
      joinC '\n' ((value ++ ws) :: (ls.take (takeValue value ws ls).2.2).map (·.1)) := by
  induction ls generalizing value ws with
  | nil => simp [takeValue]
  | cons l ls ih =>
    unfold takeValue
    split
    · rename_i ho
      obtain ⟨e1, e2, e3, e4⟩ := splitTrailing_line (hn l (by simp))
      generalize hs : splitTrailing l.1 = s at e1 e2 e3 e4
      obtain ⟨s1, s2⟩ := s
      simp only at e1 e2 e3 e4 ⊢
      have hws' : (if s2.isEmpty then ws else s2) = s2 := by
        cases s2 with
        | cons _ _ => rfl
        | nil =>
          simp only [List.isEmpty_nil, if_true]
          rcases Classical.em (ws = []) with h | h
          · exact h
          · exfalso
            have := hf [] l.1 (ls.map (·.1)) (by simp) (by simpa [open_spaces hws] using ho)
              (by simpa using MacroDefinitions.endsInBlank_append (a := value) hws h)
            exact (e4.1 rfl) this
      rw [hws']
      have key : value ++ ws ++ '\n' :: s1 ++ s2 = value ++ ws ++ '\n' :: l.1 := by
        rw [e1]; simp
      have := ih (value ++ ws ++ '\n' :: s1) s2 e2 (fun x hx => hn x (by simp [hx])) (by
        intro mid z post h1 h2 h3
        have hj : joinC '\n' ((value ++ ws ++ '\n' :: s1 ++ s2) :: mid) =
            joinC '\n' ((value ++ ws) :: l.1 :: mid) := by
          rw [key, joinC_extend]
        rw [hj] at h2 h3
        exact hf (l.1 :: mid) z post (by simp [h1]) h2 h3)
      refine ⟨Nat.succ_le_succ this.1, ?_⟩
      rw [this.2, key, joinC_extend]
      rfl
    · simp

theorem parseLoop_skip [Uni] (names buffer : List Str) (n : Nat) (ls : List (Str × Bool)) :
    parseLoop names buffer n ls = parseLoop names buffer 0 (ls.drop n) := by
  induction n generalizing ls with
  | zero => rfl
  | succ n ih =>
    cases ls with
    | nil => simp [parseLoop]
    | cons l ls => simpa [parseLoop] using ih ls

theorem comments_raw {buffer : List Str} (hn : ∀ l ∈ buffer, '\n' ∉ l) :
    (Comments.parse buffer).raw = buffer := by
  obtain ⟨pre, cs, e, h1, h2⟩ := Comments.trailing_run buffer hn
  have hcs : ∀ c ∈ cs, '\n' ∉ c.str := by
    intro c hc
    apply hn
    rw [e]
    exact List.mem_append_right _ (List.mem_map.2 ⟨c, hc, rfl⟩)
  have := Comments.parse_of_parts hcs h1 h2
  rw [← e] at this
  rw [this, Comments.raw, e]

theorem cleanTagLines_drop {lines : List Str} (h : CleanTagLines lines) (n : Nat) :
    CleanTagLines (lines.drop n) where
  noNl := fun l hl => h.noNl l (List.mem_of_mem_drop hl)
  singleSpaced := fun l hl => h.singleSpaced l (List.mem_of_mem_drop hl)
  noStale := by
    intro pre b mid z post e
    exact h.noStale (lines.take n ++ pre) b mid z post (by
      conv => lhs; rw [← List.take_append_drop n lines, e]
      simp)

theorem singleSpaced_left {a w : Str} (h : SingleSpacedRefs (a ++ w)) : SingleSpacedRefs a := by
  intro x b c e
  exact h x b (c ++ w) (by rw [e]; simp)

theorem raw_cons (d : Tag) (r : Tags) : raw ⟨d :: r.data, r.remainder⟩ = tagRaw d ++ raw r := by
  simp [raw]

theorem notEscape_sep {n s : Str} (hs : Separator s) : ∀ c ∈ (n ++ s).getLast?, c ≠ '\\' ∧ c ≠ '%' := by
  obtain ⟨a, b, rfl, _, hb⟩ := hs
  intro c hc
  rw [List.getLast?_append] at hc
  have hc : (a ++ ':' :: b).getLast? = some c := by
    cases h : (a ++ ':' :: b).getLast? with
    | none => simp at h
    | some d => rw [h] at hc; simpa using hc
  rw [List.getLast?_append] at hc
  cases b with
  | nil => simp at hc; subst hc; decide
  | cons x xs =>
    have hm : c ∈ ':' :: x :: xs := by
      simp only [List.getLast?_cons_cons] at hc
      cases h : (x :: xs).getLast? with
      | none => simp at h
      | some d =>
        rw [h] at hc; simp at hc; subst hc
        exact List.mem_cons_of_mem _ (List.mem_of_getLast? h)
    simp only [List.mem_cons] at hm
    rcases hm with rfl | hm
    · decide
    · have := hb c (by simpa using hm)
      constructor <;> (rintro rfl; revert this; decide)

theorem parseLoop_raw [Uni] {names : List Str} (hN : IsTagNames names) (ls : List (Str × Bool))
    (buffer : List Str) (tags : Tags) (hb : ∀ l ∈ buffer, '\n' ∉ l)
    (hc : CleanTagLines (ls.map (·.1))) (h : parseLoop names buffer 0 ls = .ok tags) :
    raw tags = buffer ++ ls.map (·.1) := by
  induction hn : ls.length using Nat.strongRecOn generalizing ls buffer tags with
  | ind n ih =>
    cases ls with
    | nil => simp [parseLoop] at h; subst h; simp [raw]
    | cons l ls =>
      simp only [List.map_cons, List.length_cons] at hc hn
      have hl : '\n' ∉ l.1 := hc.noNl _ (by simp)
      obtain ⟨e1, e2, e3, e4⟩ := splitTrailing_line hl
      unfold parseLoop at h
      generalize hs : splitTrailing l.1 = s at e1 e2 e3 e4 h
      obtain ⟨s1, s2⟩ := s
      simp only at e1 e2 e3 e4 h
      have hss : SingleSpacedRefs s1 := singleSpaced_left (by rw [← e1]; exact hc.singleSpaced _ (by simp))
      have hs1 : '\n' ∉ s1 := fun hx => hl (by rw [e1]; simp [hx])
      split at h
      · simp at h
      · rename_i c hcond
        have hc0 := Props.C46_split_conditional_partial hss hcond
        obtain ⟨hbody, hall⟩ := Utils.splitConditional_newline hcond hs1
        have hcl : CleanTagLines (ls.map (·.1)) := cleanTagLines_drop hc 1
        split at h
        · have := ih ls.length (by omega) ls _ tags (by
            intro x hx
            simp only [List.mem_append, List.mem_singleton] at hx
            rcases hx with hx | rfl
            · exact hb x hx
            · rw [hc0, ← e1]; exact hl) hcl h rfl
          rw [this, hc0, ← e1]
          simp
        · rename_i t ht
          obtain ⟨nm, sp, v, eb, hname, hsep, hv, g1, g2, g3⟩ := tagMatch_inv hN ht hbody
          rw [g1, g2, g3] at h
          simp only [Option.getD_some] at h
          split at h
          · simp at h
          · rename_i rest hrest
            simp only [Except.ok.injEq] at h
            subst h
            rw [raw_cons]
            rw [parseLoop_skip] at hrest
            have hcl2 := hcl
            have key : ∃ k, k ≤ ls.length ∧
                k = (if c.sfx.isEmpty = true then takeValue v s2 ls else (v, s2, 0)).2.2 ∧
                c.pfx ++ nm ++ sp ++ (if c.sfx.isEmpty = true then takeValue v s2 ls else (v, s2, 0)).1 ++
                  (c.sfx ++ (if c.sfx.isEmpty = true then takeValue v s2 ls else (v, s2, 0)).2.1) =
                joinC '\n' (l.1 :: (ls.take k).map (·.1)) := by
              refine ⟨_, ?_, rfl, ?_⟩
              · split
                · rename_i hsfx
                  rw [List.isEmpty_iff] at hsfx
                  rcases Props.C46_split_conditional_shape hcond with ⟨p1, p2, p3⟩ | ⟨_, _, _, p2, _⟩
                  · exact (takeValue_spec ls v s2 e2 (fun x hx => hc.noNl _ (by
                      simp only [List.mem_cons, List.mem_map]; exact .inr ⟨x, hx, rfl⟩)) (by
                      intro mid z post h1 h2 h3
                      have ej : joinC '\n' (l.1 :: mid) = nm ++ sp ++ joinC '\n' ((v ++ s2) :: mid) := by
                        rw [e1, ← p3, eb]
                        rw [List.append_assoc, joinC_prefix]
                      refine hc.noStale [] l.1 mid z post (by simp [h1]) ?_ ?_ ?_
                      · obtain ⟨a, b, rfl, _⟩ := hsep
                        rw [e1, ← p3, eb]; simp
                      · rw [← open_iff, ej]
                        exact open_suffix (notEscape_sep hsep) h2
                      · rw [ej]
                        obtain ⟨x, hx, hx2⟩ := h3
                        refine ⟨x, ?_, hx2⟩
                        rw [List.getLast?_append, hx]; rfl)).1
                  · rw [hsfx] at p2; simp at p2
                · exact Nat.zero_le _
              · split
                · rename_i hsfx
                  rw [List.isEmpty_iff] at hsfx
                  rcases Props.C46_split_conditional_shape hcond with ⟨p1, p2, p3⟩ | ⟨_, _, _, p2, _⟩
                  · have := (takeValue_spec ls v s2 e2 (fun x hx => hc.noNl _ (by
                      simp only [List.mem_cons, List.mem_map]; exact .inr ⟨x, hx, rfl⟩)) (by
                      intro mid z post h1 h2 h3
                      have ej : joinC '\n' (l.1 :: mid) = nm ++ sp ++ joinC '\n' ((v ++ s2) :: mid) := by
                        rw [e1, ← p3, eb]
                        rw [List.append_assoc, joinC_prefix]
                      refine hc.noStale [] l.1 mid z post (by simp [h1]) ?_ ?_ ?_
                      · obtain ⟨a, b, rfl, _⟩ := hsep
                        rw [e1, ← p3, eb]; simp
                      · rw [← open_iff, ej]
                        exact open_suffix (notEscape_sep hsep) h2
                      · rw [ej]
                        obtain ⟨x, hx, hx2⟩ := h3
                        refine ⟨x, ?_, hx2⟩
                        rw [List.getLast?_append, hx]; rfl)).2
                    rw [p1, hsfx]
                    simp only [List.nil_append]
                    rw [List.append_assoc, this, e1, ← p3, eb]
                    rw [List.append_assoc (nm ++ sp), joinC_prefix '\n' (nm ++ sp)]
                  · rw [hsfx] at p2; simp at p2
                · simp only [List.take_zero, List.map_nil, joinC_one]
                  rw [e1, ← hc0, eb]
                  simp
            obtain ⟨k, hk1, hk2, hk3⟩ := key
            rw [← hk2] at hrest
            have hr := ih (ls.drop k).length (by simp; omega) (ls.drop k) [] rest (by simp)
              (by rw [List.map_drop]; exact cleanTagLines_drop hcl k) hrest rfl
            rw [hr, tagRaw, comments_raw hb, tagText]
            simp only
            rw [hk3, splitC_joinC (by simp) (by
              intro x hx
              simp only [List.mem_cons, List.mem_map] at hx
              rcases hx with rfl | ⟨y, hy, rfl⟩
              · exact hl
              · exact hc.noNl _ (by
                  simp only [List.mem_cons, List.mem_map]; exact .inr ⟨y, List.mem_of_mem_take hy, rfl⟩))]
            simp only [List.nil_append, List.map_cons, List.append_assoc, List.cons_append, ← List.map_append,
              List.take_append_drop]

end Tags
end Specfile
