import Verif.Regex.More
import Verif.Spec.Tags
/-
Helper lemmas about comments.
-/
namespace Specfile.Comments
open Py Regex Spec

theorem spaces_all {w : Str} : w.all isSpace = true ↔ Spaces w := List.all_eq_true

theorem split_spaces (s : Str) : ∃ w r, s = w ++ r ∧ Spaces w ∧ ∀ c ∈ r.head?, isSpace c = false := by
  refine ⟨s.takeWhile isSpace, s.dropWhile isSpace, (List.takeWhile_append_dropWhile).symm,
    spaces_all.1 (takeWhile_all _ _), ?_⟩
  intro c hc
  cases h : s.dropWhile isSpace with
  | nil => rw [h] at hc; simp at hc
  | cons d ds =>
    rw [h] at hc; simp at hc; subst hc
    exact dropWhile_head h

theorem commentRe_match {w1 w2 t : Str} (h1 : Spaces w1) (h2 : Spaces w2)
    (ht : ∀ c ∈ t.head?, isSpace c = false) (hn : '\n' ∉ t) :
    ∃ u : St Nat, rmatch commentRe (w1 ++ '#' :: (w2 ++ t)) = some u ∧
      u.get 1 = some (w1 ++ '#' :: w2) ∧ u.get 2 = some t := by
  refine ⟨⟨t.reverse ++ (w2.reverse ++ '#' :: (w1.reverse ++ [])), [], [(2, t), (1, w1 ++ '#' :: w2)]⟩,
    ?_, by simp [St.get], by simp [St.get]⟩
  unfold rmatch commentRe
  rw [run_bos_cat]
  refine head_grp_around (w1 := w1) (w2 := w2) (r' := t) rfl (spaces_all.2 h1) (spaces_all.2 h2)
    (by decide) ht ?_
  refine head_grp_greedy (w := t) (r' := []) (by simp) ?_ (Nat.zero_le _) (by intro c hc; simp at hc) ?_
  · rw [List.all_eq_true]
    intro c hc
    simp only [dot, bne_iff_ne]
    rintro rfl; exact hn hc
  · simp [run, init]

theorem commentRe_none {l : Str} (h : ¬ CommentLine l) : rmatch commentRe l = none := by
  rw [rmatch_none]
  intro t ht
  apply h
  unfold commentRe at ht
  rw [mem_cat] at ht
  obtain ⟨u, hu, ht⟩ := ht
  rw [mem_bos] at hu
  obtain ⟨rfl, _⟩ := hu
  rw [mem_cat] at ht
  obtain ⟨u, hu, _⟩ := ht
  obtain ⟨w1, w2, r, e, a1, _, _⟩ := mem_grp_around hu
  exact ⟨w1, w2 ++ r, e, spaces_all.1 a1⟩

theorem commentRe_some {l : Str} (h : CommentLine l) (hn : '\n' ∉ l) :
    ∃ (u : St Nat) (c : Comment), rmatch commentRe l = some u ∧ c = ⟨(u.get 2).getD [], (u.get 1).getD []⟩ ∧
      CommentParts c ∧ c.str = l := by
  obtain ⟨w1, t, rfl, h1⟩ := h
  obtain ⟨w2, t, rfl, h2, ht⟩ := split_spaces t
  obtain ⟨u, hu, g1, g2⟩ := commentRe_match h1 h2 ht (fun hm => hn (by simp [hm]))
  refine ⟨u, ⟨t, w1 ++ '#' :: w2⟩, hu, by simp [g1, g2], ⟨⟨w1, w2, rfl, h1, h2⟩, ht⟩, ?_⟩
  simp [Comment.str]

theorem parts_comment {c : Comment} (h : CommentParts c) : CommentLine c.str := by
  obtain ⟨⟨a, b, e, ha, hb⟩, _⟩ := h
  exact ⟨a, b ++ c.text, by simp [Comment.str, e], ha⟩

/-- the parts of a comment are determined by its text -/
theorem parts_unique {c d : Comment} (hc : CommentParts c) (hd : CommentParts d) (h : c.str = d.str) :
    c = d := by
  obtain ⟨⟨a, b, e, ha, hb⟩, ht⟩ := hc
  obtain ⟨⟨a', b', e', ha', hb'⟩, ht'⟩ := hd
  obtain ⟨t, p⟩ := c
  obtain ⟨t', p'⟩ := d
  simp only [Comment.str] at *
  subst e e'
  have k1 := takeWhile_append_of_all (b := '#' :: (b ++ t)) (spaces_all.2 ha)
  have k2 := takeWhile_append_of_all (b := '#' :: (b' ++ t')) (spaces_all.2 ha')
  simp only [List.append_assoc, List.cons_append] at h
  have hh : isSpace '#' = false := by decide
  have g1 : (a ++ '#' :: (b ++ t)).takeWhile isSpace = a := by
    rw [List.takeWhile_append_of_pos (by simpa [Spaces] using ha)]; simp [hh]
  have g2 : (a' ++ '#' :: (b' ++ t')).takeWhile isSpace = a' := by
    rw [List.takeWhile_append_of_pos (by simpa [Spaces] using ha')]; simp [hh]
  have ea : a = a' := by rw [← g1, ← g2, h]
  subst ea
  have h2 : b ++ t = b' ++ t' := by simpa using h
  have nt : ∀ {t : Str}, (∀ x ∈ t.head?, isSpace x = false) → t.takeWhile isSpace = [] := by
    intro t h
    cases t with
    | nil => rfl
    | cons x xs => simp [h x (by simp)]
  have g3 : (b ++ t).takeWhile isSpace = b := by
    rw [List.takeWhile_append_of_pos (by simpa [Spaces] using hb), nt ht]; simp
  have g4 : (b' ++ t').takeWhile isSpace = b' := by
    rw [List.takeWhile_append_of_pos (by simpa [Spaces] using hb'), nt ht']; simp
  have eb : b = b' := by rw [← g3, ← g4, h2]
  subst eb
  have := List.append_cancel_left h2
  subst this
  rfl

/-- once something else has been seen, all remaining lines are preceding lines -/
theorem parseRev_preceding (cs : List Comment) (pre : List Str) (h : pre ≠ []) (ls : List Str) :
    parseRev cs pre ls = ⟨cs, ls.reverse ++ pre⟩ := by
  induction ls generalizing pre with
  | nil => simp [parseRev]
  | cons l ls ih =>
    unfold parseRev
    split
    · rw [ih _ (by simp)]; simp
    · rw [if_pos (by cases pre <;> simp_all), ih _ (by simp)]; simp

theorem parseRev_comments (cs ds : List Comment) (rest : List Str)
    (hn : ∀ c ∈ ds, '\n' ∉ c.str) (hd : ∀ c ∈ ds, CommentParts c) :
    parseRev cs [] (ds.map (·.str) ++ rest) = parseRev (ds.reverse ++ cs) [] rest := by
  induction ds generalizing cs with
  | nil => rfl
  | cons d ds ih =>
    obtain ⟨u, c, hu, hc, hp, hs⟩ := commentRe_some (parts_comment (hd d (by simp))) (hn d (by simp))
    have : c = d := parts_unique hp (hd d (by simp)) hs
    subst this
    rw [List.map_cons, List.cons_append]
    conv => lhs; unfold parseRev
    rw [hu]
    simp only [List.isEmpty_nil, Bool.not_true, Bool.false_eq_true, if_false]
    rw [← hc, ih _ (fun c hc => hn c (by simp [hc])) (fun c hc => hd c (by simp [hc]))]
    simp

/-- the trailing comment lines, with their parts -/
theorem trailing_run (lines : List Str) (hn : ∀ l ∈ lines, '\n' ∉ l) :
    ∃ (pre : List Str) (cs : List Comment), lines = pre ++ cs.map Comment.str ∧ (∀ c ∈ cs, CommentParts c) ∧
      ∀ l ∈ pre.getLast?, ¬ CommentLine l := by
  induction h : lines.length generalizing lines with
  | zero => exact ⟨[], [], by simpa using h, by simp, by simp⟩
  | succ n ih =>
    have hne : lines ≠ [] := by rintro rfl; simp at h
    obtain ⟨a, l, rfl⟩ : ∃ a l, lines = a ++ [l] :=
      ⟨lines.dropLast, lines.getLast hne, (List.dropLast_concat_getLast hne).symm⟩
    rcases Classical.em (CommentLine l) with hl | hl
    · obtain ⟨_, c, _, _, hp, hs⟩ := commentRe_some hl (hn l (by simp))
      obtain ⟨pre, cs, e, h1, h2⟩ := ih a (fun x hx => hn x (by simp [hx])) (by simpa using h)
      refine ⟨pre, cs ++ [c], by rw [e]; simp [hs], ?_, h2⟩
      intro x hx
      simp at hx
      rcases hx with hx | rfl
      · exact h1 x hx
      · exact hp
    · exact ⟨a ++ [l], [], by simp, by simp, by simpa using hl⟩

theorem parse_of_parts {pre : List Str} {cs : List Comment} (hn : ∀ c ∈ cs, '\n' ∉ c.str)
    (h1 : ∀ c ∈ cs, CommentParts c) (h2 : ∀ l ∈ pre.getLast?, ¬ CommentLine l) :
    parse (pre ++ cs.map Comment.str) = ⟨cs, pre⟩ := by
  unfold parse
  rw [List.reverse_append, ← List.map_reverse, parseRev_comments _ _ _ (by simpa using hn) (by simpa using h1)]
  simp only [List.reverse_reverse, List.append_nil]
  rcases List.eq_nil_or_concat pre with rfl | ⟨a, l, rfl⟩
  · rfl
  · have hl := h2 l (by simp)
    rw [List.concat_eq_append] at *
    rw [List.reverse_append]
    simp only [List.reverse_cons, List.reverse_nil, List.nil_append, List.cons_append]
    unfold parseRev
    rw [commentRe_none hl]
    simp only
    rw [parseRev_preceding _ _ (by simp)]
    simp

end Specfile.Comments
