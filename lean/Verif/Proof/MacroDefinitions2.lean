import Verif.Proof.MacroDefinitions
import Verif.Props.Utils
import Verif.Spec.Definitions
/-
Lines consumed by a definition are reproduced by it.
-/
namespace Specfile
open Py Regex Spec
namespace MacroDefinitions

theorem endsWith_singleton {s : Str} {c : Char} : endsWith s [c] = true ↔ s.getLast? = some c := by
  unfold endsWith
  rw [List.isSuffixOf_iff_suffix, List.getLast?_eq_some_iff]
  constructor
  · rintro ⟨a, rfl⟩; exact ⟨a, rfl⟩
  · rintro ⟨a, rfl⟩; exact ⟨a, rfl⟩

/-- the text in front of the keyword is reproduced -/
theorem build_head [Uni] {t : St Nat} (p : LineParts t) (valid : Bool)
    (buffer : List Str) (rest : List (Str × Bool))
    (hd : ¬ (p.dnl ≠ [] ∧ '#' ∈ p.g3 ∧ s% "%%" <:+ p.g3)) :
    (build t valid buffer rest).1.head = p.g1 ++ p.dnl ++ p.g3 ++ p.g4 ++ p.g5 ++ p.g6 ++ p.g7 := by
  have e4 : (if p.g4 == s% "global" then s% "global" else s% "define") = p.g4 := by
    rcases p.kw with h | h <;> rw [h] <;> rfl
  have key : (build t valid buffer rest).1.dnlStr ++ (build t valid buffer rest).1.pfx ++
      (build t valid buffer rest).1.scStr = p.dnl ++ p.g3 := by
    simp only [MacroDefinition.dnlStr, MacroDefinition.scStr, build, p.get3, Option.getD_some]
    rcases p.shape3 with ⟨h1, q, h2, _⟩ | ⟨h1, h2⟩
    · have g2 : (t.get 2).isSome = true ∧ p.dnl = s% "%dnl" := by
        rcases p.get2 with ⟨a, _⟩ | ⟨a, b⟩
        · exact absurd a h1
        · rw [b]; exact ⟨rfl, a⟩
      have nh : endsWith p.g3 ['#'] = false := by
        rw [Bool.eq_false_iff, ne_eq, endsWith_singleton, h2]; simp
      have ne : (decide (p.g3.length > 1) && endsWith p.g3 (s% "%%") && p.g3.contains '#') = false := by
        rw [Bool.eq_false_iff]
        intro hc
        simp only [Bool.and_eq_true, decide_eq_true_eq] at hc
        apply hd
        refine ⟨h1, by simpa using hc.2, ?_⟩
        have := hc.1.2
        unfold endsWith at this
        rwa [List.isSuffixOf_iff_suffix] at this
      have hpf : (if p.g3.length > 1 then p.g3.dropLast else []) ++ ['%'] = p.g3 := by
        rw [h2]
        cases q with
        | nil => rfl
        | cons c cs => rw [if_pos (by simp), List.dropLast_concat]
      simp only [g2.1, nh, ne, g2.2]
      simpa using hpf
    · have g2 : (t.get 2).isSome = false := by
        rcases p.get2 with ⟨_, b⟩ | ⟨a, b⟩
        · rw [b]; rfl
        · rw [h1] at a; simp at a
      rcases h2 with h2 | h2 | ⟨q, h2, _⟩
      · simp [g2, h2, h1, endsWith, List.isSuffixOf]
      · simp [g2, h2, h1, endsWith, List.isSuffixOf]
      · have nh : endsWith p.g3 ['#'] = false := by
          rw [Bool.eq_false_iff, ne_eq, endsWith_singleton, h2]
          rw [← List.cons_append, List.getLast?_append]; simp
        simp only [g2, nh, h1]
        have hl : p.g3.length > 1 := by rw [h2]; simp
        have hdl : p.g3.dropLast ++ ['%'] = p.g3 := by
          rw [h2, ← List.cons_append, List.dropLast_concat]
        by_cases he : (decide (p.g3.length > 1) && endsWith p.g3 (s% "%%") && p.g3.contains '#') = true
        · simp only [he]; simp [hl, hdl]
        · simp only [he]; simp [hl, hdl]
  unfold MacroDefinition.head
  have : (build t valid buffer rest).1.ws0 = p.g1 := by simp [build, p.get1]
  rw [this]
  have hk : (build t valid buffer rest).1.kwStr = p.g4 := by
    simpa [MacroDefinition.kwStr, build, p.get4] using e4
  have h5 : (build t valid buffer rest).1.ws1 = p.g5 := by simp [build, p.get5]
  have h6 : (build t valid buffer rest).1.name = p.g6 := by simp [build, p.get6]
  have h7 : (build t valid buffer rest).1.ws2 = p.g7 := by simp [build, p.get7]
  rw [hk, h5, h6, h7]
  have := congrArg (fun x => p.g1 ++ x ++ p.g4 ++ p.g5 ++ p.g6 ++ p.g7) key
  simpa using this

/-- does the definition look at further lines? -/
def continues (t : St Nat) : Bool :=
  !(t.get 2).isSome && !(decide (((t.get 3).getD []).length > 1) && endsWith ((t.get 3).getD []) (s% "%%")) &&
    !endsWith ((t.get 3).getD []) ['#']

/-- the part of the body found on the first line -/
def body0 (t : St Nat) : Str :=
  if continues t && (t.get 9).getD [] == ['\\'] then (t.get 8).getD [] ++ (t.get 9).getD []
  else (t.get 8).getD []

/-- the whitespace found at the end of the first line -/
def ws0 (t : St Nat) : Str :=
  if continues t && (t.get 9).getD [] == ['\\'] then [] else (t.get 9).getD []

/-- the whole body and the number of further lines -/
def full (t : St Nat) (rest : List (Str × Bool)) : Str × Nat :=
  if continues t then takeBody (body0 t) rest else (body0 t, 0)

theorem build_body (t : St Nat) (valid : Bool) (buffer : List Str) (rest : List (Str × Bool)) :
    (build t valid buffer rest).1.body = (splitTrailing (full t rest).1).1 ∧
    (build t valid buffer rest).1.ws3 = (splitTrailing (full t rest).1).2 ++ ws0 t ∧
    (build t valid buffer rest).1.preceding = buffer ∧
    (build t valid buffer rest).2 = (full t rest).2 := ⟨rfl, rfl, rfl, rfl⟩

theorem body0_ws0 (t : St Nat) : body0 t ++ ws0 t = (t.get 8).getD [] ++ (t.get 9).getD [] := by
  unfold body0 ws0; split <;> simp

theorem full_spec (t : St Nat) (rest : List (Str × Bool)) :
    (full t rest).2 ≤ rest.length ∧
    (full t rest).1 = joinC '\n' (body0 t :: (rest.take (full t rest).2).map (·.1)) := by
  unfold full
  split
  · exact takeBody_spec _ _
  · simp

theorem raw_eq (m : MacroDefinition) : ∃ b bs, splitC '\n' (m.body ++ m.ws3) = b :: bs ∧
    m.raw = m.preceding ++ (m.head ++ b) :: bs := by
  unfold MacroDefinition.raw
  cases h : splitC '\n' (m.body ++ m.ws3) with
  | nil => exact absurd h (splitC_ne_nil _ _)
  | cons b bs => exact ⟨b, bs, rfl, rfl⟩

theorem getLast_notEscape {a b : Str} (hb : b ≠ []) (h : b.all isSpace = true) :
    ∀ c ∈ (a ++ b).getLast?, c ≠ '\\' ∧ c ≠ '%' := by
  intro c hc
  have hm : c ∈ b := by
    rw [List.getLast?_append] at hc
    cases e : b.getLast? with
    | none => rw [List.getLast?_eq_none_iff] at e; exact absurd e hb
    | some d =>
      rw [e] at hc
      simp at hc
      subst hc
      exact List.mem_of_getLast? e
  rw [List.all_eq_true] at h
  have := h c hm
  constructor <;> (rintro rfl; revert this; decide)

/-- Lines consumed by a definition are reproduced by it. -/
theorem build_raw [Uni] {line : Str} {t : St Nat} {valid : Bool}
    {buffer : List Str} {rest : List (Str × Bool)} (ht : rmatch mdRe line = some t)
    (hc : CleanLines (line :: rest.map (·.1))) :
    (build t valid buffer rest).2 ≤ rest.length ∧
    (build t valid buffer rest).1.raw =
      buffer ++ line :: (rest.take (build t valid buffer rest).2).map (·.1) := by
  obtain ⟨p, pline⟩ := mdRe_inv ht
  have hnl : '\n' ∉ line := hc.noNl line (by simp)
  have hr : p.r = [] := by
    rcases p.r_eq with h | h
    · exact h
    · exfalso; apply hnl; rw [pline, h]; simp
  have hline : line = p.g1 ++ p.dnl ++ p.g3 ++ p.g4 ++ p.g5 ++ p.g6 ++ p.g7 ++ (p.g8 ++ p.g9) := by
    have := pline
    rw [hr] at this
    simpa using this
  have hhead := build_head p valid buffer rest (by
    rintro ⟨h1, h2, h3⟩
    have hd : p.dnl = s% "%dnl" := by
      rcases p.get2 with ⟨a, _⟩ | ⟨a, _⟩
      · exact absurd a h1
      · exact a
    apply hc.noDnlHash line (by simp)
    refine ⟨⟨p.g1, p.g3 ++ p.g4 ++ p.g5 ++ p.g6 ++ p.g7 ++ (p.g8 ++ p.g9), ?_⟩, ?_, ?_⟩
    · rw [← hd]; conv => rhs; rw [hline]
      simp
    · rw [hline]; simp [h2]
    · obtain ⟨x, hx⟩ := h3
      refine ⟨p.g1 ++ p.dnl ++ x, p.g4 ++ p.g5 ++ p.g6 ++ p.g7 ++ (p.g8 ++ p.g9), ?_⟩
      conv => rhs; rw [hline, ← hx]
      simp)
  obtain ⟨hb, hw, hp, hn⟩ := build_body t valid buffer rest
  obtain ⟨hle, hf⟩ := full_spec t rest
  refine ⟨by rw [hn]; exact hle, ?_⟩
  obtain ⟨b, bs, hs, hraw⟩ := raw_eq (build t valid buffer rest).1
  rw [hraw, hp, hhead, hn]
  have e89 : body0 t ++ ws0 t = p.g8 ++ p.g9 := by
    rw [body0_ws0, p.get8, p.get9]; rfl
  have nl89 : '\n' ∉ body0 t ++ ws0 t := by
    rw [e89]; intro h; apply hnl; rw [hline]; simp at h; simp [h]
  suffices hh : (build t valid buffer rest).1.body ++ (build t valid buffer rest).1.ws3 =
      joinC '\n' ((p.g8 ++ p.g9) :: (rest.take (full t rest).2).map (·.1)) by
    rw [hh, splitC_joinC (by simp)] at hs
    · simp only [List.cons.injEq] at hs
      obtain ⟨rfl, rfl⟩ := hs
      rw [hline]
    · intro s hs
      simp only [List.mem_cons, List.mem_map] at hs
      rcases hs with rfl | ⟨x, hx, rfl⟩
      · rw [← e89]; exact nl89
      · exact hc.noNl _ (by
          simp only [List.mem_cons, List.mem_map]; right
          exact ⟨x, List.mem_of_mem_take hx, rfl⟩)
  rw [hb, hw, ← List.append_assoc]
  obtain ⟨hsp, hspl⟩ := splitTrailing_spec (full t rest).1
  by_cases hz : (full t rest).2 = 0
  · rw [hz] at hf
    simp only [List.take_zero, List.map_nil, joinC_one] at hf
    rw [hz]
    simp only [List.take_zero, List.map_nil, joinC_one]
    rw [← e89]
    rcases hspl with h | ⟨h, _⟩
    · rw [← h, hf]
    · exfalso
      rw [hf] at h
      apply nl89
      rw [h]; simp
  · -- at least one further line
    have hcont : continues t = true := by
      cases h : continues t with
      | true => rfl
      | false => simp [full, h] at hz
    have hfull : full t rest = takeBody (body0 t) rest := by simp [full, hcont]
    have hopen : open_ (body0 t) = true := by
      have := takeBody_open (body0 t) rest 0 (by rw [← hfull]; omega)
      simpa using this
    -- the line mentions a definition
    have hment : MentionsDefinition line := by
      have h2 : p.dnl = [] := by
        rcases p.get2 with ⟨a, _⟩ | ⟨_, b⟩
        · exact a
        · rw [continues, b] at hcont; simp at hcont
      have h3 : ∃ q, p.g3 = q ++ ['%'] := by
        rcases p.shape3 with ⟨h, _⟩ | ⟨_, h | h | ⟨q, h, _⟩⟩
        · exact absurd h2 h
        · exact ⟨[], h⟩
        · simp [continues, p.get3, h, endsWith, List.isSuffixOf] at hcont
        · exact ⟨'#' :: q, h⟩
      obtain ⟨q, hq⟩ := h3
      rcases p.kw with h | h
      · left
        refine ⟨p.g1 ++ q, p.g5 ++ p.g6 ++ p.g7 ++ (p.g8 ++ p.g9), ?_⟩
        conv => rhs; rw [hline, hq, h, h2]
        simp
      · right
        refine ⟨p.g1 ++ q, p.g5 ++ p.g6 ++ p.g7 ++ (p.g8 ++ p.g9), ?_⟩
        conv => rhs; rw [hline, hq, h, h2]
        simp
    -- so it does not end in whitespace
    have hnob : ∀ x w, line = x ++ w → w.all isSpace = true → x = p.g1 ++ p.dnl ++ p.g3 ++ p.g4 ++ p.g5 ++ p.g6 ++ p.g7 ++ body0 t → w = [] := by
      intro x w hxw hws hx
      cases Classical.em (w = []) with
      | inl h => exact h
      | inr hwne =>
      exfalso
      obtain ⟨l1, l2, l3⟩ := hc.noOpenBlank line (by simp) hment x w hxw hwne hws
      have hcount : Utils.countBrackets line = (0, 0) := (Props.C48_count_brackets line 0 0).2 ⟨l1, l2⟩
      rw [hxw, countBrackets_spaces x w hws, hx] at hcount
      have := countBrackets_suffix (p.g1 ++ p.dnl ++ p.g3 ++ p.g4 ++ p.g5 ++ p.g6 ++ p.g7) (body0 t)
        (getLast_notEscape p.ne7 p.sp7)
      rw [hcount] at this
      unfold open_ at hopen
      simp only [Bool.or_eq_true, decide_eq_true_eq, endsWith_singleton] at hopen
      rcases hopen with (h | h) | h
      · omega
      · omega
      · apply l3
        rw [hx, List.getLast?_append, h]; rfl
    have hws0 : ws0 t = [] := by
      apply hnob (p.g1 ++ p.dnl ++ p.g3 ++ p.g4 ++ p.g5 ++ p.g6 ++ p.g7 ++ body0 t) (ws0 t)
      · rw [hline, ← e89]; simp
      · unfold ws0
        split
        · rfl
        · rename_i h
          rw [p.get9]
          rcases p.end9 with h9 | h9
          · exact h9
          · exfalso; apply h; simp [hcont, p.get9, h9]
      · rfl
    rw [← e89, hws0, List.append_nil, List.append_nil, ← hf]
    rcases hspl with h | ⟨h, hne⟩
    · exact h.symm
    · exfalso
      generalize hB : (splitTrailing (full t rest).1).1 = B at h
      generalize hW : (splitTrailing (full t rest).1).2 = W at h hne hsp
      have hWs : W.all isSpace = true := by
        rw [List.all_eq_true] at hsp ⊢
        intro c hc
        have := hsp c hc
        simp [inlineSpace] at this
        exact this.1
      -- the last line consumed is empty
      obtain ⟨n, hn'⟩ : ∃ n, (full t rest).2 = n + 1 := ⟨(full t rest).2 - 1, by omega⟩
      have hnlt : n < rest.length := by omega
      have htake : rest.take (n + 1) = rest.take n ++ [rest[n]] := List.take_succ_eq_append_getElem hnlt
      have hj : (full t rest).1 = joinC '\n' (body0 t :: (rest.take n).map (·.1)) ++ '\n' :: rest[n].1 := by
        rw [hf, hn', htake, List.map_append, ← List.cons_append, joinC_append _ (by simp) (by simp)]
        simp
      have hnl_last : '\n' ∉ rest[n].1 := hc.noNl _ (by
        simp only [List.mem_cons, List.mem_map]; right
        exact ⟨rest[n], List.getElem_mem hnlt, rfl⟩)
      have hlast : rest[n].1 = [] := by
        cases hq : rest[n].1.reverse with
        | nil => simpa using hq
        | cons c cs =>
          have e : rest[n].1 = cs.reverse ++ [c] := by
            have := congrArg List.reverse hq
            simpa using this
          rw [hj, e] at h
          have := congrArg List.getLast? h
          rw [show joinC '\n' (body0 t :: (rest.take n).map (·.1)) ++ '\n' :: (cs.reverse ++ [c]) =
            (joinC '\n' (body0 t :: (rest.take n).map (·.1)) ++ '\n' :: cs.reverse) ++ [c] by simp,
            List.getLast?_concat, List.getLast?_concat] at this
          simp at this
          subst this
          exact absurd (by rw [e]; simp) hnl_last
      have hX : joinC '\n' (body0 t :: (rest.take n).map (·.1)) = B ++ W := by
        rw [hj, hlast] at h
        exact List.append_cancel_right h
      -- brackets are still open
      have hopenX := takeBody_open (body0 t) rest n (by rw [← hfull]; omega)
      rw [hX] at hopenX
      have hstill : open_ (full t rest).1 = true := by
        unfold open_ at hopenX ⊢
        rw [h, countBrackets_spaces _ ['\n'] (by decide)]
        simp only [Bool.or_eq_true, decide_eq_true_eq, endsWith_singleton] at hopenX ⊢
        rcases hopenX with hh | hh
        · exact .inl hh
        · exfalso
          exact (getLast_notEscape (a := B) hne hWs '\\' hh).1 rfl
      have hend : n + 1 = rest.length := by
        cases Nat.lt_or_ge (n + 1) rest.length with
        | inl hlt =>
          have := takeBody_complete (body0 t) rest (by rw [← hfull, hn']; exact hlt)
          rw [← hfull, hstill] at this
          simp at this
        | inr hge => omega
      have hrest : rest = rest.take n ++ [rest[n]] := by
        rw [← htake, hend, List.take_length]
      -- the line before the last one ends in whitespace
      cases hq : (rest.take n).reverse with
      | nil =>
        have hq : rest.take n = [] := by simpa using hq
        rw [hq] at hX
        simp only [List.map_nil, joinC_one] at hX
        apply hne
        apply hc.noLostBlank [] (p.g1 ++ p.dnl ++ p.g3 ++ p.g4 ++ p.g5 ++ p.g6 ++ p.g7 ++ B) W _ hWs
        rw [hrest, hq]
        simp only [List.nil_append, List.map_cons, List.map_nil, hlast, List.cons.injEq, and_true]
        rw [hline, ← e89, hws0, hX]; simp
      | cons y ys =>
        have e : rest.take n = ys.reverse ++ [y] := by
          have := congrArg List.reverse hq
          simpa using this
        have hynl : '\n' ∉ y.1 := hc.noNl _ (by
          simp only [List.mem_cons, List.mem_map]; right
          refine ⟨y, List.mem_of_mem_take (i := n) ?_, rfl⟩
          rw [e]; simp)
        rw [e, List.map_append, ← List.cons_append, joinC_append _ (by simp) (by simp)] at hX
        simp only [List.map_cons, List.map_nil, joinC_one] at hX
        have hy : ∃ a, y.1 = a ++ W := by
          rcases List.append_eq_append_iff.1 hX with ⟨x, h1, h2⟩ | ⟨x, h1, h2⟩
          · cases x with
            | nil =>
              exfalso
              simp at h2
              rw [← h2] at hsp
              simp [inlineSpace] at hsp
            | cons d ds =>
              simp only [List.cons_append, List.cons.injEq] at h2
              exact ⟨ds, h2.2⟩
          · exfalso
            rw [h2, List.all_append, List.all_cons] at hsp
            simp [inlineSpace] at hsp
        obtain ⟨a, ha⟩ := hy
        apply hne
        apply hc.noLostBlank (line :: ys.reverse.map (·.1)) a W _ hWs
        rw [hrest, e]
        simp [hlast, ha]

theorem cleanLines_tail {l : Str} {ls : List Str} (h : CleanLines (l :: ls)) : CleanLines ls :=
  ⟨fun x hx => h.noNl x (by simp [hx]), fun x hx => h.noDnlHash x (by simp [hx]),
   fun x hx => h.noOpenBlank x (by simp [hx]), fun pre a w e => h.noLostBlank (l :: pre) a w (by simp [e])⟩

theorem cleanLines_drop {ls : List Str} (n : Nat) (h : CleanLines ls) : CleanLines (ls.drop n) := by
  induction n generalizing ls with
  | zero => simpa using h
  | succ n ih =>
    cases ls with
    | nil => simpa using h
    | cons l ls => simpa using ih (cleanLines_tail h)

theorem parseLoop_skip [Uni] (buffer : List Str) (n : Nat) (ls : List (Str × Bool)) :
    parseLoop buffer n ls = parseLoop buffer 0 (ls.drop n) := by
  induction n generalizing ls with
  | zero => rfl
  | succ n ih =>
    cases ls with
    | nil => simp [parseLoop]
    | cons l ls => simp only [parseLoop, List.drop_succ_cons]; exact ih ls

theorem raw_cons (d : MacroDefinition) (r : MacroDefinitions) :
    raw ⟨d :: r.data, r.remainder⟩ = d.raw ++ raw r := by
  simp [raw]

theorem parseLoop_raw [Uni] (ls : List (Str × Bool)) (buffer : List Str)
    (hc : CleanLines (ls.map (·.1))) : raw (parseLoop buffer 0 ls) = buffer ++ ls.map (·.1) := by
  induction hn : ls.length using Nat.strongRecOn generalizing ls buffer with
  | ind n ih =>
    cases ls with
    | nil => simp [parseLoop, raw]
    | cons l ls =>
      simp only [parseLoop]
      split
      · rw [ih ls.length (by simp at hn; omega) ls _ (cleanLines_tail hc) rfl]; simp
      · rename_i t ht
        obtain ⟨h1, h2⟩ := build_raw (valid := l.2) (buffer := buffer) (rest := ls) ht hc
        rw [raw_cons, parseLoop_skip, ih _ _ (ls.drop _) [] _ rfl, h2]
        · simp only [List.nil_append, List.append_assoc, List.cons_append, List.map_cons]
          rw [← List.map_append, List.take_append_drop]
        · simp at hn ⊢; omega
        · rw [List.map_drop]; exact cleanLines_drop _ (cleanLines_tail hc)

end MacroDefinitions
end Specfile
