import Verif.Props.History4
/-
C102: sequences of calls of add_changelog_entry on a spec file with any number of changelogs.
-/
namespace Specfile.Props
open Py Spec Update Ops

section
variable [Uni] {W : World}

/-- a section after the calls: changelogs have the additions, others are as they were -/
def grown (cs : List Call) (s : Section) : Section :=
  if Sections.normalizedId s = s% "changelog" then { s with data := addAll s.data (cs.map Call.addition) } else s

theorem grown_id (cs : List Call) (s : Section) : Sections.normalizedId (grown cs s) = Sections.normalizedId s := by
  unfold grown
  split <;> rfl

theorem grown_nil (s : Section) : grown [] s = s := by
  unfold grown
  split <;> rfl

theorem grown_cons (c : Call) (cs : List Call) (s : Section) : grown (c :: cs) s = grown cs (grown [c] s) := by
  by_cases h : Sections.normalizedId s = s% "changelog"
  · have e : grown [c] s = { s with data := addAll s.data [c.addition] } := by rw [grown, if_pos h]; rfl
    have h' : Sections.normalizedId (grown [c] s) = s% "changelog" := by rw [grown_id]; exact h
    rw [grown, if_pos h, grown, if_pos h', e]
    rfl
  · rw [grown, if_neg h, grown, if_neg (by rw [grown_id]; exact h), grown, if_neg h]

theorem grown_map (c : Call) (cs : List Call) (ss : Sections) :
    ss.map (grown (c :: cs)) = (ss.map (grown [c])).map (grown cs) := by
  rw [List.map_map]
  exact List.map_congr_left (fun s _ => grown_cons c cs s)

/-- the text after the calls `p` can be read, no changelog uses `%autochangelog`, and the EVR of the next call `c`, which is
expanded for each changelog, expands to its label -/
structure AllReady (env : List Str → Env) (ss : Sections) (p : List Call) (c : Call) : Prop where
  email : c.email = none
  headers : HeadersOutside (Sections.raw (ss.map (grown p)))
  plain : ∀ s ∈ ss, Sections.normalizedId s = s% "changelog" → ∀ l ∈ (grown p s).data, OneLine l ∧ ¬ HeaderLine l
  free : ∀ s ∈ ss, Sections.normalizedId s = s% "changelog" → FreeOfAutochangelog (grown p s).data
  label : (env (Sections.raw (ss.map (grown p)))).expand c.evr = .ok c.label
  fixed : (env (Sections.raw (ss.map (grown p)))).expand c.label = .ok c.label

theorem good_grown {ss : Sections} (h : GoodSections ss) (cs : List Call)
    (hp : ∀ s ∈ ss, Sections.normalizedId s = s% "changelog" → ∀ l ∈ (grown cs s).data, OneLine l ∧ ¬ HeaderLine l) :
    GoodSections (ss.map (grown cs)) := by
  have h0 : ∀ data, Sections.normalizedId (preambleOf data) ≠ s% "changelog" := by
    intro data
    rw [Sections.preamble_id]
    decide
  obtain ⟨d, rest, rfl, h1, h2⟩ := h
  refine ⟨d, rest.map (grown cs), ?_, h1, ?_⟩
  · rw [List.map_cons, grown, if_neg (h0 d)]
  · intro s hs
    obtain ⟨x, hx, rfl⟩ := List.mem_map.1 hs
    by_cases hc : Sections.normalizedId x = s% "changelog"
    · have hq := hp x (by simp [hx]) hc
      have hg := h2 x hx
      rw [grown, if_pos hc] at hq ⊢
      exact { hg with data := hq }
    · rw [grown, if_neg hc]
      exact h2 x hx

theorem addLoop_all {env : Env} {c : Call} (he : c.email = none) (hf : env.expand c.label = .ok c.label) (ss : Sections) :
    ∀ e0, env.expand e0 = .ok c.label → (∀ s ∈ ss, Sections.normalizedId s = s% "changelog" → FreeOfAutochangelog s.data) →
    addLoop env c.entry ⟨some c.author, none, some c.stamp, some e0⟩ ss = (ss.map (grown [c]), .ok ()) := by
  induction ss with
  | nil => intro _ _ _; rfl
  | cons s ss ih =>
    intro e0 h0 hs
    by_cases hc : Sections.normalizedId s = s% "changelog"
    · have hto : addTo env c.entry ⟨some c.author, none, some c.stamp, some e0⟩ (Changelog.parse s.data) =
          (Changelog.add (Changelog.parse s.data) c.addition.stamp c.addition.author c.addition.content c.addition.evr,
            .ok ⟨some c.author, none, some c.stamp, some c.label⟩) := by
        unfold addTo
        simp [h0, authorOf, Call.addition, he, Changelog.newTimestamp]
      rw [addLoop, if_pos ((isChangelog_iff s).2 hc), (C51_no_autochangelog _).2 (hs s (by simp) hc)]
      simp only [hto, ih c.label hf (fun x hx => hs x (by simp [hx]))]
      rw [List.map_cons, grown, if_pos hc]
      rfl
    · have hx : isChangelog s ≠ true := fun h => hc ((isChangelog_iff s).1 h)
      rw [addLoop, if_neg hx, ih e0 h0 (fun x hx => hs x (by simp [hx]))]
      rw [List.map_cons, grown, if_neg hc]

/-- C102 for spec files with any number of changelogs: calls without e-mail do not raise, and the text is the one of the
sections with the additions in every changelog and everything else as it was; what the changelogs then contain is
`C102_entries_partial`. Missing: e-mail addresses, which are written once for each changelog (`C76_email_violation`). -/
theorem C102_all_partial {env : List Str → Env} (calls : List Call) : ∀ {ss : Sections}, GoodSections ss → (∀ p c q, calls = p ++ c :: q → AllReady env ss p c) →
    addCalls W env calls (Sections.raw ss) = (Sections.raw (ss.map (grown calls)), .ok ()) := by
  induction calls with
  | nil =>
    intro ss _ _
    rw [List.map_congr_left (fun s _ => grown_nil s), List.map_id']
    rfl
  | cons c cs ih =>
    intro ss hg hr
    obtain ⟨r0, r1, r2, r3, r4, r5⟩ := hr [] c cs rfl
    have e0 : ss.map (grown []) = ss := by rw [List.map_congr_left (fun s _ => grown_nil s), List.map_id']
    rw [e0] at r1 r4 r5
    simp only [grown_nil] at r2 r3
    have hone : addChangelogEntry W env c.entry c.args (Sections.raw ss) = (Sections.raw (ss.map (grown [c])), .ok ()) := by
      unfold addChangelogEntry withSections
      rw [C19_read_back _ _ hg r1, Call.args, r0]
      simp only [addLoop_all r0 r5 ss c.evr r4 r3]
    rw [addCalls, hone, grown_map c cs]
    cases cs with
    | nil =>
      rw [List.map_congr_left (fun s _ => grown_nil s), List.map_id']
      rfl
    | cons c' cs =>
      have hr1 := hr [c] c' cs rfl
      refine ih (good_grown hg [c] hr1.plain) ?_
      intro p d q hq
      have h := hr (c :: p) d q (by rw [hq]; rfl)
      refine ⟨h.email, ?_, ?_, ?_, ?_, ?_⟩
      · rw [← grown_map]; exact h.headers
      · intro s hs hc
        obtain ⟨x, hx, rfl⟩ := List.mem_map.1 hs
        rw [grown_id] at hc
        rw [← grown_cons]
        exact h.plain x hx hc
      · intro s hs hc
        obtain ⟨x, hx, rfl⟩ := List.mem_map.1 hs
        rw [grown_id] at hc
        rw [← grown_cons]
        exact h.free x hx hc
      · rw [← grown_map]; exact h.label
      · rw [← grown_map]; exact h.fixed

end

section
attribute [local instance] asciiUni

/-- calls without e-mail -/
def plainCalls : List Call :=
  [⟨[s% "- one"], s% "A", none, ⟨1, 1, 6, 2024, none⟩, s% "1-2", s% "1-2"⟩,
    ⟨[s% "- two"], s% "C", none, ⟨2, 1, 7, 2024, none⟩, s% "1-3", s% "1-3"⟩]

/-- the sections of a spec file with two changelogs -/
def twoLogs : Sections :=
  [preambleOf [s% "Name: a"], fileChangelog, filePrep, ⟨s% "changelog", ⟨[], [], []⟩, [], ['\n'], []⟩]

example : addCalls sampleWorld sampleEnv plainCalls (Sections.raw twoLogs) =
    ([s% "Name: a", s% "%changelog", s% "* Wed Feb 07 2024 C - 1-3", s% "- two", [], s% "* Tue Feb 06 2024 A - 1-2",
      s% "- one", [], s% "* Mon Jan 01 2024 B - 1-1", s% "- old", s% "%prep", s% "%changelog",
      s% "* Wed Feb 07 2024 C - 1-3", s% "- two", [], s% "* Tue Feb 06 2024 A - 1-2", s% "- one"], .ok ()) := by
  decide +kernel

/-- the hypotheses of `C102_all_partial` -/
example : GoodSections twoLogs ∧ ∀ p c q, plainCalls = p ++ c :: q → AllReady sampleEnv twoLogs p c := by
  have every : ∀ {p : List Call}, (twoLogs.all fun s => ((grown p s).data.all
      (fun l => l.all (fun c => !isLineBreak c) && !Sections.isHeader l && !l.contains '\n')) &&
      decide (Release.containsAutochangelog (grown p s).data = .ok false)) = true →
      (∀ s ∈ twoLogs, Sections.normalizedId s = s% "changelog" → ∀ l ∈ (grown p s).data, OneLine l ∧ ¬ HeaderLine l) ∧
      (∀ s ∈ twoLogs, Sections.normalizedId s = s% "changelog" → FreeOfAutochangelog (grown p s).data) := by
    intro p h
    constructor
    · intro s hs _
      have := List.all_eq_true.1 h s hs
      rw [Bool.and_eq_true] at this
      exact plain_of_check this.1
    · intro s hs _
      have := List.all_eq_true.1 h s hs
      rw [Bool.and_eq_true, decide_eq_true_eq] at this
      exact (C51_no_autochangelog _).1 this.2
  refine ⟨⟨_, _, rfl, plain_of_check (by decide +kernel), ?_⟩, ?_⟩
  · intro s hs
    have hs : s = fileChangelog ∨ s = filePrep ∨ s = ⟨s% "changelog", ⟨[], [], []⟩, [], ['\n'], []⟩ := by simpa using hs
    obtain rfl | rfl | rfl := hs
    all_goals
      exact bare_good (by decide +kernel) (by simp only [SameLetters]; decide +kernel) (by decide +kernel) (by decide +kernel)
        (by unfold OneLine; decide +kernel) (by decide) (plain_of_check (by decide +kernel))
  · intro p c q hq
    match p with
    | [] =>
      simp only [plainCalls, List.nil_append, List.cons.injEq] at hq
      obtain ⟨rfl, -⟩ := hq
      have := every (p := []) (by decide +kernel)
      exact ⟨rfl, C19_headers_outside _ (by decide +kernel), this.1, this.2, rfl, rfl⟩
    | [d] =>
      simp only [plainCalls, List.cons_append, List.nil_append, List.cons.injEq] at hq
      obtain ⟨rfl, rfl, -⟩ := hq
      have := every (p := [⟨[s% "- one"], s% "A", none, ⟨1, 1, 6, 2024, none⟩, s% "1-2", s% "1-2"⟩]) (by decide +kernel)
      exact ⟨rfl, C19_headers_outside _ (by decide +kernel), this.1, this.2, rfl, rfl⟩
    | _ :: _ :: p => simp [plainCalls] at hq
end

end Specfile.Props
