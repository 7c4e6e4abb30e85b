import Verif.Proof.Access3
import Verif.Props.Access
import Verif.Props.Operations2
/-
C39 for `sources()` and `patches()` with the parsers of specfile.
-/
namespace Specfile.Props
open Py Access Spec Update Ops

section
variable [Uni]

instance (names : List Str) (ex : Conditions.Oracle) : DecidableEq (specCodec names ex).Child :=
  inferInstanceAs (DecidableEq Accessor)

instance (names : List Str) (ex : Conditions.Oracle) : DecidableEq (specCodec names ex).Group :=
  inferInstanceAs (DecidableEq ListAccessor)

/-- the id of the sections with lists -/
def listId (patches : Bool) : Str := if patches then s% "patchlist" else s% "sourcelist"

theorem isList_eq {names : List Str} {ex : Conditions.Oracle} (g : ListAccessor) (s : Section) :
    (specCodec names ex).isList g s = decide (Sections.id s = listId g.patches) := rfl

theorem readIn_of {names : List Str} {ex : Conditions.Oracle} {g : ListAccessor} {ss : List Section} {ls : List Sourcelist}
    (h : ListsIn ex (listId g.patches) ss ls) : ReadIn (specCodec names ex) g ss ls := by
  induction h with
  | done => exact .done
  | other hs _ ih => exact .other (decide_eq_false hs) ih
  | list hs hl _ ih => exact .list (decide_eq_true hs) hl ih

theorem stored_of_written {names : List Str} {ex : Conditions.Oracle} {g : ListAccessor}
    {ss ss' : List (specCodec names ex).Sec} {ls : List (specCodec names ex).L} (h : WrittenTo (specCodec names ex) g ss ls ss') : ListsStored (listId g.patches) ss ls ss' := by
  induction h with
  | done => exact .done
  | other hs _ ih => exact .other (of_decide_eq_false hs) ih
  | list hs _ ih => exact .list (of_decide_eq_true hs) ih

/-- C39: `sources()` and `patches()` together. If both are edited in nested blocks, both edits of the tags are in the
preamble, in this order, and the lists are in the sections they come from. The rest of the spec file stays as it is. -/
theorem C39_sources_patches {W : World} {lines : List Str} {t : Tags} {rest : Sections} (h : FileTags W lines t rest)
    {ls ps : List Sourcelist} (hl : ListsIn (W.oracle lines) (s% "sourcelist") rest ls)
    (hp : ListsIn (W.oracle lines) (s% "patchlist") rest ps) (a b : List (Option Str × Nat))
    (u v : Obj → List Sourcelist → Obj × List Sourcelist) {x : Obj} {ls' : List Sourcelist} {t' : Tags} {ps' : List Sourcelist}
    (hu : u (.tags t) ls = (x, ls')) (hv : v x ps = (.tags t', ps')) (hul : ls'.length = ls.length)
    (hvl : ps'.length = ps.length) (s : State (specCodec W.names (W.oracle lines))) (hs : Idle s) (hsl : s.lines = lines) :
    ∃ rest1 rest2 s', ListsStored (s% "patchlist") rest ps' rest1 ∧ ListsStored (s% "sourcelist") rest1 ls' rest2 ∧
      run (.withGroup (⟨false, a⟩ : ListAccessor) (.withGroup (⟨true, b⟩ : ListAccessor)
        (.seq (.editGroup (⟨false, a⟩ : ListAccessor) u) (.editGroup (⟨true, b⟩ : ListAccessor) v)))) s = (s', none) ∧
      Idle s' ∧ s'.lines = Tags.raw t' ++ Sections.raw rest2 := by
  obtain ⟨data, h1, h2⟩ := h
  have hpre : named (s% "package") (number 0 (preambleOf data :: rest)) = .ok (some 0) := by
    rw [named, number_snd, find_package]
  have hpar : parseObj W.names (W.oracle lines) .tags (preambleOf data) = .ok (.tags t) := by
    have h2' : Tags.parse W.names (W.oracle lines) (preambleOf data).data = .ok t := h2
    rw [parseObj, h2']
    rfl
  have hid : Sections.id (preambleOf data) = s% "package" := rfl
  obtain ⟨rest1, rest2, k1, k2, k3⟩ := effect_both (C := specCodec W.names (W.oracle lines)) (g := (⟨false, a⟩ : ListAccessor))
    (g' := (⟨true, b⟩ : ListAccessor)) (by intro he; cases he) (pre := preambleOf data) (x := Obj.tags t) (lines := lines)
    (u := u) (v := v) h1 hpre hpar (readIn_of hl) (readIn_of hp)
    (by
      intro (s : Section) hs
      have hs : Sections.id s = s% "patchlist" := of_decide_eq_true hs
      rw [isList_eq, hs]
      rfl)
    (by intro (l : Sourcelist) (s : Section); rfl)
    (by rw [isList_eq, hid]; rfl) (by rw [isList_eq, hid]; rfl)
    (by rw [hu]; exact hul) (by rw [hu]; simp only; rw [hv]; exact hvl)
  simp only [hu, hv] at k1 k2 k3
  obtain ⟨s', r1, r2, r3⟩ := C39_nested _ s _ _ hs ((congrArg (fun l => effect _ (Focus.lines false l)) hsl).trans k3)
  refine ⟨rest1, rest2, s', stored_of_written k1, stored_of_written k2, r1, r2, ?_⟩
  simp only [Focus.lines.injEq, true_and] at r3
  rw [← r3]
  exact raw_cons (Tags.raw t') rest2

end

section
attribute [local instance] asciiUni

/-- the hypotheses of `C39_sources_patches` hold for a spec file with tags and both kinds of lists -/
example : ∃ t rest ls ps, FileTags ⟨fun _ s => .ok s, fun _ => sampleOracle, sampleNames, anyName⟩ listLines t rest ∧
    ListsIn sampleOracle (s% "sourcelist") rest ls ∧ ListsIn sampleOracle (s% "patchlist") rest ps ∧
    ls.length = 1 ∧ ps.length = 1 ∧ (setSources (s% "x2") (s% "y2") (.tags t) ls).2.length = ls.length ∧
    (setLists (s% "z2") (setSources (s% "x2") (s% "y2") (.tags t) ls).1 ps).2.length = ps.length := by
  refine ⟨⟨[⟨s% "Name", s% "a", s% ": ", ⟨[], []⟩, true, [], []⟩, ⟨s% "Version", s% "1", s% ": ", ⟨[], []⟩, true, [], []⟩,
      ⟨s% "Source0", s% "x", s% ": ", ⟨[], []⟩, true, [], []⟩], []⟩,
    [⟨s% "sourcelist", ⟨[], [], []⟩, [], ['\n'], [s% "y"]⟩, ⟨s% "patchlist", ⟨[], [], []⟩, [], ['\n'], [s% "z"]⟩,
      ⟨s% "prep", ⟨[], [], []⟩, [], ['\n'], [s% "%setup"]⟩],
    [⟨[⟨s% "y", ⟨[], []⟩, true⟩], []⟩], [⟨[⟨s% "z", ⟨[], []⟩, true⟩], []⟩],
    ⟨listLines.take 3, by decide +kernel, by decide +kernel⟩,
    .list rfl (by decide +kernel) (.other (by decide +kernel) (.other (by decide +kernel) .done)),
    .other (by decide +kernel) (.list rfl (by decide +kernel) (.other (by decide +kernel) .done)), rfl, rfl, rfl, rfl⟩

end

end Specfile.Props
