import Verif.Proof.Repr4
import Verif.Props.Tags
import Verif.Props.Label
/-
The representation of an object is an expression for an equal object. C98.
-/
namespace Specfile.Props
open Py Spec Formatter Representation Construct ReprProof
open Options (Opts Val)
open Equality (SpecKey ParserKey)

section
variable [Uni] {P : Python} {R : Lit → Str}

/-- C98: the representation of a changelog, or of an entry, is an expression for the same changelog or entry. -/
theorem C98_changelog (h : LiteralsRead P R) (c : Changelog) (e : ChangelogEntry) :
    eval P (changelog R c) = some (.changelog c) ∧ eval P (entry R e) = some (.entry e) :=
  ⟨eval_changelog h c, eval_entry h e⟩

/-- C98: the same for comments, and for the parser with its macros. -/
theorem C98_comments (h : LiteralsRead P R) (c : Comment) (cs : Comments) (p : ParserKey) :
    eval P (comment R c) = some (.comment c) ∧ eval P (comments R cs) = some (.comments cs) ∧
      eval P (parser R p) = some (.parser p) :=
  ⟨eval_comment h c, eval_comments h cs, eval_parser h p⟩

/-- C98: the same for versions. -/
theorem C98_versions (h : LiteralsRead P R) (x : EVR) (y : NEVR) (z : NEVRA) (hz : z.arch ∈ P.arches) :
    eval P (evr R x) = some (.evr x) ∧ eval P (nevr R y) = some (.nevr y) ∧ eval P (nevra R z) = some (.nevra z) :=
  ⟨eval_evr h x, eval_nevr h y, eval_nevra h (arch_ok hz z rfl)⟩

/-- C98: the representation of a spec file stands for a spec file with the same settings that is read again. What is
missing: the content that is not saved. -/
theorem C98_spec_partial (h : LiteralsRead P R) (s : SpecKey) :
    (∀ c, P.read s.path = some c → eval P (spec R s) = some (.spec { s with content := c })) ∧
      (eval P (spec R s) = some (.spec s) ↔ P.read s.path = some s.content) := by
  rw [eval_spec h]
  refine ⟨fun c hc => by simp [hc], ?_⟩
  cases hr : P.read s.path with
  | none => simp
  | some c =>
    obtain ⟨a, p, c', k⟩ := s
    simp

/-- C98: the representation of a tag, of tags, and of a source or a patch that is a tag. What is missing: tags that have
been given another name, and spec files with changes that are not saved. -/
theorem C98_tags_partial (h : LiteralsRead P R) {data : List (Tag × Option SpecKey)} {remainder : List Str}
    (hd : ∀ t ∈ data, (∃ n r, t.1.name = n ++ r ∧ TagName n) ∧ ContextSaved P t.2) :
    eval P (tags R data remainder) = some (.tags data remainder) ∧
      ∀ t ∈ data, eval P (tag R t) = some (.tag t) ∧
        ∀ b n, eval P (tagSource R b t n) = some (.tagSource b t n) := by
  have hn : ∀ t ∈ data, Tags.mkTag t.1 = .ok t.1 := fun t ht => (C57_create_partial t.1).2.1.2 (hd t ht).1
  exact ⟨eval_tags h fun t ht => ⟨hn t ht, (hd t ht).2⟩, fun t ht =>
    ⟨eval_tag h (hn t ht) (hd t ht).2, fun b n => eval_tagSource h b n (hn t ht) (hd t ht).2⟩⟩

/-- C98: the representation of the tags of a section that have been read, whatever the section contains. What is missing:
as before. -/
theorem C98_parsed_tags_partial (h : LiteralsRead P R) {names : List Str} (hN : Tags.IsTagNames names)
    {ex : Conditions.Oracle} {lines : List Str} (hl : ∀ l ∈ lines, '\n' ∉ l) {t : Tags}
    (ht : Tags.parse names ex lines = .ok t) {k : Option SpecKey} (hk : ContextSaved P k) :
    eval P (tags R (t.data.map (·, k)) t.remainder) = some (.tags (t.data.map (·, k)) t.remainder) := by
  refine (C98_tags_partial h ?_).1
  intro x hx
  obtain ⟨y, hy, rfl⟩ := List.mem_map.1 hx
  refine ⟨⟨y.name, [], by simp, ?_⟩, hk⟩
  unfold Tags.parse at ht
  split at ht
  · cases ht
  · rename_i ls hls
    have hk := C11_lines_kept _ _ _ _ hls
    exact parseLoop_names hN ls [] 0 (fun l hm => hl _ (by rw [← hk]; exact List.mem_map_of_mem hm)) ht y hy

/-- C98: the representation of the entries of sections with sources, and of the sources and patches of a spec file. What
is missing: as before. -/
theorem C98_sources_partial (h : LiteralsRead P R) (s : SourcesObj)
    (ht : ∀ t ∈ s.tags, (∃ n r, t.1.name = n ++ r ∧ TagName n) ∧ ContextSaved P t.2)
    (hl : ∀ l ∈ s.lists, ∀ e ∈ l.1, ContextSaved P e.2) (hk : ContextSaved P s.context) :
    eval P (sources R s) = some (.sources s) ∧
      ∀ l ∈ s.lists, eval P (sourcelist R l) = some (.sourcelist l) ∧ ∀ e ∈ l.1, eval P (listed R e) = some (.listed e) ∧
        ∀ b n, eval P (listSource R b e n) = some (.listSource b e n) :=
  ⟨eval_sources h (fun t hm => ⟨(C57_create_partial t.1).2.1.2 (ht t hm).1, (ht t hm).2⟩) hl hk, fun l hm =>
    ⟨eval_sourcelist h (hl l hm), fun e he => ⟨eval_listed h (hl l hm e he), fun b n => eval_listSource h b n (hl l hm e he)⟩⟩⟩

/-- C98: the representation of options is an expression for the same options if no options have been given, and no
expression at all otherwise. What is missing: the options that have been given. -/
theorem C98_options_partial (h : LiteralsRead P R) (ho : ObjectsNotRead P) {o : Opts} (hd : DistinctKeys o.defaults) :
    (eval P (options R o) = some (.options o) ↔ o.tokens = []) ∧
      (eval P (positionals R o) = some (.positionals o) ↔ o.tokens = []) := by
  by_cases ht : o.tokens = []
  · simp [ht, eval_options h (o := o) (by simp [ht]) hd, eval_positionals h (o := o) (by simp [ht]) hd]
  · have := eval_options_none (R := R) ho ht
    simp [ht, this, positionals, eval_call_none (P := P) (List.mem_singleton.2 rfl) this]

/-- C98: the same for sections: it needs the headers to have no options. -/
theorem C98_sections_partial (h : LiteralsRead P R) (ho : ObjectsNotRead P) {l : Sections}
    (hl : ∀ s ∈ l, Constants.sectionNames.contains (Uni.lower s.name) = true ∧ DistinctKeys s.options.defaults) :
    (eval P (sections R l) = some (.sections l) ↔ ∀ s ∈ l, s.options.tokens = []) ∧
      ∀ s ∈ l, (eval P (sect R s) = some (.sect s) ↔ s.options.tokens = []) := by
  have hs : ∀ s ∈ l, s.options.tokens ≠ [] → eval P (sect R s) = none := fun s _ ht =>
    eval_call_none (e := options R s.options) (by simp) (eval_options_none ho ht)
  refine ⟨⟨fun he s hm => ?_, fun ht => eval_sections h fun s hm => ⟨(hl s hm).1, by simp [ht s hm], (hl s hm).2⟩⟩, fun s hm =>
    ⟨fun he => ?_, fun ht => eval_sect h (hl s hm).1 (by simp [ht]) (hl s hm).2⟩⟩
  · by_cases ht : s.options.tokens = []
    · exact ht
    · rw [sections, eval_call_none (e := list (l.map (sect R))) (by simp)
        (eval_list_none (List.mem_map.2 ⟨s, hm, rfl⟩) (hs s hm ht))] at he
      cases he
  · by_cases ht : s.options.tokens = []
    · exact ht
    · rw [hs s hm ht] at he
      cases he

/-- C98: the same for `%prep` and its macros. -/
theorem C98_prep_partial (h : LiteralsRead P R) (ho : ObjectsNotRead P) {p : Prep}
    (hp : ∀ m ∈ p.data, DistinctKeys m.options.defaults) :
    (eval P (prep R p) = some (.prep p) ↔ ∀ m ∈ p.data, m.options.tokens = []) ∧
      (eval P (prepMacros R p) = some (.prepMacros p) ↔ ∀ m ∈ p.data, m.options.tokens = []) ∧
      ∀ m ∈ p.data, (eval P (prepMacro R m) = some (.prepMacro m) ↔ m.options.tokens = []) := by
  have hm' : ∀ m : PrepMacro, m.options.tokens ≠ [] → eval P (prepMacro R m) = none := fun m ht =>
    eval_call_none (e := options R m.options) (by simp) (eval_options_none ho ht)
  have hall : ∀ m ∈ p.data, m.options.tokens ≠ [] → eval P (prepMacros R p) = none := fun m hm ht =>
    eval_call_none (e := list (p.data.map (prepMacro R))) (by simp)
      (eval_list_none (List.mem_map.2 ⟨m, hm, rfl⟩) (hm' m ht))
  refine ⟨⟨fun he m hm => ?_, fun ht => eval_prep h fun m hm => ⟨by simp [ht m hm], hp m hm⟩⟩,
    ⟨fun he m hm => ?_, fun ht => eval_prepMacros h fun m hm => ⟨by simp [ht m hm], hp m hm⟩⟩,
    fun m hm => ⟨fun he => ?_, fun ht => eval_prepMacro h (by simp [ht]) (hp m hm)⟩⟩
  · by_cases ht : m.options.tokens = []
    · exact ht
    · rw [prep, eval_call_none (e := prepMacros R p) (by simp) (hall m hm ht)] at he
      cases he
  · by_cases ht : m.options.tokens = []
    · exact ht
    · rw [hall m hm ht] at he
      cases he
  · by_cases ht : m.options.tokens = []
    · exact ht
    · rw [hm' m ht] at he
      cases he

/-- C98: nothing else is wrong with these representations. If members of enumerations could be read, tokens, options,
macro definitions, macros, sections and `%prep` would be rebuilt, whatever options they have. -/
theorem C98_members_partial (h : LiteralsRead P R) {level : Int → Str} (hm : MembersRead P level) :
    (∀ t, eval P (token R t) = some (.token t)) ∧
      (∀ o, DistinctKeys o.defaults → eval P (options R o) = some (.options o) ∧
        eval P (positionals R o) = some (.positionals o)) ∧
      (∀ d, eval P (definition R d) = some (.definition d)) ∧
      (∀ d, eval P (macroDefinitions R d) = some (.definitions d)) ∧
      (∀ m, eval P (rpmMacro R level m) = some (.rpmMacro m)) ∧
      (∀ l : Sections, (∀ s ∈ l, Constants.sectionNames.contains (Uni.lower s.name) = true ∧ DistinctKeys s.options.defaults) →
        eval P (sections R l) = some (.sections l)) ∧
      (∀ p : Prep, (∀ m ∈ p.data, DistinctKeys m.options.defaults) → eval P (prep R p) = some (.prep p)) :=
  have ht := fun t => eval_token h hm t
  ⟨ht, fun _ hd => ⟨eval_options h (fun t _ => ht t) hd, eval_positionals h (fun t _ => ht t) hd⟩, eval_definition h hm,
    eval_definitions_all h hm, eval_rpmMacro h hm, fun _ hl => eval_sections h fun s hs => ⟨(hl s hs).1, fun t _ => ht t, (hl s hs).2⟩,
    fun _ hp => eval_prep h fun m hm => ⟨fun t _ => ht t, hp m hm⟩⟩

/-- C98: the representation of a parsed value is an expression for the same nodes. What is missing: references such as
`%{? ?x}`. -/
theorem C98_values_partial (h : LiteralsRead P R) {value : Str} {ns : List Node} (hv : ValueParser.parse value = .ok ns)
    (hs : NoneSplitFlags ns) : eval P (list (nodes R ns)) = some (.list (ns.map .node)) :=
  eval_list (each_nodes h ns (parseF_rebuildable _ hv hs))

/-- C98: the text that `repr()` prints, with the formatted texts of all objects inside, reads as the expression, so it
stands for the object. What is missing: as in the theorems on which it is based. -/
theorem C98_printed_partial {parse : Str → Parsed} {repr : Str → Str} {threshold fuel : Nat} {e : Expr} {x : Construct.Obj}
    (hx : eval P e = some x) (hr : PythonReads parse repr threshold fuel e) :
    ∃ ps, shown parse repr threshold fuel e = .ok (Formatter.text ps) ∧ (parsePython (tokens ps)).bind (eval P) = some x := by
  obtain ⟨ps, h1, h2⟩ := shown_written e (eval_good e hx) hr
  exact ⟨ps, h1, by rw [parsePython_shows h2 (eval_good e hx)]; exact hx⟩

/-! ### representations that are no expressions, or that stand for something else -/

/-- C98 fails for every token, every definition of a macro and every macro: a member of an enumeration is printed as
`<…>`. -/
theorem C98_violation_enumerations (ho : ObjectsNotRead P) {level : Int → Str} (hl : ∀ n, isObject (level n) = true)
    (t : Token) (d : MacroDefinition) (m : Macro) (ds : MacroDefinitions) (hd : ds.data ≠ []) :
    eval P (token R t) = none ∧ eval P (definition R d) = none ∧ eval P (rpmMacro R level m) = none ∧
      eval P (macroDefinitions R ds) = none :=
  ⟨eval_token_none ho t, eval_definition_none ho d, eval_rpmMacro_none ho hl m, eval_macroDefinitions_none ho hd⟩

/-- C98 fails for a spec file with changes that are not saved: its representation stands for another one. -/
theorem C98_violation_unsaved (h : LiteralsRead P R) (s : SpecKey) {c : Text.Content} (hr : P.read s.path = some c)
    (hc : c ≠ s.content) : ∃ s', eval P (spec R s) = some (.spec s') ∧ s' ≠ s := by
  refine ⟨_, (C98_spec_partial h s).1 c hr, ?_⟩
  obtain ⟨a, p, c', k⟩ := s
  simpa using hc

/-- C98 fails for a tag that has been given a name that is none. -/
theorem C98_violation_names (h : LiteralsRead P R) {t : Tag × Option SpecKey} (hk : ContextSaved P t.2)
    (hn : ¬ ∃ n r, t.1.name = n ++ r ∧ TagName n) : eval P (tag R t) = none := by
  rw [tag, eval_call (.cons (eval_text h _) (.cons (eval_text h _) (.cons (eval_text h _) (.cons (eval_comments h _)
    (.cons (eval_truth h _) (.cons (eval_text h _) (.cons (eval_text h _) (.cons (eval_context h hk) .nil)))))))),
    construct_full (c := .tag) rfl rfl rfl]
  have : Tags.mkTag t.1 = .error .valueError := (C57_create_partial t.1).2.2.2 hn
  simp [build, asStr, asText_str, asComments, asBool, this, result]

/-- C98 fails for `%{? ?x}`: a reference to `?x` with the flag `?` is printed as one to `x` with the flags `??`. -/
theorem C98_violation_flags (h : LiteralsRead P R) :
    ValueParser.parse (s% "%{? ?x}") = .ok [.encl (s% "?") (s% "?x") []] ∧
      eval P (node R (.encl (s% "?") (s% "?x") [])) = some (.node (.encl (s% "??") (s% "x") [])) := by
  refine ⟨rfl, ?_⟩
  rw [node, eval_call (.cons (eval_text h _) .nil), construct_full (c := .encl) rfl rfl rfl]
  rfl

end

/-! ### examples -/

namespace ReprExamples

/-- simple literals -/
def write : Lit → Str
  | .str s => '\'' :: s ++ ['\'']
  | .int n => (if n < 0 then '-' else '+') :: List.replicate n.natAbs '1'
  | .bool true => s% "True"
  | .bool false => s% "False"
  | .none => s% "None"

/-- and how they are read -/
def read : Str → Option Lit
  | '\'' :: s => some (.str s.dropLast)
  | '+' :: s => some (.int s.length)
  | '-' :: s => some (.int (-s.length))
  | 'T' :: _ => some (.bool true)
  | 'F' :: _ => some (.bool false)
  | 'N' :: _ => some .none
  | _ => none

/-- with one file -/
def python : Python where
  literal := read
  read p := if p = s% "/a/b.spec" then some ⟨[s% "Name: b"], true⟩ else none
  parent _ := s% "/a"
  arches := Utils.allArches

theorem literalsRead : LiteralsRead python write := by
  intro c
  show read (write c) = some c
  rcases c with s | n | b | _
  · simp [write, read]
  · simp only [write]
    split
    · simp only [read, List.length_replicate]
      congr 2
      omega
    · simp only [read, List.length_replicate]
      congr 2
      omega
  · cases b <;> rfl
  · rfl

theorem objectsNotRead : ObjectsNotRead python := by
  intro r hr
  cases r with
  | nil => exact ⟨rfl, rfl⟩
  | cons c r =>
    simp only [isObject, List.head?_cons, beq_iff_eq, Option.some.injEq] at hr
    subst hr
    exact ⟨rfl, rfl⟩

/-- the level in angle brackets -/
def level (n : Int) : Str := '<' :: write (.int n) ++ s% ">"

/-- the same with members of enumerations -/
def reading : Python := { python with
  member := fun r =>
    if r = s% "<TokenType.DEFAULT: 1>" then some (.tokenType .default)
    else if r = s% "<TokenType.WHITESPACE: 2>" then some (.tokenType .whitespace)
    else if r = s% "<TokenType.QUOTED: 3>" then some (.tokenType .quoted)
    else if r = s% "<TokenType.DOUBLE_QUOTED: 4>" then some (.tokenType .doubleQuoted)
    else if r = s% "<CommentOutStyle.DNL: 1>" then some (.style .dnl)
    else if r = s% "<CommentOutStyle.HASH: 2>" then some (.style .hash)
    else if r = s% "<CommentOutStyle.OTHER: 3>" then some (.style .other)
    else match read r.tail.dropLast with
      | some (.int n) => some (.level n)
      | _ => none }

/-- the hypotheses of `C98_members_partial` are met -/
theorem membersRead : MembersRead reading level := by
  refine ⟨fun t => ?_, fun s => ?_, fun n => ⟨_, rfl, rfl, ?_⟩⟩
  · cases t <;> exact ⟨_, rfl, rfl, rfl⟩
  · cases s <;> exact ⟨_, rfl, rfl, rfl⟩
  · have h : read (write (.int n)) = some (.int n) := literalsRead (.int n)
    have ht : (level n).tail.dropLast = write (.int n) := by simp [level]
    have hne : ∀ c r, c ≠ '+' → c ≠ '-' → level n ≠ '<' :: c :: r := by
      intro c r h1 h2 h3
      simp only [level, write] at h3
      split at h3 <;> simp at h3
      · exact h2 h3.1.symm
      · exact h1 h3.1.symm
    simp only [reading]
    repeat rw [if_neg (hne _ _ (by decide) (by decide))]
    rw [ht, h]

/-- a spec file that is saved, and the same with a change -/
def saved : SpecKey := ⟨true, s% "/a/b.spec", ⟨[s% "Name: b"], true⟩, ⟨s% "/a", [(s% "dist", none)], false⟩⟩
/-- a change -/
def changed : SpecKey := { saved with content := ⟨[s% "Name: c"], true⟩ }

section
attribute [local instance] asciiUni

/-- a tag of this spec file -/
def name : Tag := ⟨s% "Name", s% "b", s% ": ", ⟨[⟨s% "the name", s% "# "⟩], [[]]⟩, true, [], []⟩

theorem tagName : TagName (s% "Name") := by
  refine ⟨s% "name", by decide, s% "Name", [], rfl, ?_, ?_⟩
  · simp only [SameLetters]
    decide
  · unfold NameExtension
    rw [if_neg (by decide), if_neg (by decide)]

example : eval python (changelog write ⟨[⟨s% "* Mon", [s% "- a"], [[]]⟩], []⟩) =
    some (.changelog ⟨[⟨s% "* Mon", [s% "- a"], [[]]⟩], []⟩) := (C98_changelog literalsRead _ ⟨[], [], []⟩).1

example : eval python (nevra write ⟨s% "a", 1, s% "2", some (s% "3"), s% "noarch"⟩) =
    some (.nevra ⟨s% "a", 1, s% "2", some (s% "3"), s% "noarch"⟩) :=
  (C98_versions literalsRead ⟨0, [], []⟩ ⟨[], ⟨0, [], []⟩⟩ _ (by decide)).2.2

example : eval python (spec write saved) = some (.spec saved) := ((C98_spec_partial literalsRead saved).2).2 (by decide)

example : ∃ s', eval python (spec write changed) = some (.spec s') ∧ s' ≠ changed :=
  C98_violation_unsaved literalsRead changed (c := saved.content) (by decide) (by decide)

example : eval python (tags write [(name, some saved)] [[]]) = some (.tags [(name, some saved)] [[]]) := by
  refine (C98_tags_partial literalsRead ?_).1
  intro t ht
  rw [List.mem_singleton.1 ht]
  exact ⟨⟨_, [], rfl, tagName⟩, (by decide : python.read saved.path = some saved.content)⟩

example : eval python (sources write ⟨false, [(name, none)], [], [([(⟨s% "a", ⟨[], []⟩, true⟩, some saved)], [])], false, true, 1,
    some saved⟩) = some (.sources ⟨false, [(name, none)], [], [([(⟨s% "a", ⟨[], []⟩, true⟩, some saved)], [])], false, true, 1,
    some saved⟩) := by
  refine (C98_sources_partial literalsRead _ ?_ ?_ ?_).1
  · intro t ht
    rw [List.mem_singleton.1 ht]
    exact ⟨⟨_, [], rfl, tagName⟩, trivial⟩
  · intro l hl e he
    rw [List.mem_singleton.1 hl] at he
    rw [List.mem_singleton.1 he]
    exact (by decide : python.read saved.path = some saved.content)
  · exact (by decide : python.read saved.path = some saved.content)

/-- a section without options -/
example : eval python (sections write [⟨s% "description", ⟨[], s% "l:n:", []⟩, [], ['\n'], [s% "text"]⟩]) =
    some (.sections [⟨s% "description", ⟨[], s% "l:n:", []⟩, [], ['\n'], [s% "text"]⟩]) := by
  refine (C98_sections_partial literalsRead objectsNotRead ?_).1.2 (by simp)
  intro s hs
  rw [List.mem_singleton.1 hs]
  exact ⟨by decide, by simp [DistinctKeys]⟩

/-- a section with options -/
example : ¬ eval python (sect write ⟨s% "files", ⟨[⟨.default, s% "x"⟩], s% "f:n:", []⟩, s% " ", ['\n'], []⟩) =
    some (.sect ⟨s% "files", ⟨[⟨.default, s% "x"⟩], s% "f:n:", []⟩, s% " ", ['\n'], []⟩) := by
  rw [((C98_sections_partial literalsRead objectsNotRead (l := [_]) ?_).2 _ (List.mem_singleton.2 rfl))]
  · simp
  · intro s hs
    rw [List.mem_singleton.1 hs]
    exact ⟨by decide, by simp [DistinctKeys]⟩

example : eval python (options write ⟨[], s% "D:T", [('T', .bool true), ('p', .int 1)]⟩) =
    some (.options ⟨[], s% "D:T", [('T', .bool true), ('p', .int 1)]⟩) :=
  ((C98_options_partial literalsRead objectsNotRead (by unfold DistinctKeys; decide)).1).2 rfl

example : eval python (prep write ⟨[⟨.setup, s% "%setup", ⟨[], s% "q", [('p', .int 1)]⟩, [], [], [], [s% "# x"]⟩], []⟩) =
    some (.prep ⟨[⟨.setup, s% "%setup", ⟨[], s% "q", [('p', .int 1)]⟩, [], [], [], [s% "# x"]⟩], []⟩) := by
  refine (C98_prep_partial literalsRead objectsNotRead ?_).1.2 (by simp)
  intro m hm
  rw [List.mem_singleton.1 hm]
  unfold DistinctKeys
  decide

example : ∃ ns, ValueParser.parse (s% "1%{?x:%y}%{!z a b}") = .ok ns ∧ ns.length = 3 ∧
    eval python (list (nodes write ns)) = some (.list (ns.map .node)) :=
  ⟨[.lit (s% "1"), .cond (s% "?") (s% "x") [.sub [] (s% "y")], .encl (s% "!") (s% "z") [s% "a", s% "b"]], rfl, rfl,
    C98_values_partial (value := s% "1%{?x:%y}%{!z a b}") literalsRead rfl (by
      simp [NoneSplitFlags, NoSplitFlags, NoFlagStart]; decide)⟩

example : eval python (tag write ({ name with name := s% "Nothing" }, none)) = none := by
  refine C98_violation_names literalsRead trivial ?_
  rintro h
  have h := (C57_create_partial { name with name := s% "Nothing" }).2.1.2 h
  revert h
  decide +kernel

example : eval python (tags write (smallTags.data.map (·, some saved)) smallTags.remainder) =
    some (.tags (smallTags.data.map (·, some saved)) smallTags.remainder) :=
  C98_parsed_tags_partial literalsRead (fun _ => Iff.rfl) (by decide +kernel) small_parse
    (by decide : python.read saved.path = some saved.content)

/-- some comments -/
def sample : Comments := ⟨[⟨s% "a", s% "# "⟩], [s% "b"]⟩

/-- Python's parser for these texts -/
def reader (s : Str) : Parsed :=
  if s = s% "Comment('a', '# ')" then .tree (comment write ⟨s% "a", s% "# "⟩) else .tree (comments write sample)

/-- the hypotheses of `C98_printed_partial` are met -/
theorem reader_reads : PythonReads reader (fun v => '\'' :: v ++ ['\'']) 9 0 (comments write sample) := by
  simp only [comments, call, positional, list, sample, List.map, lines, Representation.text, lit, PythonReads, PythonReadsItems,
    PythonReadsKey, true_and, and_true, comment]
  refine ⟨?_, ?_⟩
  · intro s src hs _ _
    have hs' : s = s% "'a', '# '" := by
      have : (Except.ok s : Except Failure Str) = .ok (s% "'a', '# '") := by rw [← hs]; rfl
      cases this; rfl
    subst hs'
    rfl
  · intro s src hs _ _
    rw [reader, if_neg ?_]
    · rfl
    · intro h
      simp at h

/-- the text of a nested object -/
example : shown reader (fun v => '\'' :: v ++ ['\'']) 9 0 (comment write ⟨s% "a", s% "# "⟩) =
    .ok (s% "Comment(\n    'a',\n    '# ',\n)") := by decide +kernel

example : ∃ ps, shown reader (fun v => '\'' :: v ++ ['\'']) 9 0 (comments write sample) = .ok (Formatter.text ps) ∧
    (parsePython (tokens ps)).bind (eval python) = some (.comments sample) :=
  C98_printed_partial (C98_comments literalsRead ⟨[], []⟩ sample ⟨[], [], true⟩).2.1 reader_reads

example (m : Macro) (o : Opts) (hd : DistinctKeys o.defaults) : eval reading (rpmMacro write level m) = some (.rpmMacro m) ∧
    eval reading (options write o) = some (.options o) :=
  have h := C98_members_partial (P := reading) (R := write) (fun c => literalsRead c) membersRead
  ⟨h.2.2.2.2.1 m, (h.2.1 o hd).1⟩

/-- `<MacroLevel.SPEC: 0>` etc. -/
example (m : Macro) : eval python (rpmMacro write (fun n => '<' :: write (.int n) ++ ['>']) m) = none :=
  (C98_violation_enumerations objectsNotRead (fun _ => rfl) ⟨.default, []⟩
    ⟨[], [], true, false, .dnl, [], [], [], [], [], true, []⟩ m
    ⟨[⟨[], [], true, false, .dnl, [], [], [], [], [], true, []⟩], []⟩ (by simp)).2.2.1

end
end ReprExamples
end Specfile.Props
