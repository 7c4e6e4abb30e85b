import Verif.Spec.Repr
import Verif.Proof.ValueParser
/-
Evaluating representations.
-/
namespace Specfile.ReprProof
open Py Spec Construct
open Representation
open Formatter hiding text
open Options (Opts Val)
open Equality (SpecKey ParserKey)

variable [Uni] {P : Python} {R : Lit → Str}

theorem eval_lit (h : LiteralsRead P R) (c : Lit) : eval P (lit R c) = some (.lit c) := by simp [lit, eval, h c]
theorem eval_text (h : LiteralsRead P R) (s : Str) : eval P (text R s) = some (.lit (.str s)) := eval_lit h _
theorem eval_truth (h : LiteralsRead P R) (b : Bool) : eval P (truth R b) = some (.lit (.bool b)) := eval_lit h _

/-- the objects of the expressions -/
inductive Each (P : Python) : List Expr → List Obj → Prop where
  | nil : Each P [] []
  | cons {e x es xs} : eval P e = some x → Each P es xs → Each P (e :: es) (x :: xs)

theorem evalItems_positional {es : List Expr} {xs : List Obj} (h : Each P es xs) :
    evalItems P (positional es) = some (xs.map .pos) := by
  induction h with
  | nil => simp [positional, evalItems]
  | cons h1 _ ih => simp [positional, evalItems, h1, ih]

omit [Uni] in
theorem elements_pos (xs : List Obj) : elements (xs.map .pos) = some xs := by
  induction xs with
  | nil => rfl
  | cons x xs ih => simp [elements, ih]

omit [Uni] in
theorem arguments_pos (xs : List Obj) : arguments (xs.map .pos) = some (xs, []) := by
  induction xs with
  | nil => rfl
  | cons x xs ih => simp [arguments, ih]

theorem eval_list {es : List Expr} {xs : List Obj} (h : Each P es xs) :
    eval P (list es) = some (.list xs) := by
  simp [list, eval, evalItems_positional h, elements_pos]

theorem eval_tuple {es : List Expr} {xs : List Obj} (h : Each P es xs) :
    eval P (.tuple (positional es)) = some (.tuple xs) := by
  simp [eval, evalItems_positional h, elements_pos]

theorem eval_call {f : Str} {es : List Expr} {xs : List Obj} (h : Each P es xs) :
    eval P (call f es) = construct P f xs [] := by
  simp [call, eval, evalItems_positional h, arguments_pos]

theorem eval_map {α : Type} (f : α → Expr) (g : α → Obj) (l : List α) (h : ∀ x ∈ l, eval P (f x) = some (g x)) :
    eval P (list (l.map f)) = some (.list (l.map g)) := by
  refine eval_list ?_
  induction l with
  | nil => exact .nil
  | cons x l ih => exact .cons (h x (by simp)) (ih fun y hy => h y (by simp [hy]))

omit [Uni] in
theorem asAll_map {α : Type} {f : Obj → Option α} {g : α → Obj} (h : ∀ x, f (g x) = some x) (l : List α) :
    asAll f (l.map g) = some l := by
  induction l with
  | nil => rfl
  | cons x l ih => simp [asAll, h, ih]

omit [Uni] in
theorem asList_map {α : Type} {f : Obj → Option α} {g : α → Obj} (h : ∀ x, f (g x) = some x) (l : List α) :
    asList f (.list (l.map g)) = some l := asAll_map h l

omit [Uni] in
theorem orEmpty_map {α : Type} {f : Obj → Option α} {g : α → Obj} (h : ∀ x, f (g x) = some x) (l : List α) :
    orEmpty f (.list (l.map g)) = some l := by simp [orEmpty, orAbsent, asList_map h]

/-- a list of texts -/
abbrev strs (l : List Str) : Obj := .list (l.map (fun s => .lit (.str s)))

theorem eval_lines (h : LiteralsRead P R) (l : List Str) : eval P (lines R l) = some (strs l) :=
  eval_map _ _ l fun _ _ => eval_text h _

omit [Uni] in
theorem orEmpty_strs (l : List Str) : orEmpty asStr (strs l) = some l :=
  orEmpty_map (g := fun s => .lit (.str s)) (fun _ => rfl) l
omit [Uni] in
theorem asList_strs (l : List Str) : asList asStr (strs l) = some l :=
  asList_map (g := fun s => .lit (.str s)) (fun _ => rfl) l

theorem construct_eq {f : Str} {c : Class} {xs ys : List Obj} (hc : classOf f = some c)
    (hb : bindArguments (signature c) xs [] = some ys) : construct P f xs [] = build P c ys := by
  simp [construct, hc, hb]

theorem construct_full {f : Str} {c : Class} {xs : List Obj} (hc : classOf f = some c)
    (hk : (signature c).keywordOnly = []) (hl : (signature c).parameters.length = xs.length) :
    construct P f xs [] = build P c xs := by
  refine construct_eq hc ?_
  have : ∀ (ps : List (Str × Option Obj)) (xs : List Obj), ps.length = xs.length → bindAll ps xs [] = some xs := by
    intro ps
    induction ps with
    | nil => intro xs h; cases xs with
      | nil => rfl
      | cons => simp at h
    | cons p ps ih =>
      intro xs h
      cases xs with
      | nil => simp at h
      | cons x xs => simp [bindAll, keyword, ih xs (by simpa using h)]
  simp [bindArguments, hk, this _ _ hl, bindAll]

omit [Uni] in
theorem classOf_eq {f : Str} {c : Class} (h : (classes.find? (fun c => c.1 == f)) = some (f, c)) : classOf f = some c := by
  simp [classOf, h]

theorem eval_optText (h : LiteralsRead P R) (s : Option Str) :
    ∃ x, eval P (optText R s) = some x ∧ orAbsent asStr x = some s := by
  cases s with
  | none => exact ⟨_, eval_lit h _, rfl⟩
  | some s => exact ⟨_, eval_text h _, rfl⟩

theorem eval_path (h : LiteralsRead P R) (p : Str) : eval P (path R p) = some (.path p) := by
  rw [path, eval_call (.cons (eval_text h p) .nil), construct_full (c := .path) rfl rfl rfl]; rfl

/-- a definition as an object -/
def pairObj (m : Str × Option Str) : Obj :=
  .tuple [.lit (.str m.1), .lit (match m.2 with | none => .none | some s => .str s)]

theorem eval_definitions (h : LiteralsRead P R) (ms : List (Str × Option Str)) :
    eval P (definitions R ms) = some (.list (ms.map pairObj)) := by
  refine eval_map _ _ ms fun m _ => eval_tuple ?_
  obtain ⟨a, b⟩ := m
  refine .cons (eval_text h _) (.cons ?_ .nil)
  cases b <;> exact eval_lit h _

omit [Uni] in
theorem asPair_pairObj (m : Str × Option Str) : asPair (pairObj m) = some m := by
  obtain ⟨a, b⟩ := m
  cases b <;> rfl

omit [Uni] in
theorem orEmpty_pairs (ms : List (Str × Option Str)) : orEmpty asPair (.list (ms.map pairObj)) = some ms :=
  orEmpty_map asPair_pairObj ms

theorem eval_parser (h : LiteralsRead P R) (p : ParserKey) : eval P (parser R p) = some (.parser p) := by
  rw [parser, eval_call (.cons (eval_path h _) (.cons (eval_definitions h _) (.cons (eval_truth h _) .nil))),
    construct_full (c := .parser) rfl rfl rfl]
  simp [build, orEmpty_pairs, asPath, asBool]

theorem eval_spec (h : LiteralsRead P R) (s : SpecKey) :
    eval P (spec R s) = (P.read s.path).map (fun c => .spec { s with content := c }) := by
  rw [spec, eval_call (.cons (eval_path h _) (.cons (eval_path h _) (.cons (eval_truth h _)
    (.cons (eval_definitions h _) (.cons (eval_truth h _) .nil))))), construct_full (c := .spec) rfl rfl rfl]
  cases hr : P.read s.path <;> simp [build, orEmpty_pairs, asPath, asBool, orAbsent, hr]

/-- the context as an object -/
def contextObj : Option SpecKey → Obj
  | none => .lit .none
  | some s => .spec s

theorem eval_context (h : LiteralsRead P R) {k : Option SpecKey} (hk : ContextSaved P k) :
    eval P (context R k) = some (contextObj k) := by
  cases k with
  | none => exact eval_lit h _
  | some s => rw [context, eval_spec h, show P.read s.path = some s.content from hk]; rfl

omit [Uni] in
theorem asText_str (s : Str) : asText (.lit (.str s)) = some s := rfl

omit [Uni] in
theorem asContext (k : Option SpecKey) : orAbsent asSpec (contextObj k) = some k := by cases k <;> rfl

theorem eval_comment (h : LiteralsRead P R) (c : Comment) : eval P (comment R c) = some (.comment c) := by
  rw [comment, eval_call (.cons (eval_text h _) (.cons (eval_text h _) .nil)), construct_full (c := .comment) rfl rfl rfl]
  rfl

theorem eval_comments (h : LiteralsRead P R) (c : Comments) : eval P (comments R c) = some (.comments c) := by
  rw [comments, eval_call (.cons (eval_map _ _ _ fun c _ => eval_comment h c) (.cons (eval_lines h _) .nil)),
    construct_full (c := .comments) rfl rfl rfl]
  simp only [build, orEmpty_strs, orEmpty_map (f := asComment) (g := .comment) (fun _ => rfl)]
  rfl

theorem eval_tag (h : LiteralsRead P R) {t : Tag × Option SpecKey} (hn : Tags.mkTag t.1 = .ok t.1) (hk : ContextSaved P t.2) :
    eval P (tag R t) = some (.tag t) := by
  rw [tag, eval_call (.cons (eval_text h _) (.cons (eval_text h _) (.cons (eval_text h _) (.cons (eval_comments h _)
    (.cons (eval_truth h _) (.cons (eval_text h _) (.cons (eval_text h _) (.cons (eval_context h hk) .nil)))))))),
    construct_full (c := .tag) rfl rfl rfl]
  simp [build, asStr, asComments, asBool, asText_str, asContext, hn, result]

theorem eval_tags (h : LiteralsRead P R) {data : List (Tag × Option SpecKey)} {remainder : List Str}
    (hd : ∀ t ∈ data, Tags.mkTag t.1 = .ok t.1 ∧ ContextSaved P t.2) :
    eval P (tags R data remainder) = some (.tags data remainder) := by
  rw [tags, eval_call (.cons (eval_map _ _ _ fun t ht => eval_tag h (hd t ht).1 (hd t ht).2) (.cons (eval_lines h _) .nil)),
    construct_full (c := .tags) rfl rfl rfl]
  simp only [build, orEmpty_strs, orEmpty_map (f := asTag) (g := .tag) (fun _ => rfl)]
  rfl

theorem eval_entry (h : LiteralsRead P R) (e : ChangelogEntry) : eval P (entry R e) = some (.entry e) := by
  rw [entry, eval_call (.cons (eval_text h _) (.cons (eval_lines h _) (.cons (eval_lines h _) .nil))),
    construct_full (c := .entry) rfl rfl rfl]
  simp only [build, orEmpty_strs, asList_strs]
  rfl

theorem eval_changelog (h : LiteralsRead P R) (c : Changelog) : eval P (changelog R c) = some (.changelog c) := by
  rw [changelog, eval_call (.cons (eval_map _ _ _ fun c _ => eval_entry h c) (.cons (eval_lines h _) .nil)),
    construct_full (c := .changelog) rfl rfl rfl]
  simp only [build, orEmpty_strs, orEmpty_map (f := asEntry) (g := .entry) (fun _ => rfl)]
  rfl

theorem eval_listed (h : LiteralsRead P R) {e : SourcelistEntry × Option SpecKey} (hk : ContextSaved P e.2) :
    eval P (listed R e) = some (.listed e) := by
  rw [listed, eval_call (.cons (eval_text h _) (.cons (eval_comments h _) (.cons (eval_truth h _)
    (.cons (eval_context h hk) .nil)))), construct_full (c := .listed) rfl rfl rfl]
  simp [build, asStr, asComments, asBool, asContext]

theorem eval_sourcelist (h : LiteralsRead P R) {l : List (SourcelistEntry × Option SpecKey) × List Str}
    (hk : ∀ e ∈ l.1, ContextSaved P e.2) : eval P (sourcelist R l) = some (.sourcelist l) := by
  rw [sourcelist, eval_call (.cons (eval_map _ _ _ fun e he => eval_listed h (hk e he)) (.cons (eval_lines h _) .nil)),
    construct_full (c := .sourcelist) rfl rfl rfl]
  simp only [build, orEmpty_strs, orEmpty_map (f := asListed) (g := .listed) (fun _ => rfl)]
  rfl

/-! ### options -/

/-- an item as an object -/
def itemObj (d : Char × Val) : Lit × Obj := (.str [d.1], .lit (valueLit d.2))

omit [Uni] in
theorem asDefaults_items (d : List (Char × Val)) : asDefaults (d.map itemObj) = some d := by
  induction d with
  | nil => rfl
  | cons x d ih =>
    obtain ⟨c, v⟩ := x
    cases v <;> simp [asDefaults, itemObj, asValue, valueLit, ih]

omit [Uni] in
theorem itemsOf_items : ∀ (pre d : List (Char × Val)), DistinctKeys (pre ++ d) →
    itemsOf (pre.map itemObj) (d.map (fun x => .item (itemObj x).1 (itemObj x).2)) = some ((pre ++ d).map itemObj)
  | pre, [], _ => by simp [itemsOf]
  | pre, x :: d, h => by
    have hx : (pre.map itemObj).any (fun e => e.1 == (itemObj x).1) = false := by
      rw [List.any_eq_false]
      intro e he
      simp only [List.mem_map] at he
      obtain ⟨y, hy, rfl⟩ := he
      simp only [itemObj, beq_iff_eq, Lit.str.injEq, List.cons.injEq, and_true]
      intro hc
      simp only [DistinctKeys, List.map_append, List.map_cons, List.nodup_append] at h
      exact h.2.2 y.1 (List.mem_map.2 ⟨y, hy, rfl⟩) x.1 (by simp) hc
    have ih := itemsOf_items (pre ++ [x]) d (by simpa using h)
    simp only [List.map_cons, itemsOf, put, hx]
    simpa using ih

theorem evalItems_entries (h : LiteralsRead P R) (d : List (Char × Val)) :
    evalItems P (entries (d.map (fun d => (text R [d.1], lit R (valueLit d.2))))) =
      some (d.map (fun x => .item (itemObj x).1 (itemObj x).2)) := by
  induction d with
  | nil => simp [entries, evalItems]
  | cons x d ih => simp [entries, evalItems, ih, eval_text h, eval_lit h, itemObj]

theorem eval_options (h : LiteralsRead P R) {o : Opts} (ht : ∀ t ∈ o.tokens, eval P (token R t) = some (.token t)) (hd : DistinctKeys o.defaults) :
    eval P (options R o) = some (.options o) := by
  have hdict : eval P (.dict (entries (o.defaults.map (fun d => (text R [d.1], lit R (valueLit d.2)))))) =
      some (.dict (o.defaults.map itemObj)) := by
    simp only [eval, evalItems_entries h]
    have := itemsOf_items [] o.defaults (by simpa using hd)
    simp only [List.map_nil, List.nil_append] at this
    simp [this]
  have hl : eval P (list (o.tokens.map (token R))) = some (.list (o.tokens.map .token)) := eval_map _ _ _ ht
  rw [options, eval_call (.cons hl (.cons (eval_text h _) (.cons hdict .nil))),
    construct_full (c := .options) rfl rfl rfl]
  obtain ⟨t, s, d⟩ := o
  simp only [build, asList_map (f := asToken) (g := .token) (fun _ => rfl)]
  simp [asText, asStr, orAbsent, asDict, asDefaults_items]

theorem eval_positionals (h : LiteralsRead P R) {o : Opts} (ht : ∀ t ∈ o.tokens, eval P (token R t) = some (.token t)) (hd : DistinctKeys o.defaults) :
    eval P (positionals R o) = some (.positionals o) := by
  rw [positionals, eval_call (.cons (eval_options h ht hd) .nil), construct_full (c := .positionals) rfl rfl rfl]
  rfl

theorem eval_sect (h : LiteralsRead P R) {s : Section} (hn : Constants.sectionNames.contains (Uni.lower s.name) = true)
    (ht : ∀ t ∈ s.options.tokens, eval P (token R t) = some (.token t)) (hd : DistinctKeys s.options.defaults) : eval P (sect R s) = some (.sect s) := by
  rw [sect, eval_call (.cons (eval_text h _) (.cons (eval_options h ht hd) (.cons (eval_text h _) (.cons (eval_text h _)
    (.cons (eval_lines h _) .nil))))), construct_full (c := .sect) rfl rfl rfl]
  have hm : Sections.mkSection s.name (some s.options) s.delimiter s.separator s.data = .ok s := by
    simp only [Sections.mkSection, hn]
    rfl
  simp only [build, orEmpty_strs]
  simp [asStr, orAbsent, asOptions, result, hm]

theorem eval_sections (h : LiteralsRead P R) {l : Sections} (hl : ∀ s ∈ l, Constants.sectionNames.contains (Uni.lower s.name) = true ∧
    (∀ t ∈ s.options.tokens, eval P (token R t) = some (.token t)) ∧ DistinctKeys s.options.defaults) : eval P (sections R l) = some (.sections l) := by
  rw [sections, eval_call (.cons (eval_map _ _ _ fun s hs => eval_sect h (hl s hs).1 (hl s hs).2.1 (hl s hs).2.2) .nil),
    construct_full (c := .sections) rfl rfl rfl]
  simp only [build, orEmpty_map (f := asSection) (g := .sect) (fun _ => rfl)]
  rfl

theorem eval_prepMacro (h : LiteralsRead P R) {m : PrepMacro} (ht : ∀ t ∈ m.options.tokens, eval P (token R t) = some (.token t)) (hd : DistinctKeys m.options.defaults) :
    eval P (prepMacro R m) = some (.prepMacro m) := by
  rw [prepMacro, eval_call (.cons (eval_text h _) (.cons (eval_options h ht hd) (.cons (eval_text h _) (.cons (eval_text h _)
    (.cons (eval_text h _) (.cons (eval_lines h _) .nil)))))),
    construct_full (c := .prepMacro m.kind) (by cases m.kind <;> rfl) rfl rfl]
  simp only [build, orEmpty_strs]
  rfl

theorem eval_prepMacros (h : LiteralsRead P R) {p : Prep} (hp : ∀ m ∈ p.data,
    (∀ t ∈ m.options.tokens, eval P (token R t) = some (.token t)) ∧ DistinctKeys m.options.defaults) :
    eval P (prepMacros R p) = some (.prepMacros p) := by
  rw [prepMacros, eval_call (.cons (eval_map _ _ _ fun m hm => eval_prepMacro h (hp m hm).1 (hp m hm).2)
    (.cons (eval_lines h _) .nil)), construct_full (c := .prepMacros) rfl rfl rfl]
  simp only [build, orEmpty_strs, orEmpty_map (f := asPrepMacro) (g := .prepMacro) (fun _ => rfl)]
  rfl

theorem eval_prep (h : LiteralsRead P R) {p : Prep} (hp : ∀ m ∈ p.data,
    (∀ t ∈ m.options.tokens, eval P (token R t) = some (.token t)) ∧ DistinctKeys m.options.defaults) :
    eval P (prep R p) = some (.prep p) := by
  rw [prep, eval_call (.cons (eval_prepMacros h hp) .nil), construct_full (c := .prep) rfl rfl rfl]
  rfl

/-! ### sources -/

theorem eval_tagSource (h : LiteralsRead P R) (b : Bool) {t : Tag × Option SpecKey} (n : Option Int)
    (hn : Tags.mkTag t.1 = .ok t.1) (hk : ContextSaved P t.2) : eval P (tagSource R b t n) = some (.tagSource b t n) := by
  rw [tagSource, eval_call (.cons (eval_tag h hn hk) (.cons (eval_lit h _) .nil)),
    construct_full (c := .tagSource b) (by cases b <;> rfl) rfl rfl]
  cases n <;> rfl

theorem eval_listSource (h : LiteralsRead P R) (b : Bool) {e : SourcelistEntry × Option SpecKey} (n : Int) (hk : ContextSaved P e.2) :
    eval P (listSource R b e n) = some (.listSource b e n) := by
  rw [listSource, eval_call (.cons (eval_listed h hk) (.cons (eval_lit h _) .nil)),
    construct_full (c := .listSource b) (by cases b <;> rfl) rfl rfl]
  rfl

theorem eval_sources (h : LiteralsRead P R) {s : SourcesObj} (ht : ∀ t ∈ s.tags, Tags.mkTag t.1 = .ok t.1 ∧ ContextSaved P t.2)
    (hl : ∀ l ∈ s.lists, ∀ e ∈ l.1, ContextSaved P e.2) (hk : ContextSaved P s.context) :
    eval P (sources R s) = some (.sources s) := by
  rw [sources, eval_call (.cons (eval_tags h ht) (.cons (eval_map _ _ _ fun l hx => eval_sourcelist h (hl l hx))
    (.cons (eval_truth h _) (.cons (eval_truth h _) (.cons (eval_lit h _) (.cons (eval_context h hk) .nil)))))),
    construct_full (c := .sources s.patches) (by cases s.patches <;> rfl) rfl rfl]
  simp only [build, asList_map (f := asSourcelist) (g := .sourcelist) (fun _ => rfl), asContext]
  rfl

end Specfile.ReprProof
