import Verif.Proof.Repr
import Verif.Proof.ValueParserInv
/-
Evaluating the representations of values and versions, and representations that cannot be evaluated.
-/
namespace Specfile.ReprProof
open Py Spec Construct Representation
open Formatter hiding text
open Options (Opts Val)
open Equality (SpecKey ParserKey)

variable [Uni] {P : Python} {R : Lit → Str}

omit [Uni] in
theorem words_join (n : Str) (args : List Str) (h : ∀ w ∈ n :: args, w ≠ [] ∧ ∀ c ∈ w, isSpace c = false) :
    words (n ++ if args.isEmpty then [] else ' ' :: joinC ' ' args) = n :: args := by
  induction args generalizing n with
  | nil =>
    have hn := h n (by simp)
    simp [words, splitP_of_all_neg hn.2, hn.1]
  | cons a args ih =>
    have hn := h n (by simp)
    have ih := ih a (fun w hw => h w (by simp at hw ⊢; right; exact hw))
    simp only [words, List.isEmpty_cons, Bool.false_eq_true, if_false] at ih ⊢
    rw [splitP_append_sep _ hn.2 (by decide), List.filter_cons]
    have : joinC ' ' (a :: args) = a ++ if args.isEmpty then [] else ' ' :: joinC ' ' args := by
      cases args <;> simp [joinC]
    rw [this, ih]
    simp [hn.1]

omit [Uni] in
theorem splitPrefix_flags {p n : Str} (hp : p.all isFlag = true) (hn : NoFlagStart n) :
    ValueParser.splitPrefix (p ++ n) = (p, n) := by
  have hq : ValueParser.isQB = isFlag := rfl
  have hp' : ∀ c ∈ p, isFlag c = true := by simpa using hp
  have h0 : n.takeWhile isFlag = [] ∧ n.dropWhile isFlag = n := by
    cases n with
    | nil => simp
    | cons c n => have := hn c (by simp); simp [this]
  simp only [ValueParser.splitPrefix, hq]
  rw [List.takeWhile_append_of_pos hp', List.dropWhile_append_of_pos hp', h0.1, h0.2]
  simp

mutual
theorem eval_node (h : LiteralsRead P R) : ∀ n : Node, Rebuildable n → eval P (node R n) = some (.node n)
  | .lit v, _ => by
    rw [node, eval_call (.cons (eval_text h _) .nil), construct_full (c := .literal) rfl rfl rfl]; rfl
  | .shell v, _ => by
    rw [node, eval_call (.cons (eval_text h _) .nil), construct_full (c := .shell) rfl rfl rfl]; rfl
  | .expr v, _ => by
    rw [node, eval_call (.cons (eval_text h _) .nil), construct_full (c := .expression) rfl rfl rfl]; rfl
  | .sub p n, hr => by
    rw [Rebuildable] at hr
    rw [node, eval_call (.cons (eval_text h _) .nil), construct_full (c := .sub) rfl rfl rfl]
    simp [build, asStr, ValueParser.mkSub, splitPrefix_flags hr.1 hr.2]
  | .encl p n args, hr => by
    rw [Rebuildable] at hr
    rw [node, eval_call (.cons (eval_text h _) .nil), construct_full (c := .encl) rfl rfl rfl]
    have hn : NoFlagStart (n ++ if args.isEmpty then [] else ' ' :: joinC ' ' args) := by
      intro c hc
      have hne := (hr.2.2 n (by simp)).1
      cases n with
      | nil => exact absurd rfl hne
      | cons d n => exact hr.2.1 c (by simpa using hc)
    have hm : ValueParser.mkEncl (p ++ n ++ if args.isEmpty then [] else ' ' :: joinC ' ' args) = .ok (.encl p n args) := by
      rw [List.append_assoc, ValueParser.mkEncl, splitPrefix_flags hr.1 hn]
      simp only [words_join n args hr.2.2]
    simp only [build, asStr, Option.bind_eq_bind, Option.bind_some, hm, result]
  | .cond p n body, hr => by
    rw [Rebuildable] at hr
    rw [node, eval_call (.cons (eval_text h _) (.cons (eval_list (each_nodes h body hr.2.2)) .nil)),
      construct_full (c := .cond) rfl rfl rfl]
    simp [build, asStr, splitPrefix_flags hr.1 hr.2.1, asList_map (f := asNode) (g := .node) (fun _ => rfl)]
  | .builtin n b, _ => by
    rw [node, eval_call (.cons (eval_text h _) (.cons (eval_text h _) .nil)), construct_full (c := .builtin) rfl rfl rfl]
    rfl
theorem each_nodes (h : LiteralsRead P R) : ∀ l : List Node, AllRebuildable l → Each P (nodes R l) (l.map .node)
  | [], _ => by rw [nodes]; exact .nil
  | n :: ns, hr => by
    rw [AllRebuildable] at hr
    rw [nodes]
    exact .cons (eval_node h n hr.1) (each_nodes h ns hr.2)
end

omit [Uni] in
theorem allRebuildable_append {a b : List Node} (ha : AllRebuildable a) (hb : AllRebuildable b) :
    AllRebuildable (a ++ b) := by
  induction a with
  | nil => exact hb
  | cons n a ih => rw [AllRebuildable] at ha; rw [List.cons_append, AllRebuildable]; exact ⟨ha.1, ih ha.2⟩

omit [Uni] in
theorem noneSplit_append {a b : List Node} : NoneSplitFlags (a ++ b) ↔ NoneSplitFlags a ∧ NoneSplitFlags b := by
  induction a with
  | nil => simp [NoneSplitFlags]
  | cons n a ih => simp [NoneSplitFlags, ih, and_assoc]

omit [Uni] in
theorem splitPrefix_good (s : Str) : (ValueParser.splitPrefix s).1.all isFlag = true ∧
    NoFlagStart (ValueParser.splitPrefix s).2 := by
  have hq : ValueParser.isQB = isFlag := rfl
  simp only [ValueParser.splitPrefix, hq]
  constructor
  · exact List.all_takeWhile
  · intro c hc
    induction s with
    | nil => simp at hc
    | cons d s ih =>
      by_cases hd : isFlag d = true
      · rw [List.dropWhile_cons_of_pos hd] at hc; exact ih hc
      · rw [List.dropWhile_cons_of_neg hd] at hc
        simp at hc
        subst hc
        simpa using hd

theorem mkNode_rebuildable {fuel : Nat} {c : Char} {m : Str} {n : Node} (hn : ValueParser.mkNode fuel c m = .ok n)
    (ih : ∀ (b : Str) (ns : List Node), ValueParser.parseF fuel 0 b 0 = .ok ns → NoneSplitFlags ns → AllRebuildable ns)
    (hf : NoSplitFlags n) : Rebuildable n := by
  unfold ValueParser.mkNode at hn
  split at hn
  · cases hn; simp [Rebuildable]
  · split at hn
    · cases hn; simp [Rebuildable]
    · split at hn
      · split at hn
        · rename_i condition body _
          split at hn
          · cases hp : ValueParser.parseF fuel 0 body 0 with
            | error e => rw [hp] at hn; cases hn
            | ok ns =>
              rw [hp] at hn
              cases hn
              rw [NoSplitFlags] at hf
              rw [Rebuildable]
              exact ⟨(splitPrefix_good _).1, (splitPrefix_good _).2, ih _ _ hp hf⟩
          · cases hn; simp [Rebuildable]
        · unfold ValueParser.mkEncl at hn
          split at hn
          · cases hn
          · rename_i w args hw
            cases hn
            rw [NoSplitFlags] at hf
            rw [Rebuildable]
            exact ⟨(splitPrefix_good _).1, hf, fun x hx => by rw [← hw] at hx; exact ⟨mem_words_ne_nil hx, mem_words_no_space hx⟩⟩
      · cases hn
        rw [ValueParser.mkSub, Rebuildable]
        exact splitPrefix_good _

theorem parseF_rebuildable (fuel : Nat) : ∀ {start : Nat} {rest : Str} {offset : Nat} {ns : List Node},
    ValueParser.parseF fuel start rest offset = .ok ns → NoneSplitFlags ns → AllRebuildable ns := by
  induction fuel with
  | zero => intro _ _ _ _ h; simp [ValueParser.parseF] at h
  | succ fuel ih =>
    intro start rest offset ns h hf
    rcases ValueParser.parseF_ok_cases h with ⟨_, rfl⟩ | ⟨_, _, rfl⟩ | ⟨b, a, _, _, h⟩ |
      ⟨b, c, a, m, rest', node, ns', e1, e2, hc, hm, hn, hr, rfl⟩
    · simp [AllRebuildable]
    · simp [AllRebuildable, Rebuildable]
    · exact ih h hf
    · obtain ⟨_, hf⟩ := noneSplit_append.1 hf
      rw [NoneSplitFlags] at hf
      refine allRebuildable_append ?_ ?_
      · split <;> simp [AllRebuildable, Rebuildable]
      · rw [AllRebuildable]
        exact ⟨mkNode_rebuildable hn (fun b ns h => ih h) hf.1, ih hr hf.2⟩

/-! ### versions -/

theorem eval_evr (h : LiteralsRead P R) (x : EVR) : eval P (evr R x) = some (.evr x) := by
  simp only [evr, keywords, eval, evalItems, eval_lit h, eval_text h]
  rfl

theorem eval_nevr (h : LiteralsRead P R) (x : NEVR) : eval P (nevr R x) = some (.nevr x) := by
  simp only [nevr, keywords, eval, evalItems, eval_lit h, eval_text h]
  rfl

theorem eval_nevra (h : LiteralsRead P R) {x : NEVRA} (ha : Utils.nevraInit P.arches x = .ok x) :
    eval P (nevra R x) = some (.nevra x) := by
  obtain ⟨y, hy, hy'⟩ := eval_optText h x.release
  simp only [nevra, keywords, eval, evalItems, eval_lit h, eval_text h, hy]
  have : ∀ y, (arguments [.kw (s% "name") (.lit (.str x.name)), .kw (s% "epoch") (.lit (.int x.epoch)),
      .kw (s% "version") (.lit (.str x.version)), .kw (s% "release") y, .kw (s% "arch") (.lit (.str x.arch))]) =
      some ([], [(s% "name", .lit (.str x.name)), (s% "epoch", .lit (.int x.epoch)), (s% "version", .lit (.str x.version)),
        (s% "release", y), (s% "arch", .lit (.str x.arch))]) := fun _ => rfl
  simp only [Option.bind_eq_bind, Option.bind_some, this, construct]
  have hc : classOf (s% "NEVRA") = some .nevra := rfl
  have hb : bindArguments (signature .nevra) [] [(s% "name", .lit (.str x.name)), (s% "epoch", .lit (.int x.epoch)),
      (s% "version", .lit (.str x.version)), (s% "release", y), (s% "arch", .lit (.str x.arch))] =
      some [.lit (.str x.name), .lit (.str x.version), y, .lit (.str x.arch), .lit (.int x.epoch)] := rfl
  simp only [hc, hb, Option.bind_some, build, hy']
  simp [asStr, asInt, ha, result]

/-! ### objects -/

theorem evalItems_none {es : List Expr} {e : Expr} (he : e ∈ es) (h : eval P e = none) :
    evalItems P (positional es) = none := by
  induction es with
  | nil => cases he
  | cons x es ih =>
    rw [positional, evalItems]
    rcases List.mem_cons.1 he with rfl | he
    · simp [h]
    · cases eval P x <;> simp [ih he]

theorem eval_call_none {f : Str} {es : List Expr} {e : Expr} (he : e ∈ es) (h : eval P e = none) :
    eval P (call f es) = none := by simp [call, eval, evalItems_none he h]

theorem eval_list_none {es : List Expr} {e : Expr} (he : e ∈ es) (h : eval P e = none) :
    eval P (list es) = none := by simp [list, eval, evalItems_none he h]

theorem eval_object (h : ObjectsNotRead P) {r : Str} (hr : isObject r = true) : eval P (.const r) = none := by
  simp [eval, (h r hr).1, (h r hr).2]

theorem eval_member {e : Expr} {x : Obj} (h : StandsFor P e x) : eval P e = some x := by
  obtain ⟨r, rfl, h1, h2⟩ := h
  simp [eval, h1, h2]

theorem eval_token (h : LiteralsRead P R) {level : Int → Str} (hm : MembersRead P level) (t : Token) :
    eval P (token R t) = some (.token t) := by
  rw [token, eval_call (.cons (eval_member (hm.types t.type)) (.cons (eval_text h _) .nil)),
    construct_full (c := .token) rfl rfl rfl]
  rfl

theorem eval_definition (h : LiteralsRead P R) {level : Int → Str} (hm : MembersRead P level) (m : MacroDefinition) :
    eval P (definition R m) = some (.definition m) := by
  rw [definition, eval_call (.cons (eval_text h _) (.cons (eval_text h _) (.cons (eval_truth h _) (.cons (eval_truth h _)
    (.cons (eval_member (hm.styles m.style)) (.cons (eval_tuple (.cons (eval_text h _) (.cons (eval_text h _)
    (.cons (eval_text h _) (.cons (eval_text h _) .nil))))) (.cons (eval_text h _) (.cons (eval_truth h _)
    (.cons (eval_lines h _) .nil))))))))), construct_full (c := .definition) rfl rfl rfl]
  simp only [build, orEmpty_strs]
  rfl

theorem eval_definitions_all (h : LiteralsRead P R) {level : Int → Str} (hm : MembersRead P level) (m : MacroDefinitions) :
    eval P (macroDefinitions R m) = some (.definitions m) := by
  rw [macroDefinitions, eval_call (.cons (eval_map _ _ _ fun d _ => eval_definition h hm d) (.cons (eval_lines h _) .nil)),
    construct_full (c := .definitions) rfl rfl rfl]
  simp only [build, orEmpty_strs, orEmpty_map (f := asDefinition) (g := .definition) (fun _ => rfl)]
  rfl

theorem eval_rpmMacro (h : LiteralsRead P R) {level : Int → Str} (hm : MembersRead P level) (m : Macro) :
    eval P (rpmMacro R level m) = some (.rpmMacro m) := by
  obtain ⟨y, hy, hy'⟩ := eval_optText h m.options
  rw [rpmMacro, eval_call (.cons (eval_text h _) (.cons hy (.cons (eval_text h _) (.cons (eval_member (hm.levels m.level))
    (.cons (eval_truth h _) .nil))))), construct_full (c := .rpmMacro) rfl rfl rfl]
  simp [build, asStr, hy', asLevel, asBool]

theorem eval_token_none (h : ObjectsNotRead P) (t : Token) : eval P (token R t) = none :=
  eval_call_none (e := tokenType t.type) (by simp) (by
    obtain ⟨ty, v⟩ := t
    cases ty <;> exact eval_object h rfl)

theorem eval_options_none (h : ObjectsNotRead P) {o : Opts} (ho : o.tokens ≠ []) : eval P (options R o) = none := by
  obtain ⟨t, ht⟩ := List.exists_mem_of_ne_nil _ ho
  exact eval_call_none (e := list (o.tokens.map (token R))) (by simp)
    (eval_list_none (List.mem_map.2 ⟨t, ht, rfl⟩) (eval_token_none h t))

theorem eval_definition_none (h : ObjectsNotRead P) (m : MacroDefinition) : eval P (definition R m) = none :=
  eval_call_none (e := style m.style) (by simp) (by cases m.style <;> exact eval_object h rfl)

theorem eval_macroDefinitions_none (h : ObjectsNotRead P) {m : MacroDefinitions} (hm : m.data ≠ []) :
    eval P (macroDefinitions R m) = none := by
  obtain ⟨d, hd⟩ := List.exists_mem_of_ne_nil _ hm
  exact eval_call_none (e := list (m.data.map (definition R))) (by simp)
    (eval_list_none (List.mem_map.2 ⟨d, hd, rfl⟩) (eval_definition_none h d))

theorem eval_macroDefinitions (h : LiteralsRead P R) {m : MacroDefinitions} (hm : m.data = []) :
    eval P (macroDefinitions R m) = some (.definitions m) := by
  obtain ⟨d, r⟩ := m
  subst hm
  show eval P (call _ [list [], lines R r]) = _
  rw [eval_call (.cons (eval_list (xs := []) .nil) (.cons (eval_lines h _) .nil)),
    construct_full (c := .definitions) rfl rfl rfl]
  simp only [build, orEmpty_strs]
  rfl

theorem eval_rpmMacro_none (h : ObjectsNotRead P) {level : Int → Str} (hl : ∀ n, isObject (level n) = true) (m : Macro) :
    eval P (rpmMacro R level m) = none :=
  eval_call_none (e := .const (level m.level)) (by simp) (eval_object h (hl _))

end Specfile.ReprProof
