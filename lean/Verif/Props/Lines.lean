import Verif.Props.Build
/-!
# Lines: options and names (C58), choices with a single alternative (C43)
-/

namespace Joeson

variable {compile : Bytes → Except Panic Node}

namespace Spec

/-- The last of the given callbacks. -/
def lastCb (opts : List LineOpt) : Option Nat :=
  (opts.filterMap fun | .cb c => some c | _ => none).getLast?

/-- The last `Debug{..}` given. -/
def lastDebug (opts : List LineOpt) : Option Bool :=
  (opts.filterMap fun | .debug b => some b | _ => none).getLast?

/-- The last `SkipLog{..}` given. -/
def lastSkipLog (opts : List LineOpt) : Option Bool :=
  (opts.filterMap fun | .skipLog b => some b | _ => none).getLast?

/-- The last `SkipCache{..}` given. -/
def lastSkipCache (opts : List LineOpt) : Option Bool :=
  (opts.filterMap fun | .skipCache b => some b | _ => none).getLast?

end Spec

open Spec

theorem opts_fold (opts : List LineOpt) : ∀ o : RuleOpts, opts.foldl RuleOpts.apply o =
    ⟨(lastDebug opts).getD o.debug, (lastSkipLog opts).getD o.skipLog, (lastSkipCache opts).getD o.skipCache,
      (lastCb opts).or o.cb⟩ := by
  induction opts with
  | nil => intro o; simp [lastDebug, lastSkipLog, lastSkipCache, lastCb]
  | cons x l ih =>
    intro o
    rw [List.foldl_cons, ih]
    cases x <;>
    simp [RuleOpts.apply, lastDebug, lastSkipLog, lastSkipCache, lastCb, List.getLast?_cons, Option.getD] <;>
    (try split) <;> simp_all

/-- C58: a text given to `O` or `I` under a name, with any options in any order. The rule made has that name, and of
each kind of option the last one counts; without a callback there is none, and the others are off. -/
theorem C58_last_option_counts (n : String) (hn : n ≠ "") (s : Bytes) (opts : List LineOpt) (p : Node) (hp : compile s = .ok p)
    (r : Rank) (next : Nat) :
    let p' := p.setInfo fun i => { i with
      name := n, debug := (lastDebug opts).getD false, skipCache := (lastSkipCache opts).getD false, cb := lastCb opts }
    (∃ l, lineO (.named n (.text s)) opts = .ok l ∧
      rankLine compile r next l = .ok ({ r with alts := r.alts ++ [.leaf next .rule p'] }, next + 1)) ∧
    ∃ l, lineI (.named n (.text s)) opts = .ok l ∧
      rankLine compile r next l = .ok (r.include n (.leaf next .rule p'), next + 1) := by
  have hname : ∀ f : Info → Info, (p.setInfo f).info = f p.info ∨ ∃ k, p = .rule k := by
    intro f; cases p <;> simp [Node.setInfo, Node.info]
  have hset : ∀ f g : Info → Info, (p.setInfo f).setInfo g = p.setInfo fun i => g (f i) := by
    intro f g; cases p <;> rfl
  have key : ∀ o : RuleOpts, ∀ parent : String, getRule compile n parent o next (.o "" (.s s) {}) =
      .ok (.leaf next .rule (p.setInfo fun i => { i with name := n, debug := o.debug, skipCache := o.skipCache, cb := o.cb }), next + 1) := by
    intro o parent
    have h1 : getRuleEnd n o (.leaf next .rule (p.setInfo fun i => { i with name := n, debug := o.debug, skipCache := o.skipCache, cb := o.cb }))
        = .ok (.leaf next .rule (p.setInfo fun i => { i with name := n, debug := o.debug, skipCache := o.skipCache, cb := o.cb })) := by
      have : ¬ (((p.setInfo fun i => { i with name := n, debug := o.debug, skipCache := o.skipCache, cb := o.cb }).info.name ≠ "") ∧
          (p.setInfo fun i => { i with name := n, debug := o.debug, skipCache := o.skipCache, cb := o.cb }).info.name ≠ n) := by
        cases p <;> simp [Node.setInfo, Node.info]
      simp only [getRuleEnd, Rules.name, if_neg this, Rules.setInfo, hset]
    have h2 : getRule compile n parent o next (.s s) = .ok (.leaf next .rule (p.setInfo fun i => { i with name := n, debug := o.debug, skipCache := o.skipCache, cb := o.cb }), next + 1) := by
      rw [getRule]
      simp only [hp, bind, Except.bind, h1, pure, Except.pure]
    have h3 : oLineName "" n parent 0 = n := by simp [oLineName, hn]
    rw [getRule, h3]
    simp only [h2, bind, Except.bind, pure, Except.pure]
    have h4 : (if (Rules.leaf next .rule (p.setInfo fun i => { i with name := n, debug := o.debug, skipCache := o.skipCache, cb := o.cb })).name = ""
        then (Rules.leaf next .rule (p.setInfo fun i => { i with name := n, debug := o.debug, skipCache := o.skipCache, cb := o.cb })).setInfo fun i => { i with name := n }
        else (Rules.leaf next .rule (p.setInfo fun i => { i with name := n, debug := o.debug, skipCache := o.skipCache, cb := o.cb })))
        = Rules.leaf next .rule (p.setInfo fun i => { i with name := n, debug := o.debug, skipCache := o.skipCache, cb := o.cb }) := by
      split
      · simp only [Rules.setInfo, hset]
      · rfl
    rw [h4, h1]
  have hopts := opts_fold opts {}
  simp only [Option.or_none] at hopts
  have key := key (opts.foldl RuleOpts.apply {})
  rw [hopts] at key
  refine ⟨⟨.o n (.o "" (.s s) {}) (opts.foldl RuleOpts.apply {}), rfl, ?_⟩,
    ⟨.i n (.o "" (.s s) {}) (opts.foldl RuleOpts.apply {}), ?_, ?_⟩⟩
  · rw [rankLine, hopts]
    have h3 : oLineName n "" r.name r.alts.length = n := by simp [oLineName, hn]
    rw [h3]
    simp only [bind, Except.bind, key]
    rfl
  · simp only [lineI, lineInit, rule2line, namedLine, bind, Except.bind, pure, Except.pure, if_neg hn]
  · rw [rankLine, hopts]
    simp only [bind, Except.bind, key]
    rfl

example : let opts := [LineOpt.cb 1, .debug true, .skipCache true, .cb 2, .debug false]
    lastCb opts = some 2 ∧ lastDebug opts = some false ∧ lastSkipCache opts = some true ∧ lastSkipLog opts = none ∧
    Sample.compileX (asc "x") = .ok (.str { capture := false } (asc "x")) := by
  exact ⟨rfl, rfl, rfl, rfl, if_pos rfl⟩

/-- C58: the options of a line given to `O` or `I` inside another line are lost: only those of the outer line count,
however many callbacks the inner one has. -/
theorem C58_inner_options_lost (name own parent : String) (outer inner inner' : RuleOpts) (next : Nat) (content : Line) :
    getRule compile name parent outer next (.o own content inner) = getRule compile name parent outer next (.o own content inner') := by
  rw [getRule, getRule]

/-- A line made of lines or of a parser, possibly inside other lines: there is no rule text. -/
inductive NoText : Line → Prop
  | a (ls) : NoText (.a ls)
  | c (b p) : NoText (.c b p)
  | o {own content opts} : NoText content → NoText (.o own content opts)

theorem getRule_noText {content : Line} (hc : NoText content) (name parent : String) (opts : RuleOpts) (next : Nat) :
    getRule compile name parent opts next content = getRule compile name parent { cb := opts.cb } next content := by
  induction hc generalizing name parent next with
  | a ls => rw [getRule, getRule]; rfl
  | c b p => rw [getRule, getRule]; rfl
  | o h ih => rw [getRule, getRule, ih]; rfl

/-- C58: for a rule made of lines or of a parser, all options but the callback are dropped (line.go:152-156, 205): `Debug`, `SkipLog`
and `SkipCache` do not change the rule. -/
theorem C58_options_of_ranks_dropped {content : Line} (hc : NoText content) (own : String) (opts opts' : List LineOpt)
    (h : lastCb opts = lastCb opts') (r : Rank) (next : Nat) :
    rankLine compile r next (.o own content (opts.foldl RuleOpts.apply {})) = rankLine compile r next (.o own content (opts'.foldl RuleOpts.apply {})) ∧
    rankLine compile r next (.i own content (opts.foldl RuleOpts.apply {})) = rankLine compile r next (.i own content (opts'.foldl RuleOpts.apply {})) := by
  have hcb : (opts.foldl RuleOpts.apply {}).cb = (opts'.foldl RuleOpts.apply {}).cb := by
    rw [opts_fold, opts_fold, Option.or_none, Option.or_none, h]
  constructor
  · rw [rankLine, rankLine, getRule_noText hc _ _ (opts.foldl RuleOpts.apply {}), getRule_noText hc _ _ (opts'.foldl RuleOpts.apply {}), hcb]
  · rw [rankLine, rankLine, getRule_noText hc _ _ (opts.foldl RuleOpts.apply {}), getRule_noText hc _ _ (opts'.foldl RuleOpts.apply {}), hcb]

/-- A rank with `SkipCache` and `Debug`, and one without options. -/
example : NoText (.a [.o "" (.s (asc "x")) {}]) ∧ lastCb [.skipCache true, .debug true] = lastCb [] := ⟨.a _, rfl⟩

/-- C58: a line named `a` around a line named otherwise panics when the grammar is built. -/
theorem C58_two_names_panic (a b parent : String) (hb : b ≠ "") (hab : a ≠ b) (s : Bytes) (p : Node)
    (hp : compile s = .ok p) (hk : ∀ k, p ≠ .rule k) (opts inner : RuleOpts) (next : Nat) :
    getRule compile a parent opts next (.o b (.s s) inner) = .error .assertion := by
  have h3 : oLineName b a parent 0 = b := by simp [oLineName, hb]
  have hset : ∀ f g : Info → Info, (p.setInfo f).setInfo g = p.setInfo fun i => g (f i) := by
    intro f g; cases p <;> rfl
  have hinfo : ∀ f : Info → Info, (p.setInfo f).info = f p.info := by
    intro f
    match p, hk with
    | .rule k, hk => exact absurd rfl (hk k)
    | .str .., _ | .regex .., _ | .choice .., _ | .seq .., _ | .exist .., _ | .look .., _ | .not .., _ | .pattern .., _ | .ref .., _ => rfl
  rw [getRule, h3, getRule]
  simp only [hp, bind, Except.bind, getRuleEnd, Rules.name, hinfo, Rules.setInfo, hset, pure, Except.pure, ne_eq, not_true_eq_false,
    and_false, if_false, hb, not_false_eq_true, true_and]
  rw [if_pos (fun h => hab h.symm)]

/-- The public way to such a line, and to one whose inner callback is lost. -/
example : (match lineO (.named "b" (.text (asc "x"))) [.cb 7] with
    | .ok l => (match lineO (.named "a" (.line l)) [.cb 8] with
      | .ok l => (match rankLine Sample.compileX { name := "S" } 1 l with | .error .assertion => true | _ => false)
      | _ => false)
    | _ => false) = true ∧
    (match lineO (.plain (.text (asc "x"))) [.cb 7] with
    | .ok l => (match lineO (.named "a" (.line l)) [] with
      | .ok l => (match rankLine Sample.compileX { name := "S" } 1 l with
        | .ok (r, _) => r.alts.map (fun x => match x with | .leaf _ _ n => (n.info.name, n.info.cb) | _ => ("", none)) | _ => [])
      | _ => [])
    | _ => []) = [("a", none)] := by
  constructor <;> decide +kernel

/-- C58: `I` without a name panics, whatever else is given. -/
theorem C58_include_needs_name (x : LineArg) (opts : List LineOpt) : lineI (.plain x) opts = .error .assertion := by
  cases x with
  | text => rfl
  | parser => rfl
  | line l => cases l <;> rfl

/-! ## C43: choices with a single alternative -/

/-- Labels of the parts of the rules that are sequences. -/
def Sample.partLabels (x : Except Panic Made) : Option (List (List String)) :=
  match x with
  | .ok m => some (m.g.rules.map fun | .seq _ _ l => l.map (·.info.label) | _ => [])
  | .error _ => none

/-- Where a choice has a single alternative, the alternative takes its place, with the label of the choice unless it has
one of its own (grammar.go:235-248). -/
theorem C43_single_alternative_label :
    Sample.partLabels (grammarFromLines Sample.compileX "S" [.o "A" (.c false (.seq {} .single
      [.choice { label := "x" } [.str {} (asc "a")], .choice { label := "y" } [.str { label := "z" } (asc "b")],
        .str { capture := false } (asc "c")])) {}]) = some [["x", "z", ""]] := by
  decide +kernel

/-- A rule that is a choice with a single alternative is no rule any more: its name is gone from the grammar, and the
rules after it have other numbers. Rule texts never give such a choice; parsers made in Go do. -/
theorem C43_single_alternative_rule_lost :
    Sample.namesOf (grammarFromLines Sample.compileX "S"
      [.o "A" (.c false (.choice {} [.str {} (asc "a")])) {}, .o "B" (.c false (.choice {} [.str {} (asc "a"), .str {} (asc "b")])) {}])
      = some ["B"] := by
  decide +kernel

end Joeson
