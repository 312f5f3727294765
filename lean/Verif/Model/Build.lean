import Verif.Model.Engine
/-!
# line*.go, parser_rank.go, grammar.go postinit: from lines to a grammar

Parsers that are not part of a grammar yet are `Node`s too: their attributes `parent` and `ruleName`, and the type of
sequences, are set when the grammar is built.

Simplifications.
* A parser given to `O`, `I` or `Named` is not shared with another line or another grammar, and is not itself a
  `*Grammar`.
* The type of a sequence is computed when the grammar is built, not at the first parse. Where this could make a
  difference (a reference labelled `@` to a rule that is missing, not prepared yet, or reached again from itself) the
  model stops with the panic `notModelled`.
* A parser given to `Named` becomes a rule that is not memoised: it is wrapped twice in a `cLine` (line_named.go:15-16,
  line.go:113-114, a `cLine` being a `Parser` itself), the rule is then the inner `cLine`, and the parser it contains is
  not a rule for packrat.go:297 (`IsRule` compares it with the `cLine`). In the grammar the engine sees, a reference to
  such a rule is replaced by a choice with the rule's parser as only alternative. The difference is that a choice moves
  back when it fails, but so does whatever tries something else then. Rules of this kind that refer to themselves
  are not modelled (panic `notModelled`).
* What is printed (`TRACE=grammar`, the messages of panics) is left out.
-/

namespace Joeson

/-- parseoption.go:30-47 `parseOptions` -/
structure RuleOpts where
  debug : Bool := false
  skipLog : Bool := false
  skipCache : Bool := false
  cb : Option Nat := none

/-- An argument of `O` or `I` after the first: line.go:37-53. Callbacks are numbered. -/
inductive LineOpt where
  | cb (c : Nat)
  | debug (b : Bool)
  | skipLog (b : Bool)
  | skipCache (b : Bool)

/-- line.go:37-53, parseoption.go:26-28: later arguments overwrite earlier ones. -/
def RuleOpts.apply (o : RuleOpts) : LineOpt → RuleOpts
  | .cb c => { o with cb := some c }
  | .debug b => { o with debug := b }
  | .skipLog b => { o with skipLog := b }
  | .skipCache b => { o with skipCache := b }

/-- line.go:12-15 and the five types of line: line_o.go:10-14, line_i.go:9-13, line_a.go:10-12, line_s.go:10-12,
line_c.go:5-7. -/
inductive Line where
  | o (name : String) (content : Line) (opts : RuleOpts)
  | i (name : String) (content : Line) (opts : RuleOpts)
  | a (lines : List Line)
  | s (text : Bytes)
  /-- `twice`: a `cLine` in a `cLine` -/
  | c (twice : Bool) (p : Node)

/-- What can be given to `Named` and as first argument to `O` and `I`: line_named.go:9-23, line.go:107-127. A `[]Line`
can only be given to `Named`. -/
inductive LineArg where
  | text (s : Bytes)
  | line (l : Line)
  | parser (p : Node)

/-- line_named.go:9-23 `Named` -/
def namedLine : LineArg → Line
  | .text s => .s s
  | .line l => l
  | .parser p => .c false p

/-- The first argument of `O` and `I`. -/
inductive LineFirst where
  | named (name : String) (x : LineArg)
  | plain (x : LineArg)

/-- line.go:107-127 `rule2line` -/
def rule2line : LineArg → Except Panic Line
  | .text s => .ok (.s s)
  | .line (.s s) => .ok (.o "" (.s s) {})
  | .parser p => .ok (.c false p)
  | .line (.a ls) => .ok (.a ls)
  | .line (.o n l opts) => .ok (.o n l opts)
  | .line (.i _ _ _) => .error .assertion
  | .line (.c _ p) => .ok (.c true p) -- a `cLine` is a `Parser`

/-- line.go:24-72 `lineInit` -/
def lineInit (first : LineFirst) (opts : List LineOpt) : Except Panic (String × Line × RuleOpts) := do
  match first with
  | .named name x => return (name, ← rule2line (.line (namedLine x)), opts.foldl RuleOpts.apply {})
  | .plain x => return ("", ← rule2line x, opts.foldl RuleOpts.apply {})

/-- line_o.go:16-19 `O` -/
def lineO (first : LineFirst) (opts : List LineOpt) : Except Panic Line := do
  let (name, content, o) ← lineInit first opts
  return .o name content o

/-- line_i.go:15-21 `I` (the panic with a message is `assertion`) -/
def lineI (first : LineFirst) (opts : List LineOpt) : Except Panic Line := do
  let (name, content, o) ← lineInit first opts
  if name = "" then throw .assertion
  return .i name content o

/-- Change the attributes of a node. -/
def Node.setInfo (f : Info → Info) : Node → Node
  | .str i s => .str (f i) s
  | .regex i re => .regex (f i) re
  | .choice i l => .choice (f i) l
  | .seq i r l => .seq (f i) r l
  | .exist i n => .exist (f i) n
  | .look i n => .look (f i) n
  | .not i n => .not (f i) n
  | .pattern i v j mn mx => .pattern (f i) v j mn mx
  | .ref i nm => .ref (f i) nm
  | .rule id => .rule id

/-- What a child of a rank is, if not a rank. -/
inductive LeafKind where
  /-- a rule: `rule.parser` is the object itself (parser.go:44-46) -/
  | rule
  /-- a rule, as `cLine` containing the parser -/
  | wrapped
  /-- not a rule -/
  | part
  deriving DecidableEq

/-- What `rankFromLines` makes: ranks, and rules that are not ranks. `addr` identifies the Go object. `rule` says
whether a rank is a rule: the top rank is not. `incl` are the included rules in the order of
`rulesK`: where a name is included again, `rules[name]` is the new rule for both places (rule.go:61-68, walk.go:45-59). -/
inductive Rules where
  | leaf (addr : Nat) (kind : LeafKind) (n : Node)
  | rank (addr : Nat) (rule : Bool) (i : Info) (incl alts : List Rules)

/-- `getRule().name` -/
def Rules.name : Rules → String
  | .leaf _ _ n => n.info.name
  | .rank _ _ i _ _ => i.name

/-- Change the attributes. -/
def Rules.setInfo (f : Info → Info) : Rules → Rules
  | .leaf a r n => .leaf a r (n.setInfo f)
  | .rank a r i incl alts => .rank a r (f i) incl alts

/-- The rank being filled by parser_rank.go:35-45. -/
structure Rank where
  name : String
  incl : List Rules := []
  alts : List Rules := []

/-- rule.go:61-68 `Include` -/
def Rank.include (r : Rank) (name : String) (x : Rules) : Rank :=
  { r with name := if r.name = "" then name else r.name,
           incl := r.incl.map (fun y => if y.name = name then x else y) ++ [x] }

/-- line_o.go:47-56: the name of a rule -/
def oLineName (own byName parent : String) (index : Nat) : String :=
  if own ≠ "" then own else if byName ≠ "" then byName else parent ++ "[" ++ toString index ++ "]"

/-- line.go:196-204: the end of `getRule` -/
def getRuleEnd (name : String) (opts : RuleOpts) (x : Rules) : Except Panic Rules :=
  if x.name ≠ "" ∧ x.name ≠ name then .error .assertion
  else .ok (x.setInfo fun i => { i with cb := opts.cb })

section
variable (compile : Bytes → Except Panic Node)

mutual
/-- line.go:142-207 `getRule`. `compile` parses the text of a rule (line.go:165-192). `next` is the next object's
number. -/
def getRule (name parent : String) (opts : RuleOpts) (next : Nat) : Line → Except Panic (Rules × Nat)
  | .a lines => do
    -- parser_rank.go:34, 48-53
    let (r, next') ← rankLines lines { name := name } (next + 1)
    return (← getRuleEnd name opts (.rank next true { name := r.name } r.incl r.alts), next')
  | .c twice p => do
    let p := p.setInfo fun i => { i with name := name }
    return (← getRuleEnd name opts (.leaf next (if twice then .wrapped else .rule) p), next + 1)
  | .i _ _ _ => throw .assertion
  | .o own content _ => do
    -- line.go:163-167, line_o.go:36-61
    let (x, next) ← getRule (oLineName own name parent 0) parent opts next content
    let x := if x.name = "" then x.setInfo fun i => { i with name := name } else x
    return (← getRuleEnd name opts x, next)
  | .s text => do
    let p ← compile text
    let p := p.setInfo fun i => { i with name := name, debug := opts.debug, skipCache := opts.skipCache, cb := opts.cb }
    return (← getRuleEnd name opts (.leaf next .rule p), next + 1)
/-- parser_rank.go:35-45: one line -/
def rankLine (r : Rank) (next : Nat) : Line → Except Panic (Rank × Nat)
  | .o own content opts => do
    -- line_o.go:36-61
    let (x, next) ← getRule (oLineName own "" r.name r.alts.length) r.name opts next content
    return ({ r with alts := r.alts ++ [x] }, next)
  | .i name content opts => do
    -- line_i.go:37-44
    let (x, next) ← getRule name r.name opts next content
    return (r.include name x, next)
  | _ => throw .assertion
/-- parser_rank.go:35-45 -/
def rankLines : List Line → Rank → Nat → Except Panic (Rank × Nat)
  | [], r, next => .ok (r, next)
  | l :: ls, r, next => do
    let (r, next) ← rankLine r next l
    rankLines ls r next
end

/-- parser_rank.go:20-46 `rankFromLines`, for the top rank, whose `rule.parser` is nil -/
def rankFromLines (name : String) (lines : List Line) : Except Panic Rules := do
  let (r, _) ← rankLines compile lines { name := name } 1
  return .rank 0 false { name := r.name } r.incl r.alts

end

/-! ## grammar.go:221-255: choices with a single alternative -/

/-- `forEachChild` on a parser: parser_choice.go:80-90, parser_sequence.go:196-204, parser_existential.go:64-74,
parser_lookahead.go:43-52, parser_not.go:46-55, parser_pattern.go:154-167, parser_ref.go:80-85, parser_regex.go:45-50,
parser_str.go:44-49. -/
def Node.mapKids (f : Node → Node) : Node → Node
  | .choice i l => .choice i (l.map f)
  | .seq i r l => .seq i r (l.map f)
  | .exist i n => .exist i (f n)
  | .look i n => .look i (f n)
  | .not i n => .not i (f n)
  | .pattern i v j mn mx => .pattern i (f v) (j.map f) mn mx
  | n => n

/-- grammar.go:235-248: what replaces a choice with a single alternative. Included rules are merged as well, but a
`*choice` never has any: only ranks include rules (parser_rank.go:41). -/
def Node.mono : Node → Option Node
  | .choice i [m] => some (m.setInfo fun j => if j.label = "" then { j with label := i.label } else j)
  | _ => none

/-- grammar.go:222-255, walk.go:14-29: `Walk` with `walkOptimizeAwayMonochoice` below a rule. The first argument bounds
the depth. -/
def walkMono : Nat → Node → Node
  | 0, n => n
  | k + 1, n => (n.mapKids fun c => (c.mono).getD (walkMono k c)).mapKids (walkMono k)

mutual
/-- Depth of a parser. -/
def Node.depth : Node → Nat
  | .choice _ l | .seq _ _ l => Node.depthList l + 1
  | .exist _ n | .look _ n | .not _ n => n.depth + 1
  | .pattern _ v none _ _ => v.depth + 1
  | .pattern _ v (some j) _ _ => max v.depth j.depth + 1
  | _ => 0
/-- Depth of the deepest of some parsers. -/
def Node.depthList : List Node → Nat
  | [] => 0
  | n :: l => max n.depth (Node.depthList l)
end

/-- `forEachChild` on a rank: included rules first (parser_choice.go:80-90, parser_rank.go:79-87). -/
def Rules.mapKids (f : Rules → Rules) : Rules → Rules
  | .rank a r i incl alts => .rank a r i (incl.map f) (alts.map f)
  | x => x

/-- grammar.go:235-248 for a child of a rank: a rank or a `cLine` is not a `*choice`. The alternative that takes the place
of the rule is not a rule. -/
def Rules.mono : Rules → Option Rules
  | .leaf _ .wrapped _ => none
  | .leaf a _ n => n.mono.map (.leaf a .part)
  | _ => none

/-- grammar.go:222-255, walk.go:14-29 on ranks and rules. -/
def walkMonoRules : Nat → Rules → Rules
  | 0, x => x
  | _ + 1, .leaf a r n => .leaf a r (walkMono (n.depth + 1) n)
  | k + 1, x => (x.mapKids fun c => (c.mono).getD (walkMonoRules k c)).mapKids (walkMonoRules k)

mutual
/-- Depth of the tree of ranks. -/
def Rules.depth : Rules → Nat
  | .leaf _ _ _ => 0
  | .rank _ _ _ incl alts => max (Rules.depthList incl) (Rules.depthList alts) + 1
/-- Depth of the deepest. -/
def Rules.depthList : List Rules → Nat
  | [] => 0
  | x :: l => max x.depth (Rules.depthList l)
end

/-- grammar.go:222-255, walk.go:14-29 on the grammar: `Pre` walks the rank, then `Walk` walks it. -/
def walkMonoGrammar (rank : Rules) : Rules := walkMonoRules (rank.depth + 1) (walkMonoRules (rank.depth + 1) rank)

/-! ## grammar.go:258-303: connecting and numbering -/

mutual
/-- grammar.go:259-284 below a rule named `rn`: set `parent` (only its `handlesChildLabel()` is read later) and
`rule.parser` (only its name is read later). `parent` is `handlesChildLabel()` of the parent: true for sequences (parser_sequence.go:51),
the answer of its own parent for optionals (parser_existential.go:18-24), false for all others. -/
def Node.attach (rn : String) (parent : Bool) : Node → Node
  | .str i s => .str { i with parent := some parent, ruleName := rn } s
  | .regex i re => .regex { i with parent := some parent, ruleName := rn } re
  | .choice i l => .choice { i with parent := some parent, ruleName := rn } (Node.attachList rn false l)
  | .seq i r l => .seq { i with parent := some parent, ruleName := rn } r (Node.attachList rn true l)
  | .exist i n => .exist { i with parent := some parent, ruleName := rn } (n.attach rn parent)
  | .look i n => .look { i with parent := some parent, ruleName := rn } (n.attach rn false)
  | .not i n => .not { i with parent := some parent, ruleName := rn } (n.attach rn false)
  | .pattern i v none mn mx => .pattern { i with parent := some parent, ruleName := rn } (v.attach rn false) none mn mx
  | .pattern i v (some j) mn mx =>
    .pattern { i with parent := some parent, ruleName := rn } (v.attach rn false) (some (j.attach rn false)) mn mx
  | .ref i nm => .ref { i with parent := some parent, ruleName := rn } nm
  | .rule id => .rule id
/-- The same for children. -/
def Node.attachList (rn : String) (parent : Bool) : List Node → List Node
  | [] => []
  | n :: l => n.attach rn parent :: Node.attachList rn parent l
end

/-- Has the parser children? -/
def Node.hasKids : Node → Bool
  | .choice _ l | .seq _ _ l => !l.isEmpty
  | .exist _ _ | .look _ _ | .not _ _ | .pattern _ _ _ _ _ => true
  | _ => false

/-- What the walk at grammar.go:258-303 has set so far. -/
structure Conn where
  /-- grammar.go:16 `numrules` -/
  numrules : Nat := 0
  /-- grammar.go:17 `id2rule`, by number: the object, its kind and its parser -/
  id2rule : List (Nat × LeafKind × Node) := []
  /-- `gm.rules`: the latest entry of a name counts -/
  names : List (String × Nat) := []
  /-- rule.go:14 `id` of an object: the latest entry counts -/
  ids : List (Nat × Nat) := []
  /-- objects visited: their parts have a parent -/
  seen : List Nat := []

/-- grammar.go:286-302 the `Post` function on a rule -/
def Conn.post (s : Conn) (addr : Nat) (kind : LeafKind) (n : Node) : Conn :=
  { s with
    numrules := s.numrules + 1
    id2rule := s.id2rule ++ [(addr, kind, n)]
    names := (n.info.name, s.numrules) :: s.names
    ids := (addr, s.numrules) :: s.ids }

mutual
/-- grammar.go:258-303, walk.go:14-29: connect and number, children first. Returns what the parent refers to. `rn` is the
name of the enclosing rule. -/
def connect (rn : String) (s : Conn) : Rules → Except Panic (Node × Conn)
  | .leaf a .rule n => do
    -- grammar.go:264-266: parts that are not rules must not be visited twice
    if s.seen.contains a && n.hasKids then throw .notDag
    let n := n.attach n.info.name false
    return (.rule s.numrules, { s with seen := a :: s.seen }.post a .rule n)
  | .leaf a .wrapped n => do
    if s.seen.contains a && n.hasKids then throw .notDag
    let n := n.attach n.info.name false
    return (.rule s.numrules, { s with seen := a :: s.seen }.post a .wrapped n)
  | .leaf a .part n => do
    if s.seen.contains a then throw .notDag
    return (n.attach rn false, { s with seen := a :: s.seen })
  | .rank a true i incl alts => do
    let (_, s) ← connectList i.name s incl
    let (l, s) ← connectList i.name s alts
    return (.rule s.numrules, s.post a .rule (.choice { i with parent := some false, ruleName := i.name } l))
  | .rank _ false i incl alts => do
    let (_, s) ← connectList rn s incl
    let (l, s) ← connectList rn s alts
    return (.choice { i with parent := some false, ruleName := rn } l, s)
/-- The same for children. -/
def connectList (rn : String) (s : Conn) : List Rules → Except Panic (List Node × Conn)
  | [] => .ok ([], s)
  | x :: l => do
    let (n, s) ← connect rn s x
    let (ns, s) ← connectList rn s l
    return (n :: ns, s)
end

/-- grammar.go:180-186 `getRuleRef` -/
def Conn.lookup (s : Conn) (name : String) : Option Nat := (s.names.find? fun p => p.1 == name).map (·.2)

/-- rule.go:14 `id` of an object -/
def Conn.idOf (s : Conn) (addr : Nat) : Option Nat := (s.ids.find? fun p => p.1 == addr).map (·.2)

/-! ## grammar.go:305-311: preparing -/

mutual
/-- `len(labels_.Get()) > 0`: rule.go:43-49, parser_sequence.go:54-60, parser_existential.go:28-46 (after `prepare`),
parser_ref.go:47-60. `follow` answers for a reference labelled `@`. -/
def Node.hasLabels (follow : String → Except Panic Bool) : Node → Except Panic Bool
  | .seq _ _ l => Node.anyLabels follow l
  | .exist i n => if i.label ≠ "" ∧ i.label ≠ "@" ∧ i.label ≠ "&" then .ok true else n.hasLabels follow
  | .ref i nm => if i.label = "@" then follow nm else .ok (i.label != "")
  | .str i _ | .regex i _ | .choice i _ | .look i _ | .not i _ | .pattern i _ _ _ _ => .ok (i.label != "")
  | .rule _ => .ok false
/-- The labels of all are computed, even if one has labels. -/
def Node.anyLabels (follow : String → Except Panic Bool) : List Node → Except Panic Bool
  | [] => .ok false
  | n :: l => do
    let a ← n.hasLabels follow
    let b ← Node.anyLabels follow l
    return a || b
end

/-- parser_ref.go:48-54: the labels of a rule, found by name among the rules prepared so far. At most as many references
are followed as there are rules. -/
def followLabels (lookup : String → Option Nat) (rules : List Node) : Nat → String → Except Panic Bool
  | k, nm => match lookup nm with
    | none => .error (.undefinedRef nm)
    | some id => match k, rules[id]? with
      | k + 1, some n => n.hasLabels (followLabels lookup rules k)
      | _, _ => .error .notModelled

mutual
/-- `len(captures_.Get())`: rule.go:50-56, parser_sequence.go:62-68, parser_existential.go:34-35. -/
def Node.captures : Node → Nat
  | .seq _ _ l => Node.capturesAll l
  | .exist _ n => n.captures
  | .str i _ | .regex i _ | .choice i _ | .look i _ | .not i _ | .pattern i _ _ _ _ | .ref i _ =>
    if i.capture then 1 else 0
  | .rule _ => 1
/-- Of all. -/
def Node.capturesAll : List Node → Nat
  | [] => 0
  | n :: l => n.captures + Node.capturesAll l
end

/-- `getRule().capture` of a child, which can be a rule prepared before. -/
def captureOf (rules : List Node) (n : Node) : Bool := (({ rules := rules, lookup := fun _ => none, root := n } : Grammar).info n).capture

mutual
/-- grammar.go:305-311: `prepare` children first. Choices: parser_choice.go:42-50; optionals:
parser_existential.go:28-37; nothing to do for the others. -/
def Node.prep (labels : Node → Except Panic Bool) (rules : List Node) : Node → Except Panic Node
  | .choice i l => do
    let l ← Node.prepList labels rules l
    return .choice { i with capture := l.all (captureOf rules) } l
  | .seq i r l => do return .seq i r (← Node.prepList labels rules l)
  | .exist i n => do
    let n ← n.prep labels rules
    let has ← labels (.exist i n)
    return .exist { i with label := if has && i.label == "" then "@" else i.label, capture := decide (0 < n.captures) } n
  | .look i n => do return .look i (← n.prep labels rules)
  | .not i n => do return .not i (← n.prep labels rules)
  | .pattern i v none mn mx => do return .pattern i (← v.prep labels rules) none mn mx
  | .pattern i v (some j) mn mx => do
    let v ← v.prep labels rules
    return .pattern i v (some (← j.prep labels rules)) mn mx
  | n => .ok n
/-- The same for children. -/
def Node.prepList (labels : Node → Except Panic Bool) (rules : List Node) : List Node → Except Panic (List Node)
  | [] => .ok []
  | n :: l => do
    let n ← n.prep labels rules
    let l ← Node.prepList labels rules l
    return n :: l
end

/-- grammar.go:305-311, grammar.go:201-209: the rules are prepared in the order of their numbers (they are prepared again
as parts of others, which changes nothing). -/
def prepAll (lookup : String → Option Nat) : List Node → List Node → Except Panic (List Node)
  | [], done => .ok done
  | n :: l, done => do
    let n ← n.prep (fun m => m.hasLabels (followLabels lookup done done.length)) done
    prepAll lookup l (done ++ [n])

/-! ## parser_sequence.go:70-83: the type of sequences -/

/-- parser_sequence.go:70-83 `calculateType` -/
def seqType (labels : Bool) (captures : Nat) : SeqRepr :=
  if labels then .object else if captures > 1 then .array else .single

mutual
/-- Set the type of every sequence. -/
def Node.setTypes (labels : Node → Except Panic Bool) : Node → Except Panic Node
  | .choice i l => do return .choice i (← Node.setTypesList labels l)
  | .seq i r l => do
    let has ← labels (.seq i r l)
    let l' ← Node.setTypesList labels l
    return .seq i (seqType has (Node.capturesAll l)) l'
  | .exist i n => do return .exist i (← n.setTypes labels)
  | .look i n => do return .look i (← n.setTypes labels)
  | .not i n => do return .not i (← n.setTypes labels)
  | .pattern i v none mn mx => do return .pattern i (← v.setTypes labels) none mn mx
  | .pattern i v (some j) mn mx => do
    let v ← v.setTypes labels
    return .pattern i v (some (← j.setTypes labels)) mn mx
  | n => .ok n
/-- The same for children. -/
def Node.setTypesList (labels : Node → Except Panic Bool) : List Node → Except Panic (List Node)
  | [] => .ok []
  | n :: l => do
    let n ← n.setTypes labels
    let l ← Node.setTypesList labels l
    return n :: l
end

/-- For all rules. -/
def setTypesAll (labels : Node → Except Panic Bool) : List Node → Except Panic (List Node)
  | [] => .ok []
  | n :: l => do
    let n ← n.setTypes labels
    let l ← setTypesAll labels l
    return n :: l

/-! ## References to rules that are not memoised -/

mutual
/-- Replace what refers to them. `target` gives the parser of such a rule, by name, `link` by number. -/
def Node.inline (target : String → Except Panic (Option Node)) (link : Nat → Except Panic (Option Node)) :
    Node → Except Panic Node
  | .choice i l => do return .choice i (← Node.inlineList target link l)
  | .seq i r l => do return .seq i r (← Node.inlineList target link l)
  | .exist i n => do return .exist i (← n.inline target link)
  | .look i n => do return .look i (← n.inline target link)
  | .not i n => do return .not i (← n.inline target link)
  | .pattern i v none mn mx => do return .pattern i (← v.inline target link) none mn mx
  | .pattern i v (some j) mn mx => do
    let v ← v.inline target link
    return .pattern i v (some (← j.inline target link)) mn mx
  | .ref i nm => do
    match ← target nm with
    | some n => return .choice i [n]
    | none => return .ref i nm
  | .rule id => do
    match ← link id with
    | some n => return n
    | none => return .rule id
  | n => .ok n
/-- The same for children. -/
def Node.inlineList (target : String → Except Panic (Option Node)) (link : Nat → Except Panic (Option Node)) :
    List Node → Except Panic (List Node)
  | [] => .ok []
  | n :: l => do
    let n ← n.inline target link
    let l ← Node.inlineList target link l
    return n :: l
end

/-- The parser of rule `id` if the rule is not memoised, with references replaced in it. -/
def inlineRule (lookup : String → Option Nat) (kinds : List LeafKind) (rules : List Node) :
    Nat → Nat → Except Panic (Option Node)
  | k, id => match kinds[id]?, rules[id]? with
    | some .wrapped, some n => match k with
      | 0 => .error .notModelled
      | k + 1 => do
        let link := inlineRule lookup kinds rules k
        return some (← n.inline (fun nm => match lookup nm with | some id => link id | none => .ok none) link)
    | _, _ => .ok none

/-- For all rules. -/
def inlineAll (target : String → Except Panic (Option Node)) (link : Nat → Except Panic (Option Node)) :
    List Node → Except Panic (List Node)
  | [] => .ok []
  | n :: l => do
    let n ← n.inline target link
    let l ← inlineAll target link l
    return n :: l

/-- A built grammar, and what the walk left in it. -/
structure Made where
  g : Grammar
  conn : Conn

/-- grammar.go:211-317 `postinit` -/
def postinit (rank : Rules) : Except Panic Made := do
  let (root, s) ← connect "" {} (walkMonoGrammar rank)
  let rules ← prepAll s.lookup (s.id2rule.map (·.2.2)) []
  let root ← root.prep (fun m => m.hasLabels (followLabels s.lookup rules rules.length)) rules
  let labels := fun m => match Node.hasLabels (followLabels s.lookup rules rules.length) m with
    | .ok b => Except.ok b
    | .error _ => .error .notModelled
  let rules ← setTypesAll labels rules
  let root ← root.setTypes labels
  let link := inlineRule s.lookup (s.id2rule.map (·.2.1)) rules rules.length
  let target := fun nm => match s.lookup nm with | some id => link id | none => .ok none
  let rules ← inlineAll target link rules
  let root ← root.inline target link
  return ⟨{ rules := rules, lookup := s.lookup, root := root }, s⟩

/-- grammar.go:60-71 `GrammarWithOptionsFromLines` -/
def grammarFromLines (compile : Bytes → Except Panic Node) (name : String) (lines : List Line) : Except Panic Made := do
  postinit (← rankFromLines compile name lines)

end Joeson
