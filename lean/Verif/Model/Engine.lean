import Verif.Model.RuneStream
/-!
# packrat.go, parsectx.go, parser_*.go: the parsing engine

One interpreter for all parser types.  Values (`Ast`) and the mutable store they may live in are
parameters (`Ops V H`), so that theorems hold for every value representation and every user
callback.  Fuel bounds the recursion only; running out of it is the distinct outcome `oof`.
-/

namespace Joeson

/-- Outcome of a model computation: a value, a Go panic, or out of fuel. -/
inductive Out (α : Type) where
  | ok (a : α)
  | panic (e : Panic)
  | oof
  deriving DecidableEq

namespace Out

/-- Sequencing: panics and fuel exhaustion propagate. -/
def bind {α β : Type} (x : Out α) (f : α → Out β) : Out β :=
  match x with
  | ok a => f a
  | panic e => panic e
  | oof => oof

instance : Monad Out where
  pure := ok
  bind := Out.bind

/-- Inject a computation that needs no fuel. -/
def ofExcept {α : Type} : Except Panic α → Out α
  | .ok a => ok a
  | .error e => panic e

end Out

/-- What `ctx.Code` offers the engine (codestream.go:14-63): length, matching at a position, line
of a position, and the rendering of the context done by `ParseContext.String`
(parsectx.go:62-75), which may panic. -/
structure Stream where
  /-- `workLength()` -/
  len : Nat
  /-- `MatchString` at a position: matched text and new position -/
  matchString : Nat → Bytes → Except Panic (Option Bytes × Nat)
  /-- `MatchRegexp` at a position -/
  matchRegexp : Nat → Regex → Except Panic (Option Bytes × Nat)
  /-- `Line()` at a position -/
  line : Nat → Int
  /-- `ctx.String()` at a position -/
  render : Nat → Except Panic Unit

/-- parser_sequence.go:10-16 `sequenceRepr`. -/
inductive SeqRepr where
  | single
  | array
  | object
  deriving DecidableEq, Repr

/-- The attributes of `rule` (rule.go:9-25) read while parsing. -/
structure Info where
  /-- rule.go:15 `name` -/
  name : String := ""
  /-- rule.go:16 `label` -/
  label : String := ""
  /-- rule.go:11 `parent`: `none` for nil, otherwise its `handlesChildLabel()` -/
  parent : Option Bool := none
  /-- rule.go:17 `capture` -/
  capture : Bool := true
  /-- parseoption.go:46 `cb`: which callback, if any -/
  cb : Option Nat := none
  /-- parseoption.go:33 `skipCache` -/
  skipCache : Bool := false
  /-- parseoption.go:31 `debug` -/
  debug : Bool := false
  /-- `rule.parser.getRule().name` (packrat.go:285): name of the enclosing rule. `rule.parser` is
  non nil for rules and for every node below a rule (grammar.go:277-279); the only node for which
  it is nil, the top rank, has neither label nor callback and never reaches packrat.go:285. -/
  ruleName : String := ""

/-- Parsers. A child that is itself a rule (`IsRule`, parser.go:44-46) is `rule id`: the node is
found in the grammar's rule list. -/
inductive Node where
  /-- parser_str.go:14-18 -/
  | str (i : Info) (s : Bytes)
  /-- parser_regex.go:12-17 -/
  | regex (i : Info) (re : Regex)
  /-- parser_choice.go:7-11 and parser_rank.go:11-13 -/
  | choice (i : Info) (alts : List Node)
  /-- parser_sequence.go:18-23; `repr` is the value of `lazyType` -/
  | seq (i : Info) (repr : SeqRepr) (items : List Node)
  /-- parser_existential.go:6-10 -/
  | exist (i : Info) (it : Node)
  /-- parser_lookahead.go:13-17 -/
  | look (i : Info) (expr : Node)
  /-- parser_not.go:11-15 -/
  | not (i : Info) (it : Node)
  /-- parser_pattern.go:26-33; -1 means unspecified -/
  | pattern (i : Info) (value : Node) (join : Option Node) (min max : Int)
  /-- parser_ref.go:9-14 (the parameter is stored and never read while parsing) -/
  | ref (i : Info) (name : String)
  /-- a rule of the grammar, by number -/
  | rule (id : Nat)

/-- Attributes of a node that is not a rule; rules are looked up with `Grammar.info`. -/
def Node.info : Node → Info
  | .str i _ | .regex i _ | .choice i _ | .seq i _ _ | .exist i _ | .look i _ | .not i _
  | .pattern i _ _ _ _ | .ref i _ => i
  | .rule _ => {}

/-- grammar.go `Grammar` as parsing sees it: the rules by id (`id2rule`), the name table
(`gm.rule.rules`), and the rank. -/
structure Grammar where
  rules : List Node
  lookup : String → Option Nat
  root : Node

/-- grammar.go:74 `CountRules`. -/
def Grammar.numRules (g : Grammar) : Nat := g.rules.length

/-- `getRule()` of a child. -/
def Grammar.info (g : Grammar) : Node → Info
  | .rule id => match g.rules[id]? with
    | some n => n.info
    | none => {}
  | n => n.info

/-- Origin set on results (packrat.go:280-286). -/
structure Origin where
  start : Nat
  stop : Nat
  line : Int
  ruleName : String

/-- Operations on values. `H` is the store where mutable values live and whatever state user
callbacks have. -/
structure Ops (V H : Type) where
  /-- `NewNativeString` -/
  str : Bytes → V
  /-- `NewNativeUndefined()` -/
  undef : V
  /-- `IsUndefined` of a non nil value (native_undefined.go:27-33) -/
  isUndef : V → Bool
  /-- `NewNativeArray` -/
  arr : List V → H → V × H
  /-- `NewNativeMap(map[string]Ast{label: v})` (packrat.go:268) and parser_sequence.go:178-179 -/
  newMap : String → V → H → V × H
  /-- `results.(*NativeMap).Set(label, v)` (parser_sequence.go:181-185), panics when not a map -/
  mapSet : V → String → V → H → Except Panic (V × H)
  /-- `merge(toExtend, newcomer)` (parser_sequence.go:210-251) -/
  merge : V → V → H → Except Panic (V × H)
  /-- user callback: number, value, current position. `none` is a nil result -/
  cb : Nat → V → Nat → H → Except Panic (Option V × H)
  /-- `SetOrigin` -/
  origin : V → Origin → H → V × H

/-- packrat.go:12-20 `frame` (`param` is write only). `endpos = none` is -1. -/
structure Frame (V : Type) where
  result : Option V := none
  endpos : Option Nat := none
  loopstage : Int := -1
  wipemask : Option (Nat → Bool) := none
  pos : Nat
  id : Nat

/-- traceoptions.go: the options consulted while parsing. -/
structure Trace where
  stack : Bool := false
  loop : Bool := false
  filterLine : Int := -1

/-- A callback invocation (an observable of user code): callback number, whether it is the callback
of a rule (not of an inner node), id and start position of the rule on top of the stack. -/
structure Call where
  cb : Nat
  ofRule : Bool
  id : Nat
  pos : Nat
  deriving DecidableEq, Repr

/-- parsectx.go:13-27 `ParseContext` together with the cursor of `ctx.Code`. Frames are Go pointers:
`heap` maps addresses to frames, `table` is `ctx.frames`. The head of `stack` is the top. -/
structure St (V H : Type) where
  pos : Nat
  heap : Nat → Frame V
  next : Nat
  table : Nat → Nat → Option Nat
  stack : List Nat
  counter : Nat
  loopStack : List String
  h : H
  calls : List Call

/-- What does not change during a parse. -/
structure Env (V H : Type) where
  ops : Ops V H
  st : Stream
  g : Grammar
  trace : Trace := {}
  /-- parsectx.go:16 `parseOptions.skipLog` of the context -/
  skipLog : Bool := false

/-- parsectx.go:24: capacity of the rule stack. -/
def stackCap : Nat := 1024

section
variable {V H : Type}

/-- Result of a parser: `none` is nil (failure). -/
abbrev Run (V H : Type) := St V H → Out (Option V × St V H)

/-- packrat.go:37-47 `newFrame`. -/
def newFrame (V : Type) (pos id : Nat) : Frame V := { pos := pos, id := id }

/-- parsectx.go:32-49 `newParseContext`. -/
def newState (h : H) (pos : Nat) : St V H :=
  { pos := pos, heap := fun _ => newFrame V 0 0, next := 0, table := fun _ _ => none, stack := [],
    counter := 0, loopStack := [], h := h, calls := [] }

/-- `ctx.Code.SetPos` (codestream_rune.go:38-44). -/
def setPos (env : Env V H) (n : Nat) (s : St V H) : Out (St V H) :=
  if n ≤ env.st.len then .ok { s with pos := n } else .panic .outOfBound

/-- Replace one entry of `ctx.frames`. -/
def setTable (t : Nat → Nat → Option Nat) (p i : Nat) (v : Option Nat) : Nat → Nat → Option Nat :=
  fun p' i' => if p' = p ∧ i' = i then v else t p' i'

/-- Replace the frame at an address. -/
def setHeap (m : Nat → Frame V) (a : Nat) (f : Frame V) : Nat → Frame V :=
  fun b => if b = a then f else m b

/-- Assign to fields of the frame at address `a`. -/
def updFrame (a : Nat) (f : Frame V → Frame V) (s : St V H) : St V H :=
  { s with heap := setHeap s.heap a (f (s.heap a)) }

/-- packrat.go:28-35 `cacheSet` with a non negative position. -/
def cacheSet (a : Nat) (r : Option V) (e : Option Nat) (s : St V H) : St V H :=
  updFrame a (fun f => { f with result := r, endpos := e }) s

/-- Assignment `frame.loopstage = n`. -/
def setStage (a : Nat) (n : Int) (s : St V H) : St V H :=
  updFrame a (fun f => { f with loopstage := n }) s

/-- parsectx.go:94-105 `getFrame`. The two index expressions panic out of range. -/
def getFrame (env : Env V H) (id : Nat) (s : St V H) : Out (Nat × St V H) :=
  if s.pos ≤ env.st.len ∧ id < env.g.numRules then
    match s.table s.pos id with
    | some a => .ok (a, s)
    | none => .ok (s.next, { s with
        heap := setHeap s.heap s.next (newFrame V s.pos id),
        next := s.next + 1,
        table := setTable s.table s.pos id (some s.next) })
  else .panic .indexOutOfRange

/-- parsectx.go:88-91 `stackPush`. -/
def stackPush (env : Env V H) (id : Nat) (s : St V H) : Out (St V H) := do
  let (a, s) ← getFrame env id s
  if s.stack.length < stackCap then .ok { s with stack := a :: s.stack }
  else .panic .stackOverflow

/-- parsectx.go:92 `stackPop`. -/
def stackPop (s : St V H) : St V H := { s with stack := s.stack.tail }

/-- parsectx.go:87 `stackPeek(0)`. -/
def stackPeek (s : St V H) : Out Nat :=
  match s.stack with
  | a :: _ => .ok a
  | [] => .panic .indexOutOfRange

/-- parsectx.go:77-83 `log`: only its possible panic matters. -/
def logHook (env : Env V H) (s : St V H) : Out Unit :=
  if env.skipLog then .ok ()
  else if env.trace.filterLine = -1 ∨ env.st.line s.pos = env.trace.filterLine then
    Out.ofExcept (env.st.render s.pos)
  else .ok ()

/-- A log statement guarded by `if showLog`. -/
def logIf (env : Env V H) (show_ : Bool) (s : St V H) : Out Unit :=
  if show_ then logHook env s else .ok ()

/-- parsectx.go:107-135 `wipeWith`: the stash and the wiped table. -/
def wipeWith (a : Nat) (s : St V H) : Out ((Nat → Option Nat) × St V H) :=
  match (s.heap a).wipemask with
  | none => .panic .noWipemask
  | some m =>
    let p := (s.heap a).pos
    .ok (fun i => if m i then s.table p i else none,
      { s with table := fun p' i => if p' = p ∧ m i = true then none else s.table p' i })

/-- parsectx.go:137-143 `restoreWith`. -/
def restoreWith (stash : Nat → Option Nat) (s : St V H) : St V H :=
  { s with table := fun p i => match stash i with
      | some a => if p = (s.heap a).pos then some a else s.table p i
      | none => s.table p i }

/-- packrat.go:233-242: collect the wipe mask from the stack below the top. -/
def collectMask (heap : Nat → Frame V) (startPos id : Nat) : List Nat → (Nat → Bool) → Out (Nat → Bool)
  | [], m => .ok m
  | b :: rest, m =>
    if (heap b).pos > startPos then .panic .framePos
    else if (heap b).pos < startPos ∨ (heap b).id = id then .ok m
    else collectMask heap startPos id rest (fun i => if i = (heap b).id then true else m i)

/-- packrat.go:183-199: the growing loop. `r` is the current (non nil) result. Returns the best
stash, position and result, and the state after the last run of the body. -/
def growLoop (env : Env V H) (show_ : Bool) (fparse : Run V H) (a startPos : Nat) :
    Nat → V → St V H → Out (((Nat → Option Nat) × Nat × V) × St V H)
  | 0, _, _ => .oof
  | fuel + 1, r, s => do
    let (bestStash, s) ← wipeWith a s
    let bestEndPos := s.pos
    let s := cacheSet a (some r) (some bestEndPos) s
    logIf env show_ s
    let s ← setPos env startPos s
    let (r', s) ← fparse s
    if s.pos ≤ bestEndPos then .ok ((bestStash, bestEndPos, r), s)
    else match r' with
      | none => .ok ((bestStash, bestEndPos, r), s)
      | some r' => growLoop env show_ fparse a startPos fuel r' s

/-- packrat.go:83-253 `loopify` for rule `id` with attributes `i`; `fparse` is the body. -/
def loopify (env : Env V H) (fuel : Nat) (id : Nat) (i : Info) (fparse : Run V H) : Run V H := fun s => do
  let show_ := env.trace.stack || i.debug
  logIf env show_ s
  if i.skipCache then
    let (r, s) ← fparse s
    if show_ then
      match r with
      | none => .panic .nilDeref            -- result.String() on nil, packrat.go:93
      | some _ => do logHook env s; .ok (r, s)
    else .ok (r, s)
  else
    let (a, s) ← getFrame env id s
    let startPos := s.pos
    let s := if (s.heap a).loopstage < 0 then setStage a 0 s else s
    if (s.heap a).loopstage = 0 then
      match (s.heap a).endpos with
      | some e => do
        logIf env show_ s
        let s' ← setPos env e s
        .ok ((s.heap a).result, s')
      | none => do
        let s := cacheSet a none none (setStage a 1 s)
        let (r, s) ← fparse s
        if (s.heap a).loopstage = 1 then
          let s := cacheSet a r (some s.pos) (setStage a 0 s)
          logIf env show_ s
          .ok (r, s)
        else if (s.heap a).loopstage = 2 then
          match r with
          | none => do
            logIf env show_ s
            .ok (none, setStage a 0 s)
          | some r => do
            let s := setStage a 3 s
            let s := if env.trace.loop && (decide (env.trace.filterLine < 0) ||
                env.st.line s.pos == env.trace.filterLine)
              then { s with loopStack := i.name :: s.loopStack } else s
            let ((bestStash, bestEndPos, bestResult), s) ← growLoop env show_ fparse a startPos fuel r s
            let s ← (if env.trace.loop then
                match s.loopStack with
                | [] => .panic .loopStackEmpty    -- loopStack[:len-1] on an empty slice
                | _ :: l => .ok { s with loopStack := l }
              else .ok s)
            let (_, s) ← wipeWith a s
            let s := restoreWith bestStash s
            let s ← setPos env bestEndPos s
            logIf env show_ s
            .ok (some bestResult, setStage a 0 s)
        else .panic .unexpectedStage
    else if (s.heap a).loopstage = 1 ∨ (s.heap a).loopstage = 2 ∨ (s.heap a).loopstage = 3 then do
      let s := if (s.heap a).loopstage = 1 then setStage a 2 s else s
      logIf env show_ s
      let m ← collectMask s.heap startPos id s.stack.tail ((s.heap a).wipemask.getD fun _ => false)
      let s := updFrame a (fun f => { f with wipemask := some m }) s
      let r := (s.heap a).result
      match (s.heap a).endpos with
      | some e => do
        let s ← setPos env e s
        .ok (r, s)
      | none => .ok (r, s)
    else .panic .unexpectedStage

/-- packrat.go:267 and 300-301: the node's label is handled by wrapping its own result. -/
def Info.ownLabel (i : Info) : Bool :=
  i.label != "" && (match i.parent with | some false => true | _ => false)

/-- The log entry for a callback about to be called (not in the Go code). -/
def mkCall (c : Nat) (ofRule : Bool) (s : St V H) : Call :=
  match s.stack with
  | top :: _ => ⟨c, ofRule, (s.heap top).id, (s.heap top).pos⟩
  | [] => ⟨c, ofRule, 0, 0⟩

/-- packrat.go:260-290 `prepareResult`. `ofRule` only feeds the call log. -/
def prepareResult (env : Env V H) (ofRule : Bool) (i : Info) (fparse2 : Run V H) : Run V H := fun s => do
  let s := { s with counter := s.counter + 1 }
  let (r, s) ← fparse2 s
  match r with
  | none => .ok (none, s)
  | some v => do
    let (v, h) := if i.ownLabel then env.ops.newMap i.label v s.h else (v, s.h)
    let s := { s with h := h }
    match i.cb with
    | none => do
      let top ← stackPeek s
      let (v, h) := env.ops.origin v ⟨(s.heap top).pos, s.pos, env.st.line s.pos, i.ruleName⟩ s.h
      .ok (some v, { s with h := h })
    | some c => do
      let s := { s with calls := mkCall c ofRule s :: s.calls }
      let (rv, h) ← Out.ofExcept (env.ops.cb c v s.pos s.h)
      let s := { s with h := h }
      match rv with
      | none => .ok (none, s)
      | some v => do
        let top ← stackPeek s
        let (v, h) := env.ops.origin v ⟨(s.heap top).pos, s.pos, env.st.line s.pos, i.ruleName⟩ s.h
        .ok (some v, { s with h := h })

/-- parser_choice.go:54-63, parser_rank.go:89-101. -/
def parseAlts (env : Env V H) (rec_ : Node → Run V H) : List Node → Run V H
  | [], s => .ok (none, s)
  | c :: cs, s => do
    let (r, s') ← rec_ c s
    match r with
    | none => do
      let s' ← setPos env s.pos s'
      parseAlts env rec_ cs s'
    | some v => .ok (some v, s')

/-- What a sequence has accumulated: `result`/`results` of parser_sequence.go:120, 138, 153-154. -/
structure SeqAcc (V : Type) where
  one : Option V := none
  many : List V := []

/-- `results` unless `IsUndefined(results)` (native_undefined.go:27-33). -/
def SeqAcc.cur (ops : Ops V H) (acc : SeqAcc V) : Option V :=
  match acc.one with
  | none => none
  | some r => if ops.isUndef r then none else some r

/-- One turn of the loops of parser_sequence.go:126-128 (single), 144-146 (array) and
161-187 (object) for a child with attributes `i` that gave `v`. -/
def seqAdd (ops : Ops V H) (repr : SeqRepr) (i : Info) (acc : SeqAcc V) (v : V) (h : H) :
    Except Panic (SeqAcc V × H) :=
  match repr with
  | .single => .ok (if i.capture then { acc with one := some v } else acc, h)
  | .array => .ok (if i.capture then { acc with many := acc.many ++ [v] } else acc, h)
  | .object =>
    if i.label = "&" then
      match acc.cur ops with
      | none => .ok ({ acc with one := some v }, h)
      | some r => do
        let (x, h) ← ops.merge v r h
        return ({ acc with one := some x }, h)
    else if i.label = "@" then
      match acc.cur ops with
      | none => .ok ({ acc with one := some v }, h)
      | some r => do
        let (x, h) ← ops.merge r v h
        return ({ acc with one := some x }, h)
    else if i.label = "" then .ok (acc, h)
    else
      match acc.cur ops with
      | none =>
        let (x, h) := ops.newMap i.label v h
        .ok ({ acc with one := some x }, h)
      | some r => do
        let (x, h) ← ops.mapSet r i.label v h
        return ({ acc with one := some x }, h)

/-- End of the loops: parser_sequence.go:130-134, 148, 189-193. -/
def seqDone (ops : Ops V H) (repr : SeqRepr) (acc : SeqAcc V) (h : H) : V × H :=
  match repr with
  | .array => ops.arr acc.many h
  | _ => match acc.one with
    | none => (ops.undef, h)
    | some v => (v, h)

/-- parser_sequence.go:119-135 `parseAsSingle`, 137-149 `parseAsArray`, 152-194 `parseAsObject`: the
three loops differ only in what they accumulate (`seqAdd`, `seqDone`). -/
def parseItems (env : Env V H) (rec_ : Node → Run V H) (repr : SeqRepr) :
    List Node → SeqAcc V → Run V H
  | [], acc, s =>
    let (v, h) := seqDone env.ops repr acc s.h
    .ok (some v, { s with h := h })
  | c :: cs, acc, s => do
    let (r, s) ← rec_ c s
    match r with
    | none => .ok (none, s)
    | some v => do
      let (acc, h) ← Out.ofExcept (seqAdd env.ops repr (env.g.info c) acc v s.h)
      parseItems env rec_ repr cs acc { s with h := h }

/-- parser_pattern.go:99-124: the loop after the first match, and the final check of `min`. -/
def parseRep (env : Env V H) (rec_ : Node → Run V H) (value : Node) (join : Option Node) (mn mx : Int)
    (start : Nat) : Nat → List V → Run V H
  | 0, _, _ => .oof
  | fuel + 1, ms, s => do
    let pos2 := s.pos
    let finish : Run V H := fun s =>
      if mn > -1 ∧ mn > (ms.length : Int) then do
        let s ← setPos env start s
        .ok (none, s)
      else
        let (v, h) := env.ops.arr ms s.h
        .ok (some v, { s with h := h })
    let (joined, s) ← (match join with
      | none => .ok (true, s)
      | some j => do
        let (r, s) ← rec_ j s
        .ok (r.isSome, s))
    if !joined then do
      let s ← setPos env pos2 s
      finish s
    else
      let (r, s) ← rec_ value s
      match r with
      | none => do
        let s ← setPos env pos2 s
        finish s
      | some v =>
        let ms' := ms ++ [v]
        if mx > -1 ∧ (ms'.length : Int) ≥ mx then
          if mn > -1 ∧ mn > (ms'.length : Int) then do
            let s ← setPos env start s
            .ok (none, s)
          else
            let (v, h) := env.ops.arr ms' s.h
            .ok (some v, { s with h := h })
        else parseRep env rec_ value join mn mx start fuel ms' s

/-- The function passed to `wrap` by each parser's `parse` method. -/
def parseKind (env : Env V H) (rec_ : Node → Run V H) (fuel : Nat) : Node → Run V H
  -- parser_str.go:36-40
  | .str _ b, s => do
    let (m, p) ← Out.ofExcept (env.st.matchString s.pos b)
    match m with
    | some t => .ok (some (env.ops.str t), { s with pos := p })
    | none => .ok (none, { s with pos := p })
  -- parser_regex.go:37-41
  | .regex _ re, s => do
    let (m, p) ← Out.ofExcept (env.st.matchRegexp s.pos re)
    match m with
    | some t => .ok (some (env.ops.str t), { s with pos := p })
    | none => .ok (none, { s with pos := p })
  -- parser_choice.go:53-64
  | .choice _ alts, s => parseAlts env rec_ alts s
  -- parser_sequence.go:100-114
  | .seq _ repr items, s => parseItems env rec_ repr items {} s
  -- parser_existential.go:54-61
  | .exist _ it, s => do
    let (r, s') ← rec_ it s
    match r with
    | none => do
      let s' ← setPos env s.pos s'
      .ok (some env.ops.undef, s')
    | some v => .ok (some v, s')
  -- parser_lookahead.go:36-39
  | .look _ it, s => do
    let (r, s') ← rec_ it s
    let s' ← setPos env s.pos s'
    .ok (r, s')
  -- parser_not.go:31-38
  | .not _ it, s => do
    let (r, s') ← rec_ it s
    let s' ← setPos env s.pos s'
    match r with
    | some _ => .ok (none, s')
    | none => .ok (some env.ops.undef, s')
  -- parser_pattern.go:89-124
  | .pattern _ value join mn mx, s => do
    let (r, s') ← rec_ value s
    match r with
    | none => do
      let s' ← setPos env s.pos s'
      if mn > 0 then .ok (none, s')
      else
        let (v, h) := env.ops.arr [] s'.h
        .ok (some v, { s' with h := h })
    | some v => parseRep env rec_ value join mn mx s.pos fuel [v] s'
  -- parser_ref.go:68-75
  | .ref _ name, s =>
    match env.g.lookup name with
    | none => .panic (.undefinedRef name)
    | some id => do
      let _ ← stackPeek s
      rec_ (.rule id) s
  | .rule id, s => rec_ (.rule id) s

/-- packrat.go:292-309 `wrap`, 74-81 `stack`. -/
def wrap (env : Env V H) (rec_ : Node → Run V H) (fuel : Nat) (n : Node) : Run V H := fun s =>
  match n with
  | .rule id =>
    match env.g.rules[id]? with
    | none => .panic .indexOutOfRange
    | some body => do
      let s ← stackPush env id s
      let (r, s) ← loopify env fuel id body.info
        (prepareResult env true body.info (parseKind env rec_ fuel body)) s
      .ok (r, stackPop s)
  | n =>
    if n.info.ownLabel || n.info.cb.isSome then
      prepareResult env false n.info (parseKind env rec_ fuel n) s
    else parseKind env rec_ fuel n s

/-- `node.parse(ctx)`. -/
def parse (env : Env V H) : Nat → Node → Run V H
  | 0, _, _ => .oof
  | k + 1, n, s => wrap env (parse env k) k n s

end
end Joeson
