import Verif.Model.GrammarParse
import Verif.Model.TokenStream
/-!
# What tracing prints

packrat.go `loopify` and parsectx.go `log` again, with the lines that are printed. `Model/Engine` has the same functions with
only the panics of printing; that the rest is the same is proved (`parseT_same`).

A line is kept as what it says: the rule, the cursor (from which parsectx.go:62-72 makes the text before the message), the
number of rules on the stack (parsectx.go:74: one column less) and the message. The colours and the words of the message are
left out, and lines printed before a panic are not kept.
-/

namespace Joeson

/-- The messages of packrat.go:83-253. A value is what `String()` and `TypeOfToString` make of it. -/
inductive Msg where
  /-- packrat.go:88 `*` with `ctx.Counter` -/
  | enter (counter : Nat)
  /-- packrat.go:93 the result of a rule with SkipCache (nil is never printed: it panics) -/
  | result (x : Option Bytes)
  /-- packrat.go:109-117 `-hit:` -/
  | hit (x : Option Bytes)
  /-- packrat.go:128-137 `-set:` -/
  | set (x : Option Bytes)
  /-- packrat.go:142 `loop nil` -/
  | loopNil
  /-- packrat.go:192 `loop iteration` -/
  | iteration
  /-- packrat.go:207 `loop done!` -/
  | done (x : Option Bytes)
  /-- packrat.go:222-229 `-base:` -/
  | base (x : Option Bytes)
  deriving DecidableEq, Repr

/-- A line (parsectx.go:80): rule, cursor, `ctx.stackLength`, message. -/
structure LogLine where
  rule : Nat
  pos : Nat
  depth : Nat
  msg : Msg
  deriving DecidableEq, Repr

variable {V H : Type}

/-- The operations on values (see `Ops`), which print nothing. -/
def Ops.logged (ops : Ops V H) : Ops V (H × List LogLine) where
  str := ops.str
  undef := ops.undef
  isUndef := ops.isUndef
  arr l h := ((ops.arr l h.1).1, (ops.arr l h.1).2, h.2)
  newMap k v h := ((ops.newMap k v h.1).1, (ops.newMap k v h.1).2, h.2)
  mapSet r k v h := (ops.mapSet r k v h.1).map fun x => (x.1, x.2, h.2)
  merge r v h := (ops.merge r v h.1).map fun x => (x.1, x.2, h.2)
  cb c v p h := (ops.cb c v p h.1).map fun x => (x.1, x.2, h.2)
  origin v o h := ((ops.origin v o h.1).1, (ops.origin v o h.1).2, h.2)

/-- The environment (see `Env`) with what was printed beside the store. -/
def Env.logged (env : Env V H) : Env V (H × List LogLine) where
  ops := env.ops.logged
  st := env.st
  g := env.g
  trace := env.trace
  skipLog := env.skipLog

/-- One more line. -/
def addLine (id : Nat) (m : Msg) (s : St V (H × List LogLine)) : St V (H × List LogLine) :=
  { s with h := (s.h.1, s.h.2 ++ [⟨id, s.pos, s.stack.length, m⟩]) }

/-- What a log statement of `loopify` does: `showLog`, the rule, the message. -/
abbrev Say (V H : Type) := Bool → Nat → Msg → St V H → Out (St V H)

/-- parsectx.go:77-83 `log`, if `showLog`. -/
def printSay (env : Env V (H × List LogLine)) : Say V (H × List LogLine) := fun show_ id m s =>
  if show_ then
    if env.skipLog then .ok s
    else if env.trace.filterLine = -1 ∨ env.st.line s.pos = env.trace.filterLine then do
      let _ ← Out.ofExcept (env.st.render s.pos)
      .ok (addLine id m s)
    else .ok s
  else .ok s

section
variable (env : Env V H) (say : Say V H) (tx : V → H → Bytes)

/-- packrat.go:183-199, see `growLoop`. -/
def growLoopT (show_ : Bool) (id : Nat) (fparse : Run V H) (a startPos : Nat) :
    Nat → V → St V H → Out (((Nat → Option Nat) × Nat × V) × St V H)
  | 0, _, _ => .oof
  | fuel + 1, r, s => do
    let (bestStash, s) ← wipeWith a s
    let bestEndPos := s.pos
    let s := cacheSet a (some r) (some bestEndPos) s
    let s ← say show_ id .iteration s
    let s ← setPos env startPos s
    let (r', s) ← fparse s
    if s.pos ≤ bestEndPos then .ok ((bestStash, bestEndPos, r), s)
    else match r' with
      | none => .ok ((bestStash, bestEndPos, r), s)
      | some r' => growLoopT show_ id fparse a startPos fuel r' s

/-- packrat.go:83-253 `loopify`. -/
def loopifyT (fuel : Nat) (id : Nat) (i : Info) (fparse : Run V H) : Run V H := fun s => do
  let show_ := env.trace.stack || i.debug
  let s ← say show_ id (.enter s.counter) s
  if i.skipCache then
    let (r, s) ← fparse s
    match r with
    | none =>
      if show_ then .panic .nilDeref            -- result.String() on nil, packrat.go:93
      else do
        let s ← say false id (.result none) s     -- nothing is printed
        .ok (none, s)
    | some v => do
      let s ← say show_ id (.result (some (tx v s.h))) s
      .ok (some v, s)
  else
    let (a, s) ← getFrame env id s
    let startPos := s.pos
    let s := if (s.heap a).loopstage < 0 then setStage a 0 s else s
    if (s.heap a).loopstage = 0 then
      match (s.heap a).endpos with
      | some e => do
        let r := (s.heap a).result
        let s ← say show_ id (.hit (r.map fun v => tx v s.h)) s
        let s ← setPos env e s
        .ok (r, s)
      | none => do
        let s := cacheSet a none none (setStage a 1 s)
        let (r, s) ← fparse s
        if (s.heap a).loopstage = 1 then
          let s := cacheSet a r (some s.pos) (setStage a 0 s)
          let s ← say show_ id (.set (r.map fun v => tx v s.h)) s
          .ok (r, s)
        else if (s.heap a).loopstage = 2 then
          match r with
          | none => do
            let s ← say show_ id .loopNil s
            .ok (none, setStage a 0 s)
          | some r => do
            let s := setStage a 3 s
            let s := if env.trace.loop && (decide (env.trace.filterLine < 0) ||
                env.st.line s.pos == env.trace.filterLine)
              then { s with loopStack := i.name :: s.loopStack } else s
            let ((bestStash, bestEndPos, bestResult), s) ← growLoopT env say show_ id fparse a startPos fuel r s
            let s ← (if env.trace.loop then
                match s.loopStack with
                | [] => .panic .loopStackEmpty    -- loopStack[:len-1] on an empty slice
                | _ :: l => .ok { s with loopStack := l }
              else .ok s)
            let (_, s) ← wipeWith a s
            let s := restoreWith bestStash s
            let s ← setPos env bestEndPos s
            let s ← say show_ id (.done (some (tx bestResult s.h))) s
            .ok (some bestResult, setStage a 0 s)
        else .panic .unexpectedStage
    else if (s.heap a).loopstage = 1 ∨ (s.heap a).loopstage = 2 ∨ (s.heap a).loopstage = 3 then do
      let s := if (s.heap a).loopstage = 1 then setStage a 2 s else s
      let s ← say show_ id (.base ((s.heap a).result.map fun v => tx v s.h)) s
      let m ← collectMask s.heap startPos id s.stack.tail ((s.heap a).wipemask.getD fun _ => false)
      let s := updFrame a (fun f => { f with wipemask := some m }) s
      let r := (s.heap a).result
      match (s.heap a).endpos with
      | some e => do
        let s ← setPos env e s
        .ok (r, s)
      | none => .ok (r, s)
    else .panic .unexpectedStage

/-- packrat.go:292-309 `wrap`, 74-81 `stack`, see `wrap`. -/
def wrapT (rec_ : Node → Run V H) (fuel : Nat) (n : Node) : Run V H := fun s =>
  match n with
  | .rule id =>
    match env.g.rules[id]? with
    | none => .panic .indexOutOfRange
    | some body => do
      let s ← stackPush env id s
      let (r, s) ← loopifyT env say tx fuel id body.info
        (prepareResult env true body.info (parseKind env rec_ fuel body)) s
      .ok (r, stackPop s)
  | n =>
    if n.info.ownLabel || n.info.cb.isSome then
      prepareResult env false n.info (parseKind env rec_ fuel n) s
    else parseKind env rec_ fuel n s

/-- `node.parse(ctx)`, see `parse` (packrat.go:292-309). -/
def parseT : Nat → Node → Run V H
  | 0, _, _ => .oof
  | k + 1, n, s => wrapT env say tx (parseT k) k n s

end

/-- grammar.go:108-118 `Grammar.parse`: what is printed by the parse, with its result. -/
def traceStream (ops : Ops V H) (text : V → H → Bytes) (st : Stream) (g : Grammar) (trace : Trace) (o : CtxOptions) (fuel : Nat) (h : H)
    (start : Nat) : Out (Option V × List LogLine) :=
  let trace' := if o.debug then { trace with stack := true } else trace
  let env : Env V H := { ops := ops, st := st, g := g, trace := trace', skipLog := o.skipLog }
  match parseT env.logged (printSay env.logged) (fun v h => text v h.1) fuel g.root (newState (h, []) start) with
  | .ok (r, s) => .ok (r, s.h.2)
  | .panic e => .panic e
  | .oof => .oof

/-- grammar.go:79-89 `ParseString`: what it prints. -/
def traceOf (ops : Ops V H) (text : V → H → Bytes) (g : Grammar) (trace : Trace) (opts : List ParseOption) (fuel : Nat) (h : H)
    (code : Bytes) : Out (Option V × List LogLine) :=
  traceStream ops text (Stream.ofText code) g trace (opts.foldl CtxOptions.apply {}) fuel h 0

/-- grammar.go:94-104 `ParseTokens`: what it prints. -/
def traceTokens (ops : Ops V H) (text : V → H → Bytes) (g : Grammar) (trace : Trace) (opts : List ParseOption) (fuel : Nat) (h : H)
    (c : TokenStream) : Out (Option V × List LogLine) :=
  traceStream ops text (Stream.ofTokens c) g trace (opts.foldl CtxOptions.apply {}) fuel h c.workOffset

end Joeson
