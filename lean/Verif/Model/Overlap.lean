import Verif.Model.TokenStream
/-!
# Calls of one Grammar that overlap

A `Grammar` is used by several calls of `ParseString` at the same time: from goroutines, or from a callback that parses
something with the grammar that is calling it. Each call has a context of its own (grammar.go:80-84). What they share is the
`Grammar` and its parsers. A parse writes two things there: `TraceOptions.Stack` (grammar.go:109-120), and the values of
`Lazy` fields when they are first asked for (parser_sequence.go:101, helpers/lazy.go:18-26).

Every read and write is taken to be one step, and the steps of the calls come in any order. The Go memory model promises less
for goroutines (these are data races), so what is proved to go wrong here can go wrong, and what is proved to work assumes that words are
read and written as a whole.
-/

namespace Joeson
variable {V H : Type}

/-- The operations on values (see `Ops`) beside a clock. -/
def Ops.clocked (ops : Ops V H) : Ops V (H × Nat) where
  str := ops.str
  undef := ops.undef
  isUndef := ops.isUndef
  arr l h := ((ops.arr l h.1).1, (ops.arr l h.1).2, h.2)
  newMap k v h := ((ops.newMap k v h.1).1, (ops.newMap k v h.1).2, h.2)
  mapSet r k v h := (ops.mapSet r k v h.1).map fun x => (x.1, x.2, h.2)
  merge r v h := (ops.merge r v h.1).map fun x => (x.1, x.2, h.2)
  cb c v p h := (ops.cb c v p h.1).map fun x => (x.1, x.2, h.2)
  origin v o h := ((ops.origin v o h.1).1, (ops.origin v o h.1).2, h.2)

/-- The environment (see `Env`) in which `TraceOptions.Stack` is read as `b`. -/
def Env.stackIs (env : Env V H) (b : Bool) : Env V H :=
  { env with trace := { env.trace with stack := b } }

/-- packrat.go:292-309 `wrap`, see `wrap`. `flag n` is what is found in `TraceOptions.Stack` at the `n`-th call of `loopify`,
which reads it once (packrat.go:85-86). -/
def wrapC (env : Env V (H × Nat)) (flag : Nat → Bool) (rec_ : Node → Run V (H × Nat)) (fuel : Nat) (n : Node) : Run V (H × Nat) := fun s =>
  match n with
  | .rule id =>
    match env.g.rules[id]? with
    | none => .panic .indexOutOfRange
    | some body => do
      let s ← stackPush env id s
      let b := flag s.h.2
      let s := { s with h := (s.h.1, s.h.2 + 1) }
      let (r, s) ← loopify (env.stackIs b) fuel id body.info
        (prepareResult env true body.info (parseKind env rec_ fuel body)) s
      .ok (r, stackPop s)
  | n =>
    if n.info.ownLabel || n.info.cb.isSome then
      prepareResult env false n.info (parseKind env rec_ fuel n) s
    else parseKind env rec_ fuel n s

/-- `node.parse(ctx)`, see `parse`. -/
def parseC (env : Env V (H × Nat)) (flag : Nat → Bool) : Nat → Node → Run V (H × Nat)
  | 0, _, _ => .oof
  | k + 1, n, s => wrapC env flag (parseC env flag k) k n s

/-- grammar.go:108-154 `Grammar.parse`, see `grammarParse`, while others change `TraceOptions.Stack`. -/
def grammarParseC (ops : Ops V H) (st : Stream) (report : Nat → Nat → Nat → Except Panic Report)
    (g : Grammar) (trace : Trace) (skipLog : Bool) (flag : Nat → Bool) (fuel : Nat) (h : H) (start : Nat) : Out (Outcome V × H × List Call × Nat) :=
  let env : Env V (H × Nat) := { ops := ops.clocked, st := st, g := g, trace := trace, skipLog := skipLog }
  match parseC env flag fuel g.root (newState (h, 0) start) with
  | .panic e => .panic e
  | .oof => .oof
  | .ok (r, s) =>
    if s.pos ≠ st.len then
      let (att, suc) := scanRows s g.numRules s.pos (st.len + 1 - s.pos) (s.pos, s.pos)
      match report s.pos suc att with
      | .error e => .panic e
      | .ok rep => .ok (.error rep, s.h.1, s.calls, s.pos)
    else match r with
      | none => .ok (.nil, s.h.1, s.calls, s.pos)
      | some v => .ok (.value v, s.h.1, s.calls, s.pos)

/-- grammar.go:79-89 `ParseString` while others change `TraceOptions.Stack`. -/
def parseStringC (ops : Ops V H) (g : Grammar) (trace : Trace) (skipLog : Bool) (flag : Nat → Bool) (fuel : Nat)
    (h : H) (text : Bytes) : Out (Outcome V × H × List Call × Nat) :=
  grammarParseC ops (Stream.ofText text) (runeReport text) g trace skipLog flag fuel h 0

/-- grammar.go:94-104 `ParseTokens` while others change `TraceOptions.Stack`. -/
def parseTokensC (ops : Ops V H) (g : Grammar) (trace : Trace) (skipLog : Bool) (flag : Nat → Bool) (fuel : Nat)
    (h : H) (c : TokenStream) : Out (Outcome V × H × List Call × Nat) :=
  grammarParseC ops (Stream.ofTokens c) c.report g trace skipLog flag fuel h c.workOffset

/-! ## TraceOptions.Stack -/

/-- What a call does to `TraceOptions.Stack`. -/
inductive StackStep where
  /-- grammar.go:109-114: call number `id` remembers it, and turns it on if `debug` -/
  | enter (id : Nat) (debug : Bool)
  /-- grammar.go:120: call number `id` puts back what it remembers -/
  | leave (id : Nat)
  deriving DecidableEq

/-- `TraceOptions.Stack`, and the variable `oldTrace` of each call that has begun. -/
structure StackState where
  flag : Bool
  old : Nat → Option Bool

/-- One step. A call that has not begun does not leave. -/
def StackState.step (s : StackState) : StackStep → StackState
  | .enter id debug => { flag := s.flag || debug, old := fun i => if i = id then some s.flag else s.old i }
  | .leave id => match s.old id with
    | none => s
    | some b => { flag := b, old := fun i => if i = id then none else s.old i }

/-- All steps, in this order. -/
def StackState.run (s : StackState) (l : List StackStep) : StackState := l.foldl StackState.step s

/-! ## Lazy -/

/-- Where a call of `Get` is: helpers/lazy.go:18-26. -/
inductive LazyAt (α : Type) where
  /-- before line 19 -/
  | begin
  /-- before line 20 -/
  | evaluate
  /-- before line 21 -/
  | store (x : α)
  /-- before line 22 or 24 -/
  | load
  /-- returned -/
  | done (x : α)
  /-- `*k.val` with nil -/
  | crashed
  deriving DecidableEq

/-- A `Lazy` made with `LazyFromFunc` (helpers/lazy.go:14), calls of `Get` by their number, and the calls that have evaluated
the function. -/
structure LazyState (α : Type) where
  val : Option α
  at_ : Nat → LazyAt α
  evals : List Nat

/-- Call number `i` makes a step. `f` is what the function gives. -/
def LazyState.step {α : Type} (f : α) (s : LazyState α) (i : Nat) : LazyState α :=
  let go (x : LazyAt α) (s : LazyState α) : LazyState α := { s with at_ := fun j => if j = i then x else s.at_ j }
  match s.at_ i with
  | .begin => go (if s.val.isNone then .evaluate else .load) s
  | .evaluate => go (.store f) { s with evals := i :: s.evals }
  | .store x => go .load { s with val := some x }
  | .load => match s.val with
    | some x => go (.done x) s
    | none => go .crashed s
  | .done _ => s
  | .crashed => s

/-- Steps in the order of the list. -/
def LazyState.run {α : Type} (f : α) (s : LazyState α) (l : List Nat) : LazyState α := l.foldl (LazyState.step f) s

/-- Nothing is evaluated yet, no call has begun. -/
def LazyState.init (α : Type) : LazyState α := { val := none, at_ := fun _ => .begin, evals := [] }

end Joeson
