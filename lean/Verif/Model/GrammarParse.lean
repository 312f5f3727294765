import Verif.Model.Values
/-! # grammar.go: `ParseString` and the error report -/

namespace Joeson

/-- The text of a parse error (grammar.go:138-152), piece by piece; the ANSI colours around the
pieces are left out. -/
structure Report where
  /-- `Error parsing at char:%d=(line:%d,col:%d).` -/
  char : Nat
  line : Int
  col : Int
  /-- the two slices shown by `Print()` -/
  printed : Bytes × Bytes
  ok : Bytes
  parsing : Bytes
  suspect : Bytes
  unknown : Bytes

/-- What `Grammar.parse` returns: nil, a value, or a `ParseError`. -/
inductive Outcome (V : Type) where
  | nil
  | value (v : V)
  | error (r : Report)

/-- parseoption.go:20-24 the options that can be given to a parse call. -/
inductive ParseOption where
  | debug (b : Bool)
  | skipLog (b : Bool)
  | skipCache (b : Bool)

/-- parseoption.go:31-33: the fields of `parseOptions` of a context. -/
structure CtxOptions where
  debug : Bool := false
  skipLog : Bool := false
  skipCache : Bool := false

/-- parseoption.go:26-28 `apply`, parsectx.go:57-60 `applyOption`. -/
def CtxOptions.apply (o : CtxOptions) : ParseOption → CtxOptions
  | .debug b => { o with debug := b }
  | .skipLog b => { o with skipLog := b }
  | .skipCache b => { o with skipCache := b }

/-- grammar.go:143-151 on a rune stream: the calls building the message when the cursor is at `pos`. -/
def runeReport (text : Bytes) (pos maxSuccess maxAttempt : Nat) : Except Panic Report := do
  let c := runeAt text pos
  let col ← c.posToCol maxSuccess
  let printed ← c.printSlices
  let ok ← c.peekLines [-2]
  let parsing ← c.peekRunes ((maxSuccess : Int) - (pos : Int))
  let c ← c.setPos maxSuccess
  let suspect ← c.peekRunes ((maxAttempt : Int) - (c.pos : Int))
  let c ← c.setPos maxAttempt
  let unknown ← c.peekLines [2]
  return { char := maxSuccess, line := c.posToLine maxSuccess, col := col, printed := printed,
           ok := ok, parsing := parsing, suspect := suspect, unknown := unknown }

section
variable {V H : Type}

/-- grammar.go:127-136, the inner loop over `ctx.frames[pos]`, for ids below `n`: is there a frame,
and is there one with a result. -/
def scanRow (s : St V H) (pos : Nat) : Nat → Bool × Bool
  | 0 => (false, false)
  | n + 1 =>
    let (a, b) := scanRow s pos n
    match s.table pos n with
    | none => (a, b)
    | some x => (true, b || (s.heap x).result.isSome)

/-- grammar.go:124-137: `maxAttempt` and `maxSuccess`, scanning `cnt` rows from `pos`. -/
def scanRows (s : St V H) (numRules : Nat) : Nat → Nat → Nat × Nat → Nat × Nat
  | _, 0, acc => acc
  | pos, cnt + 1, (att, suc) =>
    let (a, b) := scanRow s pos numRules
    scanRows s numRules (pos + 1) cnt (if a then pos else att, if b then pos else suc)

/-- grammar.go:108-154 `Grammar.parse`. `trace` is `gm.TraceOptions`, a pointer shared by all parses
of the grammar; its value after the call is returned too (also when the call panics). -/
def grammarParse (ops : Ops V H) (st : Stream) (report : Nat → Nat → Nat → Except Panic Report)
    (g : Grammar) (trace : Trace) (o : CtxOptions) (fuel : Nat) (h : H) (start : Nat) :
    Out (Outcome V × St V H) × Trace :=
  let oldTrace := trace.stack
  let trace' := if o.debug then { trace with stack := true } else trace
  let env : Env V H := { ops := ops, st := st, g := g, trace := trace', skipLog := o.skipLog }
  match parse env fuel g.root (newState h start) with
  | .panic e => (.panic e, trace')
  | .oof => (.oof, trace')
  | .ok (r, s) =>
    let restored := { trace' with stack := oldTrace }
    if s.pos ≠ st.len then
      let (att, suc) := scanRows s g.numRules s.pos (st.len + 1 - s.pos) (s.pos, s.pos)
      match report s.pos suc att with
      | .error e => (.panic e, restored)
      | .ok rep => (.ok (.error rep, s), restored)
    else match r with
      | none => (.ok (.nil, s), restored)
      | some v => (.ok (.value v, s), restored)

/-- grammar.go:79-89 `ParseString`. -/
def parseString (ops : Ops V H) (g : Grammar) (trace : Trace) (opts : List ParseOption) (fuel : Nat)
    (h : H) (text : Bytes) : Out (Outcome V × St V H) × Trace :=
  grammarParse ops (Stream.ofText text) (runeReport text) g trace
    (opts.foldl CtxOptions.apply {}) fuel h 0

end
end Joeson
