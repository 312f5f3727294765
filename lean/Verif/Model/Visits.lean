import Verif.Model.Engine
/-!
# Counting the calls of `parse`

The engine of Model/Engine.lean, with a counter beside the store of the user. The counter is not in the Go code: it counts how
often the method `parse` of a parser (parser.go:9) is called.
-/

namespace Joeson
variable {V H : Type}

/-- The operations on values (see `Ops`), which leave the counter alone. -/
def Ops.counted (ops : Ops V H) : Ops V (H × Nat) where
  str := ops.str
  undef := ops.undef
  isUndef := ops.isUndef
  arr l h := ((ops.arr l h.1).1, (ops.arr l h.1).2, h.2)
  newMap k v h := ((ops.newMap k v h.1).1, (ops.newMap k v h.1).2, h.2)
  mapSet r k v h := (ops.mapSet r k v h.1).map fun x => (x.1, x.2, h.2)
  merge r v h := (ops.merge r v h.1).map fun x => (x.1, x.2, h.2)
  cb c v p h := (ops.cb c v p h.1).map fun x => (x.1, x.2, h.2)
  origin v o h := ((ops.origin v o h.1).1, (ops.origin v o h.1).2, h.2)

/-- The environment (see `Env`) with the counter. -/
def Env.counted (env : Env V H) : Env V (H × Nat) where
  ops := env.ops.counted
  st := env.st
  g := env.g
  trace := env.trace
  skipLog := env.skipLog

/-- One more call. -/
def tick (s : St V (H × Nat)) : St V (H × Nat) := { s with h := (s.h.1, s.h.2 + 1) }

/-- `node.parse(ctx)` as `parse` (packrat.go:292-309), counted. -/
def parseV (env : Env V (H × Nat)) : Nat → Node → Run V (H × Nat)
  | 0, _, _ => .oof
  | k + 1, n, s => wrap env (parseV env k) k n (tick s)

/-- How often `parse` is called by the parse of the top rank: grammar.go:108. -/
def visits (env : Env V H) (k : Nat) (h : H) : Out Nat :=
  match parseV env.counted k env.g.root (newState (h, 0) 0) with
  | .ok (_, s) => .ok s.h.2
  | .panic e => .panic e
  | .oof => .oof

end Joeson
