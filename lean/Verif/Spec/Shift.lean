import Verif.Spec.TokenStream
/-!
# What a caller sees of a parse that begins later in its text
-/

namespace Joeson.Spec
variable {V H : Type}

/-- Values and callbacks for a text from which `n` bytes and `l` lines were taken away: positions and lines are those in the whole text. -/
def _root_.Joeson.Ops.moved (ops : Ops V H) (n : Nat) (l : Int) : Ops V H :=
  { ops with
    cb := fun c v p h => ops.cb c v (p + n) h
    origin := fun v o h => ops.origin v ⟨o.start + n, o.stop + n, o.line + l, o.ruleName⟩ h }

/-- A callback, without the place. -/
def _root_.Joeson.Call.what (c : Call) : Call := { c with pos := 0 }

/-- An outcome, errors being `n` bytes later. -/
def Brief.later (n : Nat) : Brief V → Brief V
  | .nil => .nil
  | .value v => .value v
  | .error c => .error (c + n)

/-- What a caller sees, without the message: the outcome, the store, the callbacks that were called, and where the parse stopped. -/
def shown : Out (Outcome V × St V H) → Out (Brief V × H × List Call × Nat)
  | .ok (o, s) => .ok (brief o, s.h, s.calls.map Call.what, s.pos)
  | .panic e => .panic e
  | .oof => .oof

/-- The same, `n` bytes later. -/
def shownLater (n : Nat) : Out (Brief V × H × List Call × Nat) → Out (Brief V × H × List Call × Nat)
  | .ok (o, h, c, p) => .ok (o.later n, h, c, p + n)
  | .panic e => .panic e
  | .oof => .oof

end Joeson.Spec
