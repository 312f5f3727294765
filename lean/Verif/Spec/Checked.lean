import Verif.Model.Engine
/-!
# The engine with checks around every parser call

Used to state C27: `checkedParse` is `parse` except that after every call of a parser (also the
nested ones) the rule stack must be the one before the call, and the cursor must be between where it
was and the end of the input. If not, it panics with `checkFailed`, which `parse` never does.
-/

namespace Joeson
variable {V H : Type}

/-- Check a finished call. -/
def checkCall (env : Env V H) (f : Run V H) : Run V H := fun s =>
  match f s with
  | .ok (r, s') =>
    if s'.stack = s.stack ∧ s.pos ≤ s'.pos ∧ s'.pos ≤ env.st.len then .ok (r, s') else .panic .checkFailed
  | .panic e => .panic e
  | .oof => .oof

/-- `parse` with `checkCall` around every call. -/
def checkedParse (env : Env V H) : Nat → Node → Run V H
  | 0, _, _ => .oof
  | k + 1, n, s => checkCall env (wrap env (checkedParse env k) k n) s

end Joeson
