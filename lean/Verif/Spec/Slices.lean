import Verif.Model.Slices
/-!
# Arrays as lists

What one would like arrays to be: every variable contains a list of its own. And the programs for which that is so.
-/

namespace Joeson.Spec

/-- What a variable is used for. -/
inductive Use where
  /-- it may be appended to -/
  | own
  /-- without spare capacity: appending makes a copy -/
  | full
  /-- it is only read -/
  | shared
deriving DecidableEq

/-- Variables that contain lists. -/
abbrev Lists (α : Type) := List (List α × Use)

/-- Careful statements, on lists: what was handed out by `Array`, given to `NewNativeArray` or cut from something is not appended to,
unless it was clipped; nobody writes to elements. `none` for a statement that is not careful. -/
def Lists.step {α : Type} (p : Lists α) : SliceOp α → Option (Lists α)
  | .newFrom l => some (p ++ [(l, .own)])
  | .append v x _ => (p[v]?).bind fun q => if q.2 = .shared then none else some (p.set v (q.1 ++ [x], .own))
  | .array v => (p[v]?).map fun q => p ++ [(q.1, .shared)]
  | .wrap v => (p[v]?).map fun q => p.set v (q.1, .shared) ++ [q]
  | .sub v i j => (p[v]?).bind fun q => if i ≤ j ∧ j ≤ q.1.length then some (p ++ [((q.1.take j).drop i, .shared)]) else none
  | .clip v => (p[v]?).map fun q => p ++ [(q.1, .full)]
  | .write _ _ _ => none

/-- A careful program. -/
def Lists.run {α : Type} (p : Lists α) : List (SliceOp α) → Option (Lists α)
  | [] => some p
  | op :: l => (p.step op).bind fun p' => Lists.run p' l

end Joeson.Spec
