import Verif.Model.Native
import Verif.Spec.Seen
/-!
# examples/precedence/precedence_test.go

The callback `growMoss`, on trees as values.
-/

namespace Joeson

/-- precedence_test.go:40-45 `binaryexpr`: a user type with the fields `Lx`, `Op` and `Rx`. -/
def binaryexpr (lx : Ast) (op : Bytes) (rx : Ast) : Ast := .user 0 [lx, .str op, rx]

/-- `v.(*j.NativeArray)`: a type assertion. -/
def asArray : Ast → Except Panic (List Ast)
  | .arr l => .ok l
  | _ => .error .badType

/-- precedence_test.go:82-90: the loop that collects the operations; an operation is the pair of its operator and its operand
(precedence_test.go:35-39). -/
def collectOps (u : UserString) : List Ast → Except Panic (List (Bytes × Ast))
  | [] => .ok []
  | v :: l => do
    let a ← asArray v
    let op ← goIndex a 0
    let operand ← goIndex a 1
    let rest ← collectOps u l
    return (op.string u, operand) :: rest

/-- precedence_test.go:74-110 `growMoss`. `u`: `String()` of values of user types. It never returns nil. -/
def growMoss (u : UserString) (it : Ast) : Except Panic Ast :=
  match it with
  | .str s => .ok (.str s)
  | it => do
    let a ← asArray it
    let first ← goIndex a 0
    let second ← goIndex a 1
    let vs ← asArray second
    let operations ← collectOps u vs
    return operations.foldl (fun moss o => binaryexpr moss o.1 o.2) first

/-- The values, with `growMoss` as callback. -/
def mossOps (u : UserString) : PureOps Ast := treePure fun _ v _ => (growMoss u v).map some

/-- precedence_test.go:116-118: `String()` of a `binaryexpr`; other values as `u` does. -/
def mossString (u : UserString) : Ast → Bytes
  | .user 0 [lx, .str op, rx] => asc "[" ++ op ++ asc " " ++ mossString u lx ++ asc " " ++ mossString u rx ++ asc "]"
  | v => v.string u

end Joeson
