import Verif.Model.Values
/-!
# examples/lisp-repl/expr.go, list.go: the expressions
-/

namespace Joeson.Lisp

/-- A `float64` of Go, by its bits. -/
abbrev Float64 := UInt64

/-- examples/lisp-repl/expr.go:21-30 `Expr`, by its `Kind`, with the field that this kind uses; the others are zero.
`List`: list.go:5-8. Attributes (`*j.Attr`) are left out. -/
inductive LExpr where
  /-- `kindString`, `Str` -/
  | str (s : Bytes)
  /-- `kindNumber`, `Number` -/
  | num (x : Float64)
  /-- `kindList`, `List` -/
  | list (l : List LExpr)
  /-- `kindOperator`, `Operator` -/
  | op (s : Bytes)

mutual
/-- An `Expr` as a value of the parser: a user type. -/
def LExpr.ast : LExpr → Ast
  | .str s => .user 20 [.str s]
  | .num x => .user 21 [.int x.toNat]
  | .list l => .user 22 (LExpr.asts l)
  | .op s => .user 23 [.str s]
/-- All of them. -/
def LExpr.asts : List LExpr → List Ast
  | [] => []
  | e :: l => e.ast :: LExpr.asts l
end

mutual
/-- The type assertion `v.(Expr)`: examples/lisp-repl/grammar.go:51-56, main.go:54. -/
def toExpr : Ast → Option LExpr
  | .user 20 [.str s] => some (.str s)
  | .user 21 [.int x] => some (.num (UInt64.ofNat x.toNat))
  | .user 22 l => (toExprs l).map .list
  | .user 23 [.str s] => some (.op s)
  | _ => none
/-- For all. -/
def toExprs : List Ast → Option (List LExpr)
  | [] => some []
  | v :: l => (toExpr v).bind fun e => (toExprs l).map (e :: ·)
end

end Joeson.Lisp
