import Verif.Model.LispMachine
/-!
# What expressions of the Lisp example mean

Arithmetic, comparisons and logic, after the comments and tests of examples/lisp-repl; the meaning of definitions by
replacement of parameters.
-/

namespace Joeson.Lisp

/-- What is computed. -/
inductive Fn where
  | sum | diff | prod | rem | lt | le | gt | ge | eq | neq | all | any
  deriving DecidableEq

/-- How it is written. -/
def Fn.names : Fn → List Bytes
  | .sum => [asc "+", asc "add"]
  | .diff => [asc "-", asc "sub"]
  | .prod => [asc "*", asc "mul"]
  | .rem => [asc "%"]
  | .lt => [asc "<", asc "lt"]
  | .le => [asc "<=", asc "le"]
  | .gt => [asc ">", asc "gt"]
  | .ge => [asc ">=", asc "ge"]
  | .eq => [asc "==", asc "eq", asc "eq?"]
  | .neq => [asc "!=", asc "neq", asc "neq?"]
  | .all => [asc "and"]
  | .any => [asc "or"]

/-- How many arguments there may be. -/
def Fn.Takes (n : Nat) : Fn → Prop
  | .sum | .prod | .all | .any => True
  | .diff | .lt | .le | .gt | .ge | .eq | .neq => 2 ≤ n
  | .rem => n = 2

/-- Is it so for all neighbours? -/
def neighbours (r : Float64 → Float64 → Prop) : List Float64 → Prop
  | a :: b :: l => r a b ∧ neighbours r (b :: l)
  | _ => True

/-- 1 is true and 0 is false. -/
noncomputable def truth (p : Prop) : Float64 := open Classical in if p then f1 else f0

/-- Zero is false, everything else is true. -/
def IsTrue (F : FloatOps) (x : Float64) : Prop := F.eq x f0 = false

/-- What is computed. -/
noncomputable def Fn.apply (F : FloatOps) : Fn → List Float64 → Float64
  | .sum, l => l.foldl F.add f0
  | .diff, l => l.tail.foldl F.sub (l.headD f0)
  | .prod, l => l.foldl F.mul f1
  | .rem, l => F.mod (l.headD f0) (l.tail.headD f0)
  | .lt, l => truth (neighbours (fun a b => F.lt a b = true) l)
  | .le, l => truth (neighbours (fun a b => F.le a b = true) l)
  | .gt, l => truth (neighbours (fun a b => F.lt b a = true) l)
  | .ge, l => truth (neighbours (fun a b => F.le b a = true) l)
  | .eq, l => truth (neighbours (fun a b => F.eq a b = true) l)
  | .neq, l => truth (neighbours (fun a b => F.eq a b = false) l)
  | .all, l => truth (∀ x ∈ l, IsTrue F x)
  | .any, l => truth (∃ x ∈ l, IsTrue F x)

mutual
/-- Arithmetic, with conditions. -/
inductive AExpr where
  | num (x : Float64)
  | app (f : Fn) (name : Bytes) (l : AList)
  | ite (c t e : AExpr)
/-- Arguments. -/
inductive AList where
  | nil
  | cons (a : AExpr) (l : AList)
end

/-- How many. -/
def AList.length : AList → Nat
  | .nil => 0
  | .cons _ l => l.length + 1

mutual
/-- As an expression. -/
def AExpr.expr : AExpr → LExpr
  | .num x => .num x
  | .app _ name l => .list (.op name :: l.exprs)
  | .ite c t e => .list [.op (asc "if"), c.expr, t.expr, e.expr]
/-- As expressions. -/
def AList.exprs : AList → List LExpr
  | .nil => []
  | .cons a l => a.expr :: l.exprs
end

mutual
/-- Functions have their names and enough arguments. -/
def AExpr.Ok : AExpr → Prop
  | .num _ => True
  | .app f name l => name ∈ f.names ∧ f.Takes l.length ∧ l.Ok
  | .ite c t e => c.Ok ∧ t.Ok ∧ e.Ok
/-- All of them. -/
def AList.Ok : AList → Prop
  | .nil => True
  | .cons a l => a.Ok ∧ l.Ok
end

mutual
/-- The value. -/
noncomputable def AExpr.value (F : FloatOps) : AExpr → Float64
  | .num x => x
  | .app f _ l => f.apply F (l.values F)
  | .ite c t e => open Classical in if IsTrue F (c.value F) then t.value F else e.value F
/-- The values. -/
noncomputable def AList.values (F : FloatOps) : AList → List Float64
  | .nil => []
  | .cons a l => a.value F :: l.values F
end

mutual
/-- How deep calls are nested. -/
def AExpr.depth : AExpr → Nat
  | .num _ => 1
  | .app _ _ l => l.depth + 1
  | .ite c t e => max (max c.depth t.depth) e.depth + 2
/-- How deep. -/
def AList.depth : AList → Nat
  | .nil => 2
  | .cons a l => max a.depth l.depth
end

/-- Names that mean something at the start still mean that. -/
def Standard (m : Machine) : Prop :=
  ∀ n, newMachine.funcs n ≠ none ∨ newMachine.aliases n ≠ none → m.funcs n = newMachine.funcs n ∧ m.aliases n = newMachine.aliases n

/-- `e'` is `e` with parameters replaced by the arguments. -/
inductive Replaced (params : List Bytes) (args : List LExpr) : LExpr → LExpr → Prop
  | str {s} : Replaced params args (.str s) (.str s)
  | num {x} : Replaced params args (.num x) (.num x)
  | param {i : Nat} {s e} : params[i]? = some s → args[i]? = some e → Replaced params args (.op s) e
  | other {s} : s ∉ params → Replaced params args (.op s) (.op s)
  | nil : Replaced params args (.list []) (.list [])
  | cons {e e' l l'} : Replaced params args e e' → Replaced params args (.list l) (.list l') →
      Replaced params args (.list (e :: l)) (.list (e' :: l'))

/-- `(cdr (cdr ... l))` -/
def cdrs (l : List LExpr) : Nat → LExpr
  | 0 => .list l
  | i + 1 => .list [.op (asc "cdr"), cdrs l i]

/-- Is it an operator? -/
def LExpr.isOp : LExpr → Bool
  | .op _ => true
  | _ => false

/-- A list that is not a call. -/
def Plain (l : List LExpr) : Prop := ∀ e ∈ l.head?, e.isOp = false

/-- `(define (fact n) (if (<= n 0) 1 (* n (fact (- n 1)))))`, main_test.go:94 -/
def factBody (F : FloatOps) : LExpr :=
  .list [.op (asc "if"), .list [.op (asc "<="), .op (asc "n"), .num (F.ofInt 0)], .num (F.ofInt 1),
    .list [.op (asc "*"), .op (asc "n"), .list [.op (asc "fact"), .list [.op (asc "-"), .op (asc "n"), .num (F.ofInt 1)]]]]

/-- Arithmetic of integers is exact up to `b`. For `float64` this holds with `b` = 2^53. -/
structure Exact (F : FloatOps) (b : Nat) : Prop where
  one : F.ofInt 1 = f1
  zero : F.ofInt 0 = f0
  sub : ∀ x y : Int, x.natAbs ≤ b → y.natAbs ≤ b → (x - y).natAbs ≤ b → F.sub (F.ofInt x) (F.ofInt y) = F.ofInt (x - y)
  mul : ∀ x y : Int, x.natAbs ≤ b → y.natAbs ≤ b → (x * y).natAbs ≤ b → F.mul (F.ofInt x) (F.ofInt y) = F.ofInt (x * y)
  le : ∀ x y : Int, x.natAbs ≤ b → y.natAbs ≤ b → F.le (F.ofInt x) (F.ofInt y) = decide (x ≤ y)
  eq : ∀ x y : Int, x.natAbs ≤ b → y.natAbs ≤ b → F.eq (F.ofInt x) (F.ofInt y) = decide (x = y)

end Joeson.Lisp
