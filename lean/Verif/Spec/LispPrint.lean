import Verif.Spec.Lisp
import Verif.Spec.Colors
/-!
# Expressions that can be written down

What of an expression can be written at the prompt: strings without quotes and operators that the grammar knows. What `%f`
prints for numbers.
-/

namespace Joeson.Lisp
open Arith

mutual
/-- An expression without numbers. -/
def LExpr.NoNum : LExpr → Prop
  | .num _ => False
  | .str _ | .op _ => True
  | .list l => LExpr.NoNums l
/-- All of them. -/
def LExpr.NoNums : List LExpr → Prop
  | [] => True
  | e :: l => e.NoNum ∧ LExpr.NoNums l
end

mutual
/-- Strings have no quotes, and no escape characters that a terminal would take for colours; operators are words or symbols. -/
def LExpr.Plain : LExpr → Prop
  | .num _ => True
  | .str s => 0x22 ∉ s ∧ 0x1B ∉ s ∧ 0x07 ∉ s ∧ ¬ [0xC2, 0x9B] <:+: s
  | .op s => IsWord s ∨ s ∈ symbols
  | .list l => LExpr.Plains l
/-- All of them. -/
def LExpr.Plains : List LExpr → Prop
  | [] => True
  | e :: l => e.Plain ∧ LExpr.Plains l
end

mutual
/-- How deep lists are nested. -/
def LExpr.nest : LExpr → Nat
  | .num _ | .str _ | .op _ => 0
  | .list l => LExpr.nests l + 1
/-- How deep. -/
def LExpr.nests : List LExpr → Nat
  | [] => 0
  | e :: l => max e.nest (LExpr.nests l)
end

/-- What `%f` writes: a number with a point and digits after it, or one of three words. -/
def PrintsFixed (fmt : Float64 → Bytes) : Prop := ∀ x,
  (∃ neg ds ds', ds ≠ [] ∧ (∀ c ∈ ds, IsDigit c) ∧ (∀ c ∈ ds', IsDigit c) ∧ fmt x = sign neg ++ ds ++ 0x2E :: ds') ∨
  fmt x = [0x4E, 0x61, 0x4E] ∨ fmt x = [0x2B, 0x49, 0x6E, 0x66] ∨ fmt x = [0x2D, 0x49, 0x6E, 0x66]

end Joeson.Lisp
