import Verif.Model.Precedence
import Verif.Spec.Calculator
/-!
# Chains of operations

What examples/precedence/precedence_test.go is about: operands that are letters or digits, with `+` or `-` between them and
spaces and tabs around these, and how the operations are nested.
-/

namespace Joeson
open Arith

/-- `[a-zA-Z0-9]` -/
def IsGlyph (c : UInt8) : Prop := 0x61 ≤ c ∧ c ≤ 0x7A ∨ 0x41 ≤ c ∧ c ≤ 0x5A ∨ 0x30 ≤ c ∧ c ≤ 0x39

/-- An operator and an operand, with the blanks before both. -/
structure Link where
  w : Bytes
  op : AddOp
  w' : Bytes
  a : UInt8

/-- As text. -/
def Link.text (k : Link) : Bytes := k.w ++ k.op.char :: (k.w' ++ [k.a])

/-- Blanks are blanks and the operand is a letter or a digit. -/
def Link.Ok (k : Link) : Prop := (∀ b ∈ k.w, IsBlank b) ∧ (∀ b ∈ k.w', IsBlank b) ∧ IsGlyph k.a

/-- As text. -/
def chain (l : List Link) : Bytes := l.flatMap Link.text

/-- The operations, from left to right. -/
def leftMoss (v : Ast) (l : List Link) : Ast := l.foldl (fun v k => binaryexpr v [k.op.char] (.str [k.a])) v

/-- The operations, from right to left. -/
def rightMoss (a : UInt8) : List (AddOp × UInt8) → Ast
  | [] => .str [a]
  | (o, b) :: l => binaryexpr (.str [a]) [o.char] (rightMoss b l)

/-- As text. -/
def rightText : List (AddOp × UInt8) → Bytes
  | [] => []
  | (o, b) :: l => o.char :: b :: rightText l

end Joeson
