import Verif.Spec.Precedence
/-!
# Expressions with two levels of precedence

What the other grammars of examples/precedence/precedence_test.go are about: operands that are letters or digits or in
parentheses, `*` and `/` before `+` and `-`, blanks around the operators. As in `Spec/Calculator`, operations are nested to
the left.
-/

namespace Joeson
open Arith

mutual
/-- A letter or digit, or an expression in parentheses. -/
inductive MFactor where
  | glyph (a : UInt8)
  | paren (s : MSum)
/-- A factor, or a product, an operator and a factor. -/
inductive MProd where
  | one (f : MFactor)
  | op (p : MProd) (w : Bytes) (o : MulOp) (w' : Bytes) (f : MFactor)
/-- A product, or a sum, an operator and a product. -/
inductive MSum where
  | one (p : MProd)
  | op (s : MSum) (w : Bytes) (o : AddOp) (w' : Bytes) (p : MProd)
end

mutual
/-- The text. -/
def MFactor.text : MFactor → Bytes
  | .glyph a => [a]
  | .paren s => [0x28] ++ s.text ++ [0x29]
/-- The text. -/
def MProd.text : MProd → Bytes
  | .one f => f.text
  | .op p w o w' f => p.text ++ w ++ [o.char] ++ w' ++ f.text
/-- The text. -/
def MSum.text : MSum → Bytes
  | .one p => p.text
  | .op s w o w' p => s.text ++ w ++ [o.char] ++ w' ++ p.text
end

/-- Spaces and tabs, if there may be any. -/
def Gap (gap : Bool) (w : Bytes) : Prop := (∀ c ∈ w, IsBlank c) ∧ (gap = false → w = [])

mutual
/-- Letters and digits are, and so are blanks. `gap`: there may be blanks. -/
def MFactor.Ok (gap : Bool) : MFactor → Prop
  | .glyph a => IsGlyph a
  | .paren s => s.Ok gap
/-- All of it. -/
def MProd.Ok (gap : Bool) : MProd → Prop
  | .one f => f.Ok gap
  | .op p w _ w' f => p.Ok gap ∧ Gap gap w ∧ Gap gap w' ∧ f.Ok gap
/-- All of it. -/
def MSum.Ok (gap : Bool) : MSum → Prop
  | .one p => p.Ok gap
  | .op s w _ w' p => s.Ok gap ∧ Gap gap w ∧ Gap gap w' ∧ p.Ok gap
end

mutual
/-- How deep parentheses are nested. -/
def MFactor.nest : MFactor → Nat
  | .glyph _ => 0
  | .paren s => s.nest + 1
/-- How deep. -/
def MProd.nest : MProd → Nat
  | .one f => f.nest
  | .op p _ _ _ f => max p.nest f.nest
/-- How deep. -/
def MSum.nest : MSum → Nat
  | .one p => p.nest
  | .op s _ _ _ p => max s.nest p.nest
end

mutual
/-- The operations. -/
def MFactor.tree : MFactor → Ast
  | .glyph a => .str [a]
  | .paren s => s.tree
/-- The operations. -/
def MProd.tree : MProd → Ast
  | .one f => f.tree
  | .op p _ o _ f => binaryexpr p.tree [o.char] f.tree
/-- The operations. -/
def MSum.tree : MSum → Ast
  | .one p => p.tree
  | .op s _ o _ p => binaryexpr s.tree [o.char] p.tree
end

mutual
/-- Is there no operation, but for a letter or digit, possibly in parentheses? -/
def MFactor.bare : MFactor → Bool
  | .glyph _ => true
  | .paren s => s.bare
/-- Only that? -/
def MProd.bare : MProd → Bool
  | .one f => f.bare
  | .op _ _ _ _ _ => false
/-- Only that? -/
def MSum.bare : MSum → Bool
  | .one p => p.bare
  | .op _ _ _ _ _ => false
end

mutual
/-- Is there an operation in parentheses? -/
def MFactor.parenOp : MFactor → Bool
  | .glyph _ => false
  | .paren s => !s.bare || s.parenOp
/-- Is there one? -/
def MProd.parenOp : MProd → Bool
  | .one f => f.parenOp
  | .op p _ _ _ f => p.parenOp || f.parenOp
/-- Is there one? -/
def MSum.parenOp : MSum → Bool
  | .one p => p.parenOp
  | .op s _ _ _ p => s.parenOp || p.parenOp
end

/-- An operator and a product, with the blanks before both. -/
structure MLink where
  w : Bytes
  op : AddOp
  w' : Bytes
  p : MProd

/-- As text. -/
def MLink.text (k : MLink) : Bytes := k.w ++ [k.op.char] ++ k.w' ++ k.p.text

/-- Blanks and the product are as they should be, and there are no parentheses. -/
def MLink.Ok (k : MLink) : Prop := Gap true k.w ∧ Gap true k.w' ∧ k.p.Ok true ∧ k.p.nest = 0

/-- The text of a chain. -/
def linksText (l : List MLink) : Bytes := l.flatMap MLink.text

/-- The operations, from right to left. -/
def rightSum (p : MProd) : List MLink → Ast
  | [] => p.tree
  | k :: l => binaryexpr p.tree [k.op.char] (rightSum k.p l)

/-- `!`, `^` or `-` -/
def IsUnary (c : UInt8) : Prop := c = 0x21 ∨ c = 0x5E ∨ c = 0x2D

end Joeson
