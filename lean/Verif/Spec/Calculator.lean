import Verif.Model.Go
/-!
# Arithmetic expressions

What examples/calculator/calculator_test.go is meant to calculate: integers with an optional sign, `+`, `-`, `*` and `/`,
which associate to the left, `*` and `/` first, parentheses, spaces and tabs between the tokens. A tree holds the layout
as well. Written independently of the grammar: sums and products are left nested, where the grammar has repetitions.
-/

namespace Joeson.Arith

/-- Spaces and tabs. -/
def IsBlank (c : UInt8) : Prop := c = 0x20 ∨ c = 0x09

/-- Digits. -/
def IsDigit (c : UInt8) : Prop := 0x30 ≤ c.toNat ∧ c.toNat ≤ 0x39

/-- `+`, `-` -/
inductive AddOp where
  | plus
  | minus

/-- `*`, `/` -/
inductive MulOp where
  | times
  | div

mutual
/-- An integer, or an expression in parentheses, with blanks after and before the parentheses. -/
inductive Factor where
  | num (neg : Bool) (digits : Bytes)
  | paren (w : Bytes) (s : Sum) (w' : Bytes)
/-- A factor, or a product, an operator and a factor. -/
inductive Prod where
  | one (f : Factor)
  | op (p : Prod) (w : Bytes) (o : MulOp) (w' : Bytes) (f : Factor)
/-- A product, or a sum, an operator and a product. -/
inductive Sum where
  | one (p : Prod)
  | op (s : Sum) (w : Bytes) (o : AddOp) (w' : Bytes) (p : Prod)
end

/-- A whole text: an expression with blanks around it. -/
structure Input where
  w : Bytes
  s : Sum
  w' : Bytes

/-! ## Texts -/

/-- The sign. -/
def AddOp.char : AddOp → UInt8
  | .plus => 0x2B
  | .minus => 0x2D
/-- The sign. -/
def MulOp.char : MulOp → UInt8
  | .times => 0x2A
  | .div => 0x2F

mutual
/-- The text. -/
def Factor.text : Factor → Bytes
  | .num neg digits => (if neg then [0x2D] else []) ++ digits
  | .paren w s w' => [0x28] ++ w ++ s.text ++ w' ++ [0x29]
/-- The text. -/
def Prod.text : Prod → Bytes
  | .one f => f.text
  | .op p w o w' f => p.text ++ w ++ [o.char] ++ w' ++ f.text
/-- The text. -/
def Sum.text : Sum → Bytes
  | .one p => p.text
  | .op s w o w' p => s.text ++ w ++ [o.char] ++ w' ++ p.text
end

/-- The text. -/
def Input.text (i : Input) : Bytes := i.w ++ i.s.text ++ i.w'

mutual
/-- Integers have digits, and blanks are blanks. -/
def Factor.Ok : Factor → Prop
  | .num _ digits => digits ≠ [] ∧ ∀ c ∈ digits, IsDigit c
  | .paren w s w' => (∀ c ∈ w, IsBlank c) ∧ s.Ok ∧ ∀ c ∈ w', IsBlank c
/-- All of it. -/
def Prod.Ok : Prod → Prop
  | .one f => f.Ok
  | .op p w _ w' f => p.Ok ∧ (∀ c ∈ w, IsBlank c) ∧ (∀ c ∈ w', IsBlank c) ∧ f.Ok
/-- All of it. -/
def Sum.Ok : Sum → Prop
  | .one p => p.Ok
  | .op s w _ w' p => s.Ok ∧ (∀ c ∈ w, IsBlank c) ∧ (∀ c ∈ w', IsBlank c) ∧ p.Ok
end

/-- All of it. -/
def Input.Ok (i : Input) : Prop := (∀ c ∈ i.w, IsBlank c) ∧ i.s.Ok ∧ ∀ c ∈ i.w', IsBlank c

mutual
/-- How deep parentheses are nested. -/
def Factor.nest : Factor → Nat
  | .num _ _ => 0
  | .paren _ s _ => s.nest + 1
/-- How deep. -/
def Prod.nest : Prod → Nat
  | .one f => f.nest
  | .op p _ _ _ f => max p.nest f.nest
/-- How deep. -/
def Sum.nest : Sum → Nat
  | .one p => p.nest
  | .op s _ _ _ p => max s.nest p.nest
end

/-! ## Values -/

/-- Of decimal digits. -/
def decimal (ds : Bytes) : Nat := ds.foldl (fun n c => 10 * n + (c.toNat - 0x30)) 0

/-- Does it fit in 64 bits? -/
def Fits (x : Int) : Prop := -(2 ^ 63 : Int) ≤ x ∧ x < 2 ^ 63

instance (x : Int) : Decidable (Fits x) := inferInstanceAs (Decidable (_ ∧ _))

/-- Of an integer. It must fit. -/
def number (neg : Bool) (digits : Bytes) : Option Int :=
  let x : Int := if neg then -(decimal digits) else decimal digits
  if Fits x then some x else none

/-- Results that do not fit differ from the exact ones by a multiple of 2^64. -/
def machine (x : Int) : Int := (x + 2 ^ 63) % 2 ^ 64 - 2 ^ 63

/-- The operation. -/
def AddOp.eval (a b : Int) : AddOp → Int
  | .plus => machine (a + b)
  | .minus => machine (a - b)

/-- The operation. Division rounds towards zero; there is none by zero. -/
def MulOp.eval (a b : Int) : MulOp → Option Int
  | .times => some (machine (a * b))
  | .div => if b = 0 then none else some (machine (a.tdiv b))

mutual
/-- The value; `none` if an integer does not fit, or something is divided by zero. -/
def Factor.value : Factor → Option Int
  | .num neg digits => number neg digits
  | .paren _ s _ => s.value
/-- The value. -/
def Prod.value : Prod → Option Int
  | .one f => f.value
  | .op p _ o _ f => match p.value, f.value with
    | some a, some b => o.eval a b
    | _, _ => none
/-- The value. -/
def Sum.value : Sum → Option Int
  | .one p => p.value
  | .op s _ o _ p => match s.value, p.value with
    | some a, some b => some (o.eval a b)
    | _, _ => none
end

/-! ## Exact values -/

/-- The same with exact operations: none of the results is too large. -/
def exactly (x : Int) : Option Int := if Fits x then some x else none

mutual
/-- The exact value, if no intermediate result is too large. -/
def Factor.exact : Factor → Option Int
  | .num neg digits => exactly (if neg then -(decimal digits) else decimal digits)
  | .paren _ s _ => s.exact
/-- The exact value. -/
def Prod.exact : Prod → Option Int
  | .one f => f.exact
  | .op p _ o _ f => match p.exact, f.exact, o with
    | some a, some b, .times => exactly (a * b)
    | some a, some b, .div => if b = 0 then none else exactly (a.tdiv b)
    | _, _, _ => none
/-- The exact value. -/
def Sum.exact : Sum → Option Int
  | .one p => p.exact
  | .op s _ o _ p => match s.exact, p.exact, o with
    | some a, some b, .plus => exactly (a + b)
    | some a, some b, .minus => exactly (a - b)
    | _, _, _ => none
end

end Joeson.Arith
