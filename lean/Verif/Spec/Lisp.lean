import Verif.Spec.Calculator
import Verif.Spec.CodePoints
import Verif.Model.LispExpr
/-!
# S-expressions

What can be typed at the prompt of examples/lisp-repl, after its README: strings, numbers, operators, lists, with blanks. A
tree holds the layout too.
-/

namespace Joeson.Lisp
open Arith

/-- Spaces, tabs and newlines. -/
def IsSpace (c : UInt8) : Prop := c = 0x20 ∨ c = 0x09 ∨ c = 0x0A

/-- Letters, `.` and `_`. -/
def IsLetter (c : UInt8) : Prop :=
  (0x61 ≤ c.toNat ∧ c.toNat ≤ 0x7A) ∨ (0x41 ≤ c.toNat ∧ c.toNat ≤ 0x5A) ∨ c = 0x2E ∨ c = 0x5F

/-- Letters, digits and `?`. -/
def IsLater (c : UInt8) : Prop := IsLetter c ∨ IsDigit c ∨ c = 0x3F

/-- A letter, followed by letters, digits and `?`. -/
def IsWord (w : Bytes) : Prop := ∃ c l, w = c :: l ∧ IsLetter c ∧ ∀ x ∈ l, IsLater x

/-- `+`, `-`, `*`, `/`, `%`, `>=`, `<=`, `!=`, `==`, `<`, `>`, `=` -/
def symbols : List Bytes :=
  [[0x2B], [0x2D], [0x2A], [0x2F], [0x25], [0x3E, 0x3D], [0x3C, 0x3D], [0x21, 0x3D], [0x3D, 0x3D], [0x3C], [0x3E], [0x3D]]

/-- The sign of a number. -/
def sign (neg : Bool) : Bytes := if neg then [0x2D] else []

mutual
/-- An expression. -/
inductive SExpr where
  /-- `"..."` -/
  | str (w : Bytes)
  /-- `-12` -/
  | num (neg : Bool) (ds : Bytes)
  /-- `car`, `>=` -/
  | op (w : Bytes)
  /-- `(...)`, with blanks before the closing parenthesis -/
  | list (l : SItems) (w : Bytes)
/-- Expressions, each after blanks. -/
inductive SItems where
  | nil
  | cons (w : Bytes) (e : SExpr) (l : SItems)
end

mutual
/-- The text. -/
def SExpr.text : SExpr → Bytes
  | .str w => [0x22] ++ w ++ [0x22]
  | .num neg ds => sign neg ++ ds
  | .op w => w
  | .list l w => [0x28] ++ l.text ++ w ++ [0x29]
/-- The text. -/
def SItems.text : SItems → Bytes
  | .nil => []
  | .cons w e l => w ++ e.text ++ l.text
end

mutual
/-- Strings have no quote in them; expressions are separated by blanks. -/
def SExpr.Ok : SExpr → Prop
  | .str w => 0x22 ∉ w
  | .num _ ds => ds ≠ [] ∧ ∀ c ∈ ds, IsDigit c
  | .op w => IsWord w ∨ w ∈ symbols
  | .list l w => l.Ok true ∧ ∀ c ∈ w, IsSpace c
/-- There need be no blank before the first one. -/
def SItems.Ok (first : Bool) : SItems → Prop
  | .nil => True
  | .cons w e l => (∀ c ∈ w, IsSpace c) ∧ (first = false → w ≠ []) ∧ e.Ok ∧ l.Ok false
end

mutual
/-- How deep lists are nested. -/
def SExpr.nest : SExpr → Nat
  | .str _ | .num _ _ | .op _ => 0
  | .list l _ => l.nest + 1
/-- How deep. -/
def SItems.nest : SItems → Nat
  | .nil => 0
  | .cons _ e l => max e.nest l.nest
end

/-- Does it end with a quote or a parenthesis, so that one can see that it ends there? -/
def SExpr.closed : SExpr → Bool
  | .str _ | .list _ _ => true
  | .num _ _ | .op _ => false

/-- A blank, a closing parenthesis or the end of the text. -/
def Ends (s : Bytes) : Prop := ∀ c s', s = c :: s' → IsSpace c ∨ c = 0x29

mutual
/-- What it stands for: a number stands for a `float64`, which `f` makes of an integer. Nothing, if there is a number that
does not fit in 64 bits. -/
def SExpr.val (f : Int → Float64) : SExpr → Option LExpr
  | .str w => some (.str w)
  | .num neg ds => (number neg ds).map fun n => .num (f n)
  | .op w => some (.op w)
  | .list l _ => (l.vals f).map .list
/-- The same for all. -/
def SItems.vals (f : Int → Float64) : SItems → Option (List LExpr)
  | .nil => some []
  | .cons _ e l => (e.val f).bind fun x => (l.vals f).map (x :: ·)
end

/-- What a regular expression for numbers finds: a sign or none, and all digits there are. -/
def FindsNumber (re : Regex) : Prop :=
  (∀ neg ds s, ds ≠ [] → (∀ c ∈ ds, IsDigit c) → (∀ c s', s = c :: s' → ¬ IsDigit c) →
    re.find (sign neg ++ ds ++ s) = some (0, (sign neg ++ ds).length)) ∧
  ∀ s n, re.find s = some (0, n) → ∃ neg c s', s = sign neg ++ c :: s' ∧ IsDigit c

/-- What a regular expression for words finds: all letters and the like there are. -/
def FindsWord (re : Regex) : Prop :=
  (∀ w s, IsWord w → (∀ c s', s = c :: s' → ¬ IsLater c) → re.find (w ++ s) = some (0, w.length)) ∧
  ∀ s n, re.find s = some (0, n) → ∃ c s', s = c :: s' ∧ IsLetter c

/-- There is a number that does not fit in 64 bits. -/
def HasBig (s : Bytes) : Prop :=
  ∃ a neg ds b, s = a ++ (sign neg ++ ds ++ b) ∧ ds ≠ [] ∧ (∀ c ∈ ds, IsDigit c) ∧ number neg ds = none

end Joeson.Lisp
