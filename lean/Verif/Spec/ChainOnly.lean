import Verif.Spec.Precedence
/-!
# Where chains of operations end
-/

namespace Joeson
open Arith

/-- Does not begin with `-` and a digit. -/
def NoMinus (s : Bytes) : Prop := ∀ c s', s = 0x2D :: c :: s' → ¬ (0x30 ≤ c ∧ c ≤ 0x39)

/-- Does not begin with an operator and an operand, with or without blanks. -/
def NoLink (s : Bytes) : Prop := ∀ k : Link, k.Ok → ¬ k.text <+: s

/-- Does not begin with an operator that is followed at once by an operand. -/
def NoOp (s : Bytes) : Prop := ∀ (o : AddOp) (c : UInt8) s', s = o.char :: c :: s' → ¬ IsGlyph c

/-- Does not begin with a letter or a digit. -/
def NoGlyph (s : Bytes) : Prop := ∀ c s', s = c :: s' → ¬ IsGlyph c

end Joeson
