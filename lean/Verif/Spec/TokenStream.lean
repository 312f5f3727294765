import Verif.Model.TokenStream
/-!
# Token streams
-/

namespace Joeson.Spec
open Joeson
variable {V H : Type}

/-- The token texts joined. -/
def joined (l : List Token) : Bytes := (l.map (·.repr)).flatten

/-- Every token's work offset is the total length of the tokens before it. -/
def Contiguous (l : List Token) : Prop :=
  ∀ pre t post, l = pre ++ t :: post → t.work = ((joined pre).length : Int)

/-- What the scanner's token stands for: the automatic semicolon with its newline, the literal (identifiers
and keywords have one), or the operator. -/
def scanText (t : ScanTok) : Bytes :=
  if t.tokStr = asc ";" ∧ t.lit = asc "\n" then asc ";\n" else if t.lit = [] then t.tokStr else t.lit

/-- A letter, a digit, `_` or `=` at the end. -/
def EndsInWord (b : Bytes) : Prop :=
  ∃ pre x, b = pre ++ [x] ∧ (x ∈ asc "abcdefghijklmnopqrstuvwxyzABCDEFGHIJKLMNOPQRSTUVWXYZ0123456789_=")

/-- The outcome of a parse without the message of the error: nothing, a value, or an error at a byte offset. -/
inductive Brief (V : Type) where
  | nil
  | value (v : V)
  | error (char : Nat)
  deriving DecidableEq

/-- Forget the message. -/
def brief : Outcome V → Brief V
  | .nil => .nil
  | .value v => .value v
  | .error r => .error r.char

/-- What a caller sees, without the message. -/
def seenBrief : Out (Outcome V × St V H) → Out (Brief V × H × List Call)
  | .ok (o, s) => .ok (brief o, s.h, s.calls)
  | .panic e => .panic e
  | .oof => .oof

end Joeson.Spec
