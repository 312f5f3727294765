import Verif.Model.Readme
import Verif.Model.GrammarParse
/-!
# Error handling as the README recommends it

README.md:442-493: the callback of the rule of octal numbers, which panics with `ctx.Error(...)`, and `parseX`, which recovers
from such a panic. A panic with a `ParseError` is `Panic.user` with a number; the messages are in `octalErrors`.
-/

namespace Joeson

/-- What `parseX` returns or panics with. -/
inductive XResult (V : Type) where
  /-- the result of the parse -/
  | ast (v : V)
  /-- the `ParseError` that `ParseString` returned: grammar.go:151 -/
  | failed (r : Report)
  /-- `nil` -/
  | nil
  /-- a `ParseError` that a callback panicked with: the field `ErrorString`, parseerror.go:11-15 -/
  | parseError (msg : Bytes)
  /-- a panic, README.md:478 -/
  | panics (p : Panic)

/-- README.md:470-484 `parseX`. `err` says which panics of callbacks are with a `ParseError`, and with which message. Nothing is
returned if the model runs out of fuel. -/
def parseX (err : Nat → Option Bytes) : Out (Outcome V × St V H) → Option (XResult V)
  | .ok (.value v, _) => some (.ast v)
  | .ok (.error r, _) => some (.failed r)
  | .ok (.nil, _) => some .nil
  | .panic (.user c) => match err c with
    | some msg => some (.parseError msg)
    | none => some (.panics (.user c))
  | .panic p => some (.panics p)
  | .oof => none

/-- The messages of README.md:452, 454, 458. -/
def octalErrors : Nat → Option Bytes
  | 0 => some (asc "illegal: too many octal digits")
  | 1 => some (asc "illegal: too much octal digits")
  | 2 => some (asc "illegal: octal value over 255")
  | _ => none

/-- README.md:449-461: the callback of `octal_byte_value` -/
def octalCb (u : UserString) (it : Ast) : Except Panic Ast :=
  match it with
  | .arr a =>
    if a.length < 3 then .error (.user 0)
    else if a.length > 3 then .error (.user 1)
    else do
      let n ← newNativeIntFrom u (.str (Ast.concatArray u a))
      if n > 255 then .error (.user 2) else return .int n
  | _ => .error .assertion

/-- The values, with this callback. -/
def octalOps (u : UserString) : PureOps Ast := treePure fun _ v _ => (octalCb u v).map some

open RuleText

/-- `octal_byte_value`, as a rule that is called: the README shows the rule alone. -/
def octalTopE : Expr := .single (.one [] none (.prim (.ref (asc "octal_byte_value")))) []

/-- `'\\' [0-7]+`: README.md:448, with the backslash written twice -/
def octalE (r : Regex) : Expr :=
  .single (.cons [] none (.prim (.str [⟨true, 0x5C⟩])) (.one [0x20] none (.plus (.cls (charsOf "0-7") r)))) []

/-- The rule of README.md:446-463, and one that calls it. -/
def octalG (r : Regex) : List GLine :=
  [.alt "Input" none (.text octalTopE), .incl "octal_byte_value" (some 0) (.text (octalE r))]

/-- The text of the rule as README.md:448 has it. -/
def octalText : Bytes := asc "'\\' [0-7]+"

end Joeson
