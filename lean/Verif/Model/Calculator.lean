import Verif.Spec.Lang
import Verif.Spec.Peg
import Verif.Model.Native
/-!
# examples/calculator/calculator_test.go

The callbacks of the calculator, on trees as values. Callback 0 is `xx`, callback 1 that of `Integer`.
-/

namespace Joeson
open RuleText

/-- Go's `int` on a 64 bit platform: results are taken modulo 2^64, between -2^63 and 2^63 - 1. -/
def wrap64 (x : Int) : Int := x.bmod (2 ^ 64)

/-- calculator_test.go:35-40 `ops`. Division by zero is a panic of user code; a key that is not there gives a nil
function. -/
def calcOp (op : Bytes) (a b : Int) : Except Panic Int :=
  if op = [0x2B] then .ok (wrap64 (a + b))
  else if op = [0x2D] then .ok (wrap64 (a - b))
  else if op = [0x2A] then .ok (wrap64 (a * b))
  else if op = [0x2F] then if b = 0 then .error (.user 0) else .ok (wrap64 (a.tdiv b))
  else .error .nilDeref

/-- calculator_test.go:54-64: one round of the loop. Failing type assertions are `badType`. -/
def calcStep (operand1 : Int) : Ast → Except Panic Int
  | .arr [op, operand2] => match op, operand2 with
    | .str op, .int b => calcOp op operand1 b
    | _, _ => .error .badType
  | .arr _ => .error .assertion
  | _ => .error .badType

/-- calculator_test.go:50-66 `eval` -/
def calcEval : Option Ast → Option Ast → Except Panic Ast
  | some (.int operand1), some (.arr a) => (a.foldlM calcStep operand1).map .int
  | _, _ => .error .badType

/-- calculator_test.go:43-48 `xx` -/
def calcXX : Ast → Except Panic Ast
  | .map kvs => calcEval (kvs.lookup "first") (kvs.lookup "rest")
  | _ => .error .badType

/-- The values, with the callbacks of the calculator. `u` is `String()` of values of user types, of which there are none. -/
def calcOps (u : UserString) : PureOps Ast where
  str b := .str b
  undef := .undef
  isUndef v := match v with | .undef => true | _ => false
  arr l := .arr l
  newMap k v := .map [(k, v)]
  mapSet r k v := match r with
    | .map kvs => .ok (.map (kvSet k v kvs))
    | _ => .error .assertion
  merge a b := a.merge b
  cb c v _ := (if c = 0 then calcXX v else nativeIntFrom u v).map some
  origin v _ := v

/-- `( _ op _ operand )*` -/
def calcTail (op operand : String) : Deco :=
  .star (.group (.single (.cons [0x20] none (.prim (.ref (asc "_"))) (.cons [0x20] none (.prim (.ref (asc op)))
    (.cons [0x20] none (.prim (.ref (asc "_"))) (.one [0x20] none (.prim (.ref (asc operand))))))) [0x20])) none

/-- `'a' | 'b'` -/
def calcEither (a b : Nat) : Expr :=
  .choice [] (.one [] none (.prim (.str [⟨false, a⟩]))) [0x20] (.one (.one [0x20] none (.prim (.str [⟨false, b⟩])))) [] []

/-- `_ first:Term rest:( _ AddOp _ Term )* _` -/
def calcExpr : Expr :=
  .single (.cons [] none (.prim (.ref (asc "_"))) (.cons [0x20] (some (asc "first")) (.prim (.ref (asc "Term")))
    (.cons [0x20] (some (asc "rest")) (calcTail "AddOp" "Term") (.one [0x20] none (.prim (.ref (asc "_"))))))) []

/-- `first:Factor rest:( _ MulOp _ Factor )*` -/
def calcTerm : Expr :=
  .single (.cons [] (some (asc "first")) (.prim (.ref (asc "Factor")))
    (.one [0x20] (some (asc "rest")) (calcTail "MulOp" "Factor"))) []

/-- `'(' Expr ')' | Integer` -/
def calcFactor : Expr :=
  .choice [] (.cons [] none (.prim (.str [⟨false, 0x28⟩])) (.cons [0x20] none (.prim (.ref (asc "Expr")))
    (.one [0x20] none (.prim (.str [⟨false, 0x29⟩]))))) [0x20] (.one (.one [0x20] none (.prim (.ref (asc "Integer"))))) [] []

/-- `[ \t]*` -/
def calcBlank (re : Regex) : Expr := .single (.one [] none (.star (.cls [⟨false, 0x20⟩, ⟨true, 0x74⟩] re) none)) []

/-- `/^-?[0-9]+/` -/
def calcInteger (re : Regex) : Expr :=
  .single (.one [] none (.prim (.regex [⟨false, 0x5E⟩, ⟨false, 0x2D⟩, ⟨false, 0x3F⟩, ⟨false, 0x5B⟩, ⟨false, 0x30⟩, ⟨false, 0x2D⟩,
    ⟨false, 0x39⟩, ⟨false, 0x5D⟩, ⟨false, 0x2B⟩] re))) []

/-- calculator_test.go:24-34 `rules` -/
def calcRules (blank int : Regex) : List GLine :=
  [.alt "Expr" (some 0) (.text calcExpr), .incl "Term" (some 0) (.text calcTerm), .incl "Factor" none (.text calcFactor),
   .incl "AddOp" none (.text (calcEither 0x2B 0x2D)), .incl "MulOp" none (.text (calcEither 0x2A 0x2F)),
   .incl "_" none (.text (calcBlank blank)), .incl "Integer" (some 1) (.text (calcInteger int))]

end Joeson
