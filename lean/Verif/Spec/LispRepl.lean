import Verif.Spec.Lisp
import Verif.Model.LispRepl
/-!
# Lines of input, and the answers to them
-/

namespace Joeson.Lisp
open Arith

/-- A text is divided into lines, each with the newline at its end; what comes after the last newline is no line. -/
inductive Lines : Bytes → List Bytes → Prop
  | last {s} : 0x0A ∉ s → Lines s []
  | line {a s l} : 0x0A ∉ a → Lines s l → Lines (a ++ 0x0A :: s) ((a ++ [0x0A]) :: l)

/-- A text that is the expression `e`, with blanks around it. -/
def IsText (text : Bytes) (e : SExpr) : Prop :=
  e.Ok ∧ ∃ w w', (∀ c ∈ w, IsSpace c) ∧ (∀ c ∈ w', IsSpace c) ∧ text = w ++ e.text ++ w'

/-- An input that holds one expression, that stands for `x`. -/
def Holds (f : Int → Float64) (input : Bytes) (x : LExpr) : Prop :=
  ∃ e, IsText (replLine input) e ∧ e.val f = some x

/-- The same, and lists are nested at most 500 deep. -/
def HoldsFlat (f : Int → Float64) (input : Bytes) (x : LExpr) : Prop :=
  ∃ e, IsText (replLine input) e ∧ e.nest ≤ 500 ∧ e.val f = some x

/-- What is answered to these inputs: to each expression its value, with what the ones before have defined; to what is not an expression that it is none. It ends with
the input, or with the first expression that the machine cannot evaluate, or with the first line that the parser cannot read: with a number that is too big, or nested too deeply. -/
inductive Says (F : FloatOps) (fmt : Float64 → Bytes) (k : Nat) : Machine → List Bytes → List Said × End → Prop
  | bye {m} : Says F fmt k m [] ([], .bye)
  | value {m i x y m' is l e} : Holds F.ofInt i x → eval F k x m = .ok (y, m') → Says F fmt k m' is (l, e) → Says F fmt k m (i :: is) (.value (exprString fmt y) :: l, e)
  | wrong {m i is l e} : (∀ e, ¬ IsText (replLine i) e) → Says F fmt k m is (l, e) → Says F fmt k m (i :: is) (.parseError :: l, e)
  | fault {m i x f is} : Holds F.ofInt i x → eval F k x m = .error f → Says F fmt k m (i :: is) ([], .fault f)
  | big {m i is} : (∀ x, ¬ Holds F.ofInt i x) → HasBig (replLine i) → Says F fmt k m (i :: is) ([], .panic .notANumber)
  | deep {m i is} : (∀ x, ¬ HoldsFlat F.ofInt i x) → Says F fmt k m (i :: is) ([], .panic .stackOverflow)

/-- Expressions are evaluated one after the other, each with what the ones before have defined: the values. -/
inductive Evaluates (F : FloatOps) (k : Nat) : Machine → List LExpr → List LExpr → Machine → Prop
  | nil {m} : Evaluates F k m [] [] m
  | cons {m x y m' xs ys m''} : eval F k x m = .ok (y, m') → Evaluates F k m' xs ys m'' → Evaluates F k m (x :: xs) (y :: ys) m''

end Joeson.Lisp
