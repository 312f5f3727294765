import Verif.Props.Same
/-!
# examples/precedence/precedence_test.go: the grammars with two levels of precedence
-/

namespace Joeson.Sample
open RuleText

/-- `'*' | '/'` (precedence_test.go:167, 216, 233) -/
def mulOpE : Expr := .choice [] (.one [] none (.prim (litE "*"))) [0x20] (.one (.one [0x20] none (.prim (litE "/")))) [] []

/-- `operand ( op operand )*`, or with blanks around the operator; `w` before the closing parenthesis. -/
def levelE (gap : Bool) (operand op : String) (w : Bytes) : Expr :=
  .single (.cons [] none (.prim (.ref (asc operand))) (.one [0x20] none (.star (.group (.single
    (if gap then
      .cons [0x20] none (.prim (.ref (asc "_"))) (.cons [0x20] none (.prim (.ref (asc op))) (.cons [0x20] none (.prim (.ref (asc "_")))
        (.one [0x20] none (.prim (.ref (asc operand))))))
    else .cons [0x20] none (.prim (.ref (asc op))) (.one [0x20] none (.prim (.ref (asc operand))))) w)) none))) []

/-- `Term ( AddOp Term )*` (precedence_test.go:163), `Term ( _ AddOp _ Term )*` (212, 229) -/
def sumE (gap : Bool) : Expr := levelE gap "Term" "AddOp" [0x20]

/-- `Factor ( MulOp Factor )*` (precedence_test.go:164), `Factor ( _ MulOp _ Factor  )*` (213, 230, 265) -/
def prodE (gap : Bool) : Expr := levelE gap "Factor" "MulOp" (if gap then [0x20, 0x20] else [0x20])

/-- `'(' Expr ')' | Glyph` (precedence_test.go:165, 214, 231, 266) -/
def factorE : Expr :=
  .choice [] (.cons [] none (.prim (litE "(")) (.cons [0x20] none (.prim (.ref (asc "Expr"))) (.one [0x20] none (.prim (litE ")"))))) [0x20]
    (.one (.one [0x20] none (.prim (.ref (asc "Glyph"))))) [] []

/-- `unary_op Glyph` (precedence_test.go:235) -/
def unaryE : Expr := .single (.cons [] none (.prim (.ref (asc "unary_op"))) (.one [0x20] none (.prim (.ref (asc "Glyph"))))) []

/-- `'!' | '^' | '-'` (precedence_test.go:236) -/
def unaryOpE : Expr :=
  .choice [] (.one [] none (.prim (litE "!"))) [0x20] (.cons (.one [0x20] none (.prim (litE "^"))) [0x20] (.one (.one [0x20] none (.prim (litE "-"))))) [] []

/-- precedence_test.go:161-169. The callback 0 is `growMoss`. -/
def twoLevels (reG : Regex) : List GLine :=
  [.alt "" none (.text refExprE),
   .incl "Expr" (some 0) (.text (sumE false)),
   .incl "Term" (some 0) (.text (prodE false)),
   .incl "Factor" none (.text factorE),
   .incl "AddOp" none (.text addOpE),
   .incl "MulOp" none (.text mulOpE),
   .incl "Glyph" none (.text (glyphE reG))]

/-- precedence_test.go:210-221 -/
def deepLines (reG reB : Regex) : List GLine :=
  [.alt "Expr" none (.rank [
     .alt "" (some 0) (.text (sumE true)),
     .incl "Term" (some 0) (.text (prodE true)),
     .incl "Factor" (some 0) (.text factorE),
     .incl "AddOp" none (.text addOpE),
     .incl "MulOp" none (.text mulOpE),
     .incl "Glyph" none (.text (glyphE reG)),
     .incl "_" none (.text (blankE reB))])]

/-- precedence_test.go:226-241 `rules`: the callback of `BinaryExpr` is that of its rank. -/
def realLines (reG reB : Regex) : List GLine :=
  [.alt "Expr" none (.rank [
     .alt "BinaryExpr" (some 0) (.rank [
       .alt "" none (.text (sumE true)),
       .incl "Term" (some 0) (.text (prodE true)),
       .incl "Factor" (some 0) (.text factorE),
       .incl "AddOp" none (.text addOpE),
       .incl "MulOp" none (.text mulOpE)]),
     .alt "UnaryExpr" none (.text unaryE),
     .incl "unary_op" none (.text unaryOpE),
     .incl "Glyph" none (.text (glyphE reG)),
     .incl "_" none (.text (blankE reB))])]

/-- `Term ( _ AddOp _ Expr )*` (precedence_test.go:264) -/
def wrongE : Expr :=
  .single (.cons [] none (.prim (.ref (asc "Term"))) (.one [0x20] none (.star (.group (.single
    (.cons [0x20] none (.prim (.ref (asc "_"))) (.cons [0x20] none (.prim (.ref (asc "AddOp"))) (.cons [0x20] none (.prim (.ref (asc "_")))
        (.one [0x20] none (.prim (.ref (asc "Expr"))))))) [0x20])) none))) []

/-- precedence_test.go:261-276: "Show how to make it fail" -/
def wrongLines (reG reB : Regex) : List GLine :=
  [.alt "Expr" none (.rank [
     .alt "BinaryExpr" (some 0) (.rank [
       .alt "" none (.text wrongE),
       .incl "Term" (some 0) (.text (prodE true)),
       .incl "Factor" (some 0) (.text factorE),
       .incl "AddOp" none (.text addOpE),
       .incl "MulOp" none (.text mulOpE)]),
     .alt "UnaryExpr" none (.text unaryE),
     .incl "unary_op" none (.text unaryOpE),
     .incl "Glyph" none (.text (glyphE reG)),
     .incl "_" none (.text (blankE reB))])]

/-- The texts are those of the test. -/
example : (sumE false).text = asc "Term ( AddOp Term )*" ∧ (prodE false).text = asc "Factor ( MulOp Factor )*" ∧
    (sumE true).text = asc "Term ( _ AddOp _ Term )*" ∧ (prodE true).text = asc "Factor ( _ MulOp _ Factor  )*" ∧
    factorE.text = asc "'(' Expr ')' | Glyph" ∧ mulOpE.text = asc "'*' | '/'" ∧ unaryE.text = asc "unary_op Glyph" ∧
    unaryOpE.text = asc "'!' | '^' | '-'" ∧ wrongE.text = asc "Term ( _ AddOp _ Expr )*" :=
  ⟨by kernel_rfl, by kernel_rfl, by kernel_rfl, by kernel_rfl, by kernel_rfl, by kernel_rfl, by kernel_rfl, by kernel_rfl, by kernel_rfl⟩

end Joeson.Sample
