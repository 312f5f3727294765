import Verif.Model.LispExpr
import Verif.Model.Readme
import Verif.Spec.Seen
/-!
# examples/lisp-repl/grammar.go: the grammar of the Lisp example
-/

namespace Joeson.Lisp
open RuleText

/-- grammar.go:48-59 `parseList`, and 32-34 `exprFromList`; a failed type assertion, or an element that is no `Expr` -/
def exprFromList : Ast → Except Panic Ast
  | .arr l => match toExprs l with
    | some es => .ok (LExpr.list es).ast
    | none => .error .badType
  | _ => .error .assertion

/-- grammar.go:36-38 `exprFromString` -/
def exprFromString (u : UserString) : Ast → Except Panic Ast
  | .arr l => .ok (LExpr.str (Ast.concatArray u l)).ast
  | _ => .error .assertion

/-- grammar.go:40-42 `exprFromNumber`. `f`: the conversion `float64(int)` of Go -/
def exprFromNumber (f : Int → Float64) (u : UserString) (it : Ast) : Except Panic Ast := do
  let n ← newNativeIntFrom u it
  return (LExpr.num (f n)).ast

/-- grammar.go:44-46 `exprFromOperator` -/
def exprFromOperator : Ast → Except Panic Ast
  | .str s => .ok (LExpr.op s).ast
  | _ => .error .assertion

/-- The values, with the callbacks 0: `exprFromList`, 1: `exprFromString`, 2: `exprFromNumber`, 3: `exprFromOperator`. -/
def lispOps (f : Int → Float64) (u : UserString) : PureOps Ast := treePure fun c v _ =>
  (match c with
  | 0 => exprFromList v
  | 1 => exprFromString u v
  | 2 => exprFromNumber f u v
  | _ => exprFromOperator v).map some

/-- A name. -/
def refP (s : String) : Deco := .prim (.ref (asc s))

/-- `_ expr _`: grammar.go:17 -/
def topE : Expr := .single (.cons [] none (refP "_") (.cons [0x20] none (refP "expr") (.one [0x20] none (refP "_")))) []

/-- `'(' _  expr*__  _ ')'`: grammar.go:19 -/
def listE : Expr :=
  .single (.cons [] none (.prim (quoteP "(")) (.cons [0x20] none (refP "_") (.cons [0x20, 0x20] none (.starJoin (.ref (asc "expr")) (.ref (asc "__")) none)
    (.cons [0x20, 0x20] none (refP "_") (.one [0x20] none (.prim (quoteP ")"))))))) []

/-- `'"' [^"]* '"'`: grammar.go:20 -/
def stringE (r : Regex) : Expr :=
  .single (.cons [] none (.prim (quoteP "\"")) (.cons [0x20] none (.star (.cls (charsOf "^\"") r) none) (.one [0x20] none (.prim (quoteP "\""))))) []

/-- `-?[0-9]+` between slashes: grammar.go:21 -/
def numberE (r : Regex) : Expr := .single (.one [] none (.prim (.regex (charsOf "-?[0-9]+") r))) []

/-- An alternative of `operatorE`. -/
def quoteU (w : Bytes) (s : String) : Units := .one w none (.prim (quoteP s))

/-- `word | '+' | '-' | '*' | '/' | '%' | '>=' | '<=' | '!=' | '=='| '<' | '>' |  '=' `: grammar.go:22 -/
def operatorE : Expr :=
  .choice [] (.one [] none (refP "word")) [0x20] (.cons (quoteU [0x20] "+") [0x20] (.cons (quoteU [0x20] "-") [0x20] (.cons (quoteU [0x20] "*") [0x20]
    (.cons (quoteU [0x20] "/") [0x20] (.cons (quoteU [0x20] "%") [0x20] (.cons (quoteU [0x20] ">=") [0x20] (.cons (quoteU [0x20] "<=") [0x20]
    (.cons (quoteU [0x20] "!=") [0x20] (.cons (quoteU [0x20] "==") [] (.cons (quoteU [0x20] "<") [0x20] (.cons (quoteU [0x20] ">") [0x20]
    (.one (quoteU [0x20, 0x20] "="))))))))))))) [] [0x20]

/-- Characters of a regular expression; there is a backslash before `.`. -/
def wordChars (s : String) : List Piece := s.toList.map fun c => ⟨c == '.', c.toNat⟩

/-- `[a-zA-Z\._][a-zA-Z\._0-9?]*` between slashes: grammar.go:23 -/
def wordE (r : Regex) : Expr := .single (.one [] none (.prim (.regex (wordChars "[a-zA-Z._][a-zA-Z._0-9?]*") r))) []

/-- `_SPACECHAR*`: grammar.go:25 -/
def blanksE : Expr := .single (.one [] none (.star (.ref (asc "_SPACECHAR")) none)) []

/-- `_SPACECHAR+`: grammar.go:26 -/
def gapE : Expr := .single (.one [] none (.plus (.ref (asc "_SPACECHAR")))) []

/-- `' ' | '<tab>' | '<newline>'`: grammar.go:27 -/
def spaceE : Expr := .choice [] (quoteU [] " ") [0x20] (.cons (quoteU [0x20] "\t") [0x20] (.one (quoteU [0x20] "\n"))) [] []

/-- `'\s' | '\S'`: grammar.go:28 -/
def anyE : Expr := .choice [] (.one [] none (.prim (.str [⟨true, 0x73⟩]))) [0x20] (.one (.one [0x20] none (.prim (.str [⟨true, 0x53⟩])))) [] []

/-- `'\\' .`: grammar.go:29 -/
def escE : Expr := .single (.cons [] none (.prim (.str [⟨true, 0x5C⟩])) (.one [0x20] none (refP "."))) []

/-- grammar.go:19-23: the rules of `expr`; `rs`, `rn`, `rw`: the compiled regular expressions -/
def exprLines (rs rn rw : Regex) : List GLine :=
  [.alt "list" (some 0) (.text listE),
   .alt "string" (some 1) (.text (stringE rs)),
   .alt "number" (some 2) (.text (numberE rn)),
   .alt "operator" (some 3) (.text operatorE),
   .incl "word" none (.text (wordE rw))]

/-- grammar.go:16-30 `grammarRules` -/
def lispLines (rs rn rw : Regex) : List GLine :=
  [.alt "" none (.text topE),
   .incl "expr" none (.rank (exprLines rs rn rw)),
   .incl "_" none (.text blanksE),
   .incl "__" none (.text gapE),
   .incl "_SPACECHAR" none (.text spaceE),
   .incl "." none (.text anyE),
   .incl "ESC1" none (.text escE)]

/-- main.go:45 `strings.TrimSuffix(input, "\n")` -/
def trimNewline (s : Bytes) : Bytes := if s.getLast? = some 0x0A then s.dropLast else s

/-- main.go:46 `strings.Trim(s, " ")` -/
def trimSpaces (s : Bytes) : Bytes := ((s.dropWhile (· == 0x20)).reverse.dropWhile (· == 0x20)).reverse

/-- main.go:45-49: what is parsed of a line -/
def replLine (input : Bytes) : Bytes :=
  let s := trimSpaces (trimNewline input)
  if s.head? = some 0x28 then s else [0x28] ++ s ++ [0x29]

end Joeson.Lisp
