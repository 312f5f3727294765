import Verif.Model.LispExpr
import Verif.Model.Colors
/-!
# examples/lisp-repl/expr.go, main.go: how expressions are printed

Simplified: `%f` of Go is a parameter.
-/

namespace Joeson.Lisp

/-- examples/lisp-repl/main.go:21 `colorParen` -/
def colorParen (s : Bytes) : Bytes := boldCyan s

/-- examples/lisp-repl/main.go:23 `quoted` -/
def quoted (s : Bytes) : Bytes := red [0x22] ++ blue s ++ red [0x22]

/-- Go: `strings.Join` -/
def joinWith (sep : Bytes) : List Bytes → Bytes
  | [] => []
  | [s] => s
  | s :: l => s ++ sep ++ joinWith sep l

mutual
/-- examples/lisp-repl/expr.go:82-98 `Expr.String`; `fmt`: the format `%f`, the only verb in the format string -/
def exprString (fmt : Float64 → Bytes) : LExpr → Bytes
  | .str s => quoted s
  | .num x => boldMagenta (fmt x)
  | .op s => boldCyan s
  | .list l => colorParen [0x28] ++ joinWith [0x20] (exprStrings fmt l) ++ colorParen [0x29]
/-- examples/lisp-repl/expr.go:91-94 -/
def exprStrings (fmt : Float64 → Bytes) : List LExpr → List Bytes
  | [] => []
  | e :: l => exprString fmt e :: exprStrings fmt l
end

/-- examples/lisp-repl/list.go:19-25, the loop; `first` as there, `s` what is written so far -/
def listLoop (fmt : Float64 → Bytes) : Bool → Bytes → List LExpr → Bytes
  | _, s, [] => s
  | first, s, v :: l => listLoop fmt false ((if first then s else s ++ [0x2C, 0x20]) ++ exprString fmt v) l

/-- examples/lisp-repl/list.go:16-28 `List.String` -/
def listString (fmt : Float64 → Bytes) (l : List LExpr) : Bytes := listLoop fmt true [0x28] l ++ [0x29]

end Joeson.Lisp
