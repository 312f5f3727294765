import Verif.Model.Lisp
import Verif.Model.LispMachine
import Verif.Model.LispPrint
import Verif.Model.GrammarParse
/-!
# examples/lisp-repl/main.go: the loop

Simplified: all input is read before the first line is answered (what is read does not depend on the answers); the prompts are
left out; reading fails with `io.EOF` only.
-/

namespace Joeson.Lisp

/-- main.go:35: what `ReadString('\n')` gives of what has been read: up to and including the first newline; all of it if there is none. -/
def uptoNewline : Bytes → Bytes
  | [] => []
  | c :: s => if c = 0x0A then [c] else c :: uptoNewline s

/-- main.go:34-40: the inputs that the loop gets. `chunks`: what the calls of `Read` of the standard input give one after the other, after
that there is nothing more. Each round makes a new `bufio.Reader`, which reads until there is a newline. What it has read behind the newline
goes with it. If there is nothing more before a newline comes the loop is left (line 38), what was read is ignored.
`acc`: what the reader of this round has read. -/
def inputs (acc : Bytes) : List Bytes → List Bytes
  | [] => []
  | c :: cs => if 0x0A ∈ c then (acc ++ uptoNewline c) :: inputs [] cs else inputs (acc ++ c) cs

/-- What is printed for a line. -/
inductive Said where
  /-- main.go:52 -/
  | parseError
  /-- main.go:56 -/
  | value (s : Bytes)
  deriving DecidableEq

/-- How the program ends. -/
inductive End where
  /-- main.go:38 -/
  | bye
  /-- a panic of the parser -/
  | panic (p : Panic)
  /-- a panic of the machine -/
  | fault (f : Fault)
  /-- main.go:58: "should not happen" -/
  | notExpr
  /-- the parser does not return -/
  | stuck
  deriving DecidableEq

/-- main.go:45-60, for every input. `parse`: `gm.ParseString`; `k`: a bound for the machine. -/
def session (parse : Bytes → Out (Outcome Ast)) (F : FloatOps) (fmt : Float64 → Bytes) (k : Nat) : Machine → List Bytes → List Said × End
  | _, [] => ([], .bye)
  | m, input :: rest => match parse (replLine input) with
    | .oof => ([], .stuck)
    | .panic p => ([], .panic p)
    | .ok (.error _) => let (l, e) := session parse F fmt k m rest; (.parseError :: l, e)
    | .ok .nil => ([], .notExpr)
    | .ok (.value v) => match toExpr v with
      | none => ([], .notExpr)
      | some x => match eval F k x m with
        | .error f => ([], .fault f)
        | .ok (y, m') => let (l, e) := session parse F fmt k m' rest; (.value (exprString fmt y) :: l, e)

/-- `main`: main.go:29-63 -/
def replMain (parse : Bytes → Out (Outcome Ast)) (F : FloatOps) (fmt : Float64 → Bytes) (k : Nat) (chunks : List Bytes) : List Said × End :=
  session parse F fmt k newMachine (inputs [] chunks)

end Joeson.Lisp
