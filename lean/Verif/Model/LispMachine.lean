import Verif.Model.LispExpr
/-!
# examples/lisp-repl/machine.go, machine_internal.go, machine_primitives.go: the machine of the Lisp example

Simplified: the arithmetic of `float64` is a parameter; maps are functions; a panic is an error, without its message; what is
printed is left out. Calls are limited by `fuel`; running out of it is an error of its own, so that a call that never returns
is one that runs out of every fuel.
-/

namespace Joeson.Lisp

/-- The operations of `float64` in Go that the machine uses. -/
structure FloatOps where
  /-- `float64(n)` -/
  ofInt : Int → Float64
  add : Float64 → Float64 → Float64
  sub : Float64 → Float64 → Float64
  mul : Float64 → Float64 → Float64
  /-- `math.Mod` -/
  mod : Float64 → Float64 → Float64
  /-- `==` -/
  eq : Float64 → Float64 → Bool
  /-- `<` -/
  lt : Float64 → Float64 → Bool
  /-- `<=` -/
  le : Float64 → Float64 → Bool

/-- `0.` -/
def f0 : Float64 := 0
/-- `1.` -/
def f1 : Float64 := 0x3FF0000000000000

/-- The functions of machine_primitives.go. -/
inductive Builtin where
  | add | sub | mul | car | cdr | alias | define | lt | le | gt | ge | eq | neq | and | or | not | if_ | cond | isList | remainder
  deriving DecidableEq

/-- machine.go:10 `Funcdef`: a function of machine_primitives.go, or the closure of `define` (machine_primitives.go:224-235),
which holds the names of the parameters and the expression -/
inductive Funcdef where
  | builtin (b : Builtin)
  | user (args : List Bytes) (body : LExpr)

/-- machine.go:11-14 `Machine` -/
structure Machine where
  funcs : Bytes → Option Funcdef
  aliases : Bytes → Option Bytes

/-- `m[k] = v` -/
def setKey {α : Type} (f : Bytes → Option α) (k : Bytes) (v : α) : Bytes → Option α := fun x => if x = k then some v else f x

/-- `delete(m, k)` -/
def deleteKey {α : Type} (f : Bytes → Option α) (k : Bytes) : Bytes → Option α := fun x => if x = k then none else f x

/-- A literal map of Go. -/
def mapOf {α : Type} (l : List (String × α)) (x : Bytes) : Option α := (l.find? fun p => asc p.1 == x).map (·.2)

/-- machine.go:17-58 `NewMachine` -/
def newMachine : Machine where
  funcs := mapOf
    [("add", .builtin .add), ("sub", .builtin .sub), ("mul", .builtin .mul), ("car", .builtin .car), ("cdr", .builtin .cdr),
     ("alias", .builtin .alias), ("define", .builtin .define), ("lt", .builtin .lt), ("le", .builtin .le), ("gt", .builtin .gt),
     ("ge", .builtin .ge), ("eq", .builtin .eq), ("neq", .builtin .neq), ("and", .builtin .and), ("or", .builtin .or),
     ("not", .builtin .not), ("if", .builtin .if_), ("cond", .builtin .cond), ("list?", .builtin .isList),
     ("%", .builtin .remainder)]
  aliases := mapOf
    [("+", asc "add"), ("-", asc "sub"), ("*", asc "mul"), ("<", asc "lt"), (">", asc "gt"), (">=", asc "ge"), ("<=", asc "le"),
     ("==", asc "eq"), ("eq?", asc "eq"), ("neq?", asc "neq"), ("!=", asc "neq")]

/-- Why there is no result. -/
inductive Fault where
  /-- calls are nested deeper than the fuel -/
  | fuel
  /-- machine.go:83: "aliases must point to functions" -/
  | badAlias
  /-- machine.go:97: "undefined function" -/
  | undefined
  /-- machine_internal.go:15-18: a string or an operator where a number is expected -/
  | noNumber
  /-- a wrong number of arguments -/
  | arguments
  /-- a list is expected, or a string, or an operator -/
  | badKind
  /-- Go: index out of range -/
  | index
  /-- machine_primitives.go:20: "car of empty list" -/
  | emptyCar
  /-- machine_primitives.go:193: not a defined function -/
  | notDefined
  deriving DecidableEq

/-- A computation with the machine. -/
abbrev Run (α : Type) := StateT Machine (Except Fault) α

/-- Stops. -/
def fail {α : Type} (e : Fault) : Run α := fun _ => .error e

/-- expr.go:33-45 `number`, `True`, `False`, `Bool` -/
def ofBool (b : Bool) : LExpr := .num (if b then f1 else f0)

/-- expr.go:60-71 `MustStringOrOperator` -/
def mustName : LExpr → Run Bytes
  | .str s | .op s => pure s
  | _ => fail .badKind

/-- expr.go:73-80 `MustList` -/
def mustList : LExpr → Run (List LExpr)
  | .list l => pure l
  | _ => fail .badKind

mutual
/-- machine_primitives.go:239-258 `substArgsInExpr` -/
def substArgs (args : Bytes → Option LExpr) : LExpr → LExpr
  | .str s => .str s
  | .num x => .num x
  | .op s => (args s).getD (.op s)
  | .list l => .list (substAll args l)
/-- machine_primitives.go:250-253 -/
def substAll (args : Bytes → Option LExpr) : List LExpr → List LExpr
  | [] => []
  | e :: l => substArgs args e :: substAll args l
end

/-- machine_primitives.go:230-233: the last of parameters with the same name counts -/
def bindArgs : List Bytes → List LExpr → Bytes → Option LExpr
  | k :: ks, e :: es => fun x => (bindArgs ks es x).or (if x = k then some e else none)
  | _, _ => fun _ => none

section
variable (F : FloatOps) (eval : LExpr → Run LExpr)

/-- machine_internal.go:11-23 `numberFromExpr`; it calls itself with the value of a list -/
def numberFrom : Nat → LExpr → Run Float64
  | 0, _ => fail .fuel
  | _ + 1, .num x => pure x
  | _ + 1, .str _ => fail .noNumber
  | _ + 1, .op _ => fail .noNumber
  | k + 1, .list l => do
    let v ← eval (.list l)
    numberFrom k v

/-- machine_internal.go:25 `boolFromExpr` -/
def boolFrom (k : Nat) (e : LExpr) : Run Bool := do
  let x ← numberFrom eval k e
  return !F.eq x f0

/-- machine_internal.go:40-58 `unnestListEval`: line 48 fails for an empty list -/
def unnest : List LExpr → Run LExpr
  | [.list (.op o :: l)] => eval (.list (.op o :: l))
  | [.list (e :: l)] => pure (.list (e :: l))
  | [.list []] => fail .index
  | [_] => fail .badKind
  | _ => fail .arguments

/-- machine_primitives.go:41-43, 52-54, 61-63: the loops of `add`, `sub`, `mul` -/
def foldNums (k : Nat) (f : Float64 → Float64 → Float64) : Float64 → List LExpr → Run Float64
  | r, [] => pure r
  | r, e :: l => do
    let x ← numberFrom eval k e
    foldNums k f (f r x) l

/-- machine_internal.go:65-72: the loop of `cmpNum` -/
def cmpLoop (k : Nat) (pred : Float64 → Float64 → Bool) : Float64 → List LExpr → Run LExpr
  | _, [] => pure (ofBool true)
  | x, e :: l => do
    let y ← numberFrom eval k e
    if pred x y then cmpLoop k pred y l else pure (ofBool false)

/-- machine_internal.go:60-73 `cmpNum` -/
def cmpNum (k : Nat) (pred : Float64 → Float64 → Bool) : List LExpr → Run LExpr
  | e :: e' :: l => do
    let x ← numberFrom eval k e
    cmpLoop eval k pred x (e' :: l)
  | _ => fail .arguments

/-- machine_primitives.go:88-95 `and`, 98-105 `or`: it is decided by the first argument whose truth is `stop` -/
def logic (k : Nat) (stop : Bool) : List LExpr → Run LExpr
  | [] => pure (ofBool !stop)
  | e :: l => do
    let b ← boolFrom F eval k e
    if b = stop then pure (ofBool stop) else logic k stop l

/-- machine_primitives.go:140-165 `cond` -/
def condLoop (k : Nat) : List LExpr → Run LExpr
  | [] => pure (.list [])
  | branch :: rest => do
    let a ← mustList branch
    match a with
    | [pred, action] =>
      match pred with
      | .op o =>
        if o = asc "else" then eval action
        else do
          let b ← boolFrom F eval k (.op o)
          if b then eval action else condLoop k rest
      | .list l => do
        let v ← eval (.list l)
        let b ← boolFrom F eval k v
        if b then eval action else condLoop k rest
      | p => do
        let b ← boolFrom F eval k p
        if b then eval action else condLoop k rest
    | _ => fail .arguments

/-- machine_primitives.go:183-196 `alias` -/
def aliasFn : List LExpr → Run LExpr
  | [a, b] => do
    let alias ← mustName a
    let aliased ← mustName b
    let m ← get
    match m.funcs aliased with
    | some _ => do
      set { m with aliases := setKey m.aliases alias aliased }
      return .list []
    | none => fail .notDefined
  | _ => fail .arguments

/-- machine_primitives.go:216-219: the names of the parameters -/
def argNames : List LExpr → Run (List Bytes)
  | [] => pure []
  | e :: l => do
    let k ← mustName e
    let ks ← argNames l
    return k :: ks

/-- machine_primitives.go:206-237 `define` -/
def defineFn : List LExpr → Run LExpr
  | [a, body] => do
    let d ← mustList a
    match d with
    | [] => fail .arguments
    | name :: params => do
      let funName ← mustName name
      let ks ← argNames params
      modify fun m => { m with aliases := deleteKey m.aliases funName, funcs := setKey m.funcs funName (.user ks body) }
      return .list []
  | _ => fail .arguments

/-- The functions of machine_primitives.go:11-178. -/
def builtin (k : Nat) : Builtin → List LExpr → Run LExpr
  | .add, a => do return .num (← foldNums eval k F.add f0 a)
  | .sub, a => match a with
    | e :: e' :: l => do
      let r ← numberFrom eval k e
      return .num (← foldNums eval k F.sub r (e' :: l))
    | _ => fail .arguments
  | .mul, a => do return .num (← foldNums eval k F.mul f1 a)
  | .remainder, a => match a with
    | [e, e'] => do
      let x ← numberFrom eval k e
      let y ← numberFrom eval k e'
      return .num (F.mod x y)
    | _ => fail .arguments
  | .car, a => do
    let l ← mustList (← unnest eval a)
    match l with
    | e :: _ => return e
    | [] => fail .emptyCar
  | .cdr, a => do
    let l ← mustList (← unnest eval a)
    return .list l.tail
  | .alias, a => aliasFn a
  | .define, a => defineFn a
  | .lt, a => cmpNum eval k F.lt a
  | .le, a => cmpNum eval k F.le a
  | .gt, a => cmpNum eval k (fun x y => F.lt y x) a
  | .ge, a => cmpNum eval k (fun x y => F.le y x) a
  | .eq, a => cmpNum eval k F.eq a
  | .neq, a => cmpNum eval k (fun x y => !F.eq x y) a
  | .and, a => logic F eval k false a
  | .or, a => logic F eval k true a
  | .not, a => match a with
    | [e] => do return ofBool (← boolFrom F eval k e)
    | _ => fail .arguments
  | .if_, a => match a with
    | [pred, thenexpr, elseexpr] => do
      let b ← boolFrom F eval k pred
      if b then eval thenexpr else eval elseexpr
    | _ => fail .arguments
  | .cond, a => condLoop F eval k a
  | .isList, a => match a with
    | [.list _] => pure (ofBool true)
    | [_] => pure (ofBool false)
    | _ => fail .arguments

/-- machine.go:87-88, and the closure of machine_primitives.go:224-235 -/
def call (k : Nat) : Funcdef → List LExpr → Run LExpr
  | .builtin b, rest => builtin F eval k b rest
  | .user args body, rest =>
    if rest.length = args.length then eval (substArgs (bindArgs args rest) body) else fail .arguments

end

/-- machine.go:77-85: aliases are resolved, once -/
def resolve (op : Bytes) : Run Bytes := do
  let m ← get
  match m.aliases op with
  | some s => match m.funcs s with
    | some _ => return s
    | none => fail .badAlias
  | none => return op

/-- machine.go:60-104 `Eval` -/
def eval (F : FloatOps) : Nat → LExpr → Run LExpr
  | 0, _ => fail .fuel
  | k + 1, e => match e with
    | .list (.op o :: rest) => do
      let op ← resolve o
      let m ← get
      match m.funcs op with
      | some f => call F (eval F k) k f rest
      | none => fail .undefined
    | _ => pure e

end Joeson.Lisp
