import Verif.Model.Build
import Verif.Model.GrammarParse
/-!
# The life of a Grammar

grammar.go: `GrammarFromLines`, `ParseString`, `Bomb`, `IsReady`, `CountRules` on one object.
-/

namespace Joeson

/-- grammar.go:11-19: a Grammar whose rank is not nil, as every exported function leaves it -/
structure GrammarObject where
  /-- `rank` and the rules it refers to -/
  g : Grammar
  /-- `numrules` -/
  numrules : Nat
  wasInitialized : Bool
  /-- `TraceOptions` -/
  trace : Trace

/-- grammar.go:60-71 and 303-311, at the end of `postinit` -/
def GrammarObject.ofMade (m : Made) (tr : Trace) : GrammarObject := ⟨m.g, m.conn.numrules, true, tr⟩

/-- grammar.go:168-176 `Bomb`; parser_rank.go:47-52 `newEmptyRank` -/
def GrammarObject.bomb (o : GrammarObject) : GrammarObject :=
  ⟨{ rules := [], lookup := fun _ => none, root := .choice { name := "bombd" } [] }, 0, false, o.trace⟩

/-- grammar.go:198 `IsReady` -/
def GrammarObject.isReady (o : GrammarObject) : Bool := o.wasInitialized

/-- grammar.go:74 `CountRules` -/
def GrammarObject.countRules (o : GrammarObject) : Nat := o.numrules

/-- What a program does with a Grammar. A parse comes with the state of the callbacks, `fuel` bounds the depth of calls. -/
inductive GrammarCall (H : Type) where
  | parse (opts : List ParseOption) (fuel : Nat) (h : H) (text : Bytes)
  | bomb

section
variable {V H : Type}

/-- One call. grammar.go:79-89, 168-176 -/
def GrammarObject.call (ops : Ops V H) (o : GrammarObject) : GrammarCall H → GrammarObject × Option (Out (Outcome V × St V H))
  | .parse opts fuel h text =>
    let r := parseString ops o.g o.trace opts fuel h text
    ({ o with trace := r.2 }, some r.1)
  | .bomb => (o.bomb, none)

/-- Calls one after the other. A panic of a parse is recovered. -/
def GrammarObject.calls (ops : Ops V H) (o : GrammarObject) : List (GrammarCall H) → GrammarObject × List (Option (Out (Outcome V × St V H)))
  | [] => (o, [])
  | c :: l =>
    let (o, r) := o.call ops c
    let (o, rs) := o.calls ops l
    (o, r :: rs)

end
end Joeson
