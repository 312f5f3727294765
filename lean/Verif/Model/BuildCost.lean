import Verif.Model.Build
/-!
# How often `postinit` visits parsers

grammar.go:221-255: the calls of `Walk` (walk.go:14-29) during the pass that removes choices with a single alternative. Same
recursion as `walkMono`, `walkMonoRules` and `walkMonoGrammar` in `Model/Build`, counting.
-/

namespace Joeson

/-- The parsers `forEachChild` calls its argument with, in order; places as in `Node.mapKids`. -/
def Node.kids : Node → List Node
  | .choice _ l => l
  | .seq _ _ l => l
  | .exist _ n => [n]
  | .look _ n => [n]
  | .not _ n => [n]
  | .pattern _ v j _ _ => v :: j.toList
  | _ => []

/-- Calls of `Walk` from `Walk(n, …)` on, that one included: grammar.go:234-251 in `Pre`, walk.go:21-23 after it. -/
def walkMonoVisits : Nat → Node → Nat
  | 0, _ => 0
  | k + 1, n => 1 + (n.kids.map fun c => if c.mono.isSome then 0 else walkMonoVisits k c).sum +
      ((n.mapKids fun c => (c.mono).getD (walkMono k c)).kids.map (walkMonoVisits k)).sum

/-- `forEachChild` of a rank: included rules, then alternatives (parser_choice.go:80-90, parser_rank.go:79-87). -/
def Rules.kids : Rules → List Rules
  | .rank _ _ _ incl alts => incl ++ alts
  | .leaf _ _ _ => []

/-- The same on ranks and rules. -/
def walkMonoRulesVisits : Nat → Rules → Nat
  | 0, _ => 0
  | _ + 1, .leaf _ _ n => walkMonoVisits (n.depth + 1) n
  | k + 1, x => 1 + (x.kids.map fun c => if c.mono.isSome then 0 else walkMonoRulesVisits k c).sum +
      ((x.mapKids fun c => (c.mono).getD (walkMonoRules k c)).kids.map (walkMonoRulesVisits k)).sum

/-- grammar.go:255: the whole pass -/
def walkMonoGrammarVisits (rank : Rules) : Nat :=
  1 + walkMonoRulesVisits (rank.depth + 1) rank + walkMonoRulesVisits (rank.depth + 1) (walkMonoRules (rank.depth + 1) rank)

/-- grammar.go:60-71: for a grammar made from lines -/
def buildVisits (compile : Bytes → Except Panic Node) (name : String) (lines : List Line) : Except Panic Nat := do
  return walkMonoGrammarVisits (← rankFromLines compile name lines)

end Joeson
