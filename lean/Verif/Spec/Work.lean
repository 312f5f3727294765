import Verif.Model.Engine
/-!
# Which parsers are counted

`ParseContext.Counter` (packrat.go:262) counts the bodies of rules that are run, and inner nodes that have a callback or a
label of their own.
-/

namespace Joeson

/-- The parsers directly inside a parser. -/
def Node.inner : Node → List Node
  | .choice _ l | .seq _ _ l => l
  | .exist _ n | .look _ n | .not _ n => [n]
  | .pattern _ v j _ _ => v :: j.toList
  | _ => []

/-- Neither callback nor label to handle: only `wrap`ped when it is a rule. -/
def Node.Bare (n : Node) : Prop := n.info.cb = none ∧ n.info.ownLabel = false

/-- `n` and the parsers inside it are bare. -/
inductive Node.AllBare : Node → Prop
  | mk {n : Node} : n.Bare → (∀ c ∈ n.inner, c.AllBare) → n.AllBare

/-- Callbacks and labels of their own belong to rules only. -/
def Grammar.OnRules (g : Grammar) : Prop := ∀ n ∈ g.rules, ∀ c ∈ n.inner, c.AllBare

/-- All rules are memoised. -/
def Grammar.AllCached (g : Grammar) : Prop := ∀ n ∈ g.rules, n.info.skipCache = false

end Joeson
