import Verif.Model.Engine
/-!
# Grammars as `Grammar.postinit` leaves them

Well-formedness used as hypothesis by the theorems on the engine (grammar.go:211-317: rules are
numbered from 0, names resolve to numbered rules, the top rank is a choice between rules).
-/

namespace Joeson

/-- All rule numbers occurring in a node are below `N`. -/
inductive Node.Below (N : Nat) : Node → Prop
  | str {i b} : Below N (.str i b)
  | regex {i re} : Below N (.regex i re)
  | choice {i l} : (∀ c ∈ l, Below N c) → Below N (.choice i l)
  | seq {i r l} : (∀ c ∈ l, Below N c) → Below N (.seq i r l)
  | exist {i n} : Below N n → Below N (.exist i n)
  | look {i n} : Below N n → Below N (.look i n)
  | not {i n} : Below N n → Below N (.not i n)
  | pattern {i v j mn mx} : Below N v → (∀ c, j = some c → Below N c) → Below N (.pattern i v j mn mx)
  | ref {i nm} : Below N (.ref i nm)
  | rule {id} : id < N → Below N (.rule id)

/-- A grammar ready for parsing. -/
structure Grammar.Built (g : Grammar) : Prop where
  /-- rules only contain numbered rules -/
  rules : ∀ n ∈ g.rules, n.Below g.numRules
  /-- a rule is a parser, not a link to another rule -/
  noAlias : ∀ n ∈ g.rules, ∀ id, n ≠ .rule id
  /-- names resolve to rules -/
  lookup : ∀ nm id, g.lookup nm = some id → id < g.numRules
  /-- the top rank is a choice between rules and has neither label nor callback -/
  root : ∃ i l, g.root = .choice i l ∧ i.label = "" ∧ i.cb = none ∧
    ∀ c ∈ l, ∃ id, c = .rule id ∧ id < g.numRules

/-- `Consumes g nn n`: `n` cannot succeed without consuming input, provided the rules in `nn` cannot.
This is the usual syntactic "not nullable" analysis. -/
inductive Consumes (g : Grammar) (nn : Nat → Prop) : Node → Prop
  | str {i b} : b ≠ [] → Consumes g nn (.str i b)
  | regex {i re} : (∀ bs, re.find bs ≠ some (0, 0)) → Consumes g nn (.regex i re)
  | choice {i l} : (∀ c ∈ l, Consumes g nn c) → Consumes g nn (.choice i l)
  | seq {i r l c} : c ∈ l → Consumes g nn c → Consumes g nn (.seq i r l)
  | pattern {i v j mn mx} : 0 < mn → Consumes g nn v → Consumes g nn (.pattern i v j mn mx)
  | ref {i nm id} : g.lookup nm = some id → nn id → Consumes g nn (.ref i nm)
  | rule {id} : nn id → Consumes g nn (.rule id)

/-- Every repetition of a node has a value, or a join, that consumes input. -/
inductive Node.Guarded (g : Grammar) (nn : Nat → Prop) : Node → Prop
  | str {i b} : Guarded g nn (.str i b)
  | regex {i re} : Guarded g nn (.regex i re)
  | choice {i l} : (∀ c ∈ l, Guarded g nn c) → Guarded g nn (.choice i l)
  | seq {i r l} : (∀ c ∈ l, Guarded g nn c) → Guarded g nn (.seq i r l)
  | exist {i n} : Guarded g nn n → Guarded g nn (.exist i n)
  | look {i n} : Guarded g nn n → Guarded g nn (.look i n)
  | not {i n} : Guarded g nn n → Guarded g nn (.not i n)
  | pattern {i v j mn mx} : (Consumes g nn v ∨ ∃ c, j = some c ∧ Consumes g nn c) → Guarded g nn v →
      (∀ c, j = some c → Guarded g nn c) → Guarded g nn (.pattern i v j mn mx)
  | ref {i nm} : Guarded g nn (.ref i nm)
  | rule {id} : Guarded g nn (.rule id)

/-- All repetitions of the grammar are guarded, for some set of rules that cannot be empty. -/
def Grammar.Guarded (g : Grammar) : Prop :=
  ∃ nn : Nat → Prop, (∀ id n, nn id → g.rules[id]? = some n → Consumes g nn n) ∧
    ∀ n ∈ g.rules, n.Guarded g nn

end Joeson
