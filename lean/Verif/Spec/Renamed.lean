import Verif.Model.GrammarParse
/-!
# The same rules under other names and numbers

When a grammar contains the rules of another, perhaps in another order, under other names, and with others beside them.
-/

namespace Joeson

/-- The attributes of a parser whose rules have other names. -/
def Info.renamed (ρ : String → String) (i : Info) : Info := { i with name := ρ i.name, ruleName := ρ i.ruleName }

mutual
/-- The parser with the rules called `ρ name` for `name` and numbered `φ id` for `id`. -/
def Node.renamed (φ : Nat → Nat) (ρ : String → String) : Node → Node
  | .str i b => .str (i.renamed ρ) b
  | .regex i re => .regex (i.renamed ρ) re
  | .choice i l => .choice (i.renamed ρ) (renamedAll φ ρ l)
  | .seq i r l => .seq (i.renamed ρ) r (renamedAll φ ρ l)
  | .exist i n => .exist (i.renamed ρ) (n.renamed φ ρ)
  | .look i n => .look (i.renamed ρ) (n.renamed φ ρ)
  | .not i n => .not (i.renamed ρ) (n.renamed φ ρ)
  | .pattern i v none mn mx => .pattern (i.renamed ρ) (v.renamed φ ρ) none mn mx
  | .pattern i v (some j) mn mx => .pattern (i.renamed ρ) (v.renamed φ ρ) (some (j.renamed φ ρ)) mn mx
  | .ref i nm => .ref (i.renamed ρ) (ρ nm)
  | .rule id => .rule (φ id)
/-- Each of them. -/
def renamedAll (φ : Nat → Nat) (ρ : String → String) : List Node → List Node
  | [] => []
  | n :: l => n.renamed φ ρ :: renamedAll φ ρ l
end

mutual
/-- The names a parser mentions. -/
def Node.refs : Node → List String
  | .str _ _ => []
  | .regex _ _ => []
  | .choice _ l => refsAll l
  | .seq _ _ l => refsAll l
  | .exist _ n => n.refs
  | .look _ n => n.refs
  | .not _ n => n.refs
  | .pattern _ v none _ _ => v.refs
  | .pattern _ v (some j) _ _ => v.refs ++ j.refs
  | .ref _ nm => [nm]
  | .rule _ => []
/-- Any of them. -/
def refsAll : List Node → List String
  | [] => []
  | n :: l => n.refs ++ refsAll l
end

/-- `g'` begins with the rules of `g`, numbered by `φ` and named by `ρ`. It may have others besides. -/
structure Grammar.Within (φ : Nat → Nat) (ρ : String → String) (g g' : Grammar) : Prop where
  inj : ∀ i j, i < g.numRules → j < g.numRules → φ i = φ j → i = j
  rules : ∀ i n, g.rules[i]? = some n → g'.rules[φ i]? = some (n.renamed φ ρ)
  /-- a name that is mentioned means the same in both -/
  names : ∀ n ∈ g.rules, ∀ nm ∈ n.refs, g'.lookup (ρ nm) = (g.lookup nm).map φ
  root : g'.root = g.root.renamed φ ρ

/-- The value does not depend on the name of the rule that is put into its origin. -/
def Ops.NameBlind {V H : Type} (ops : Ops V H) (ρ : String → String) : Prop :=
  ∀ v o h, ops.origin v { o with ruleName := ρ o.ruleName } h = ops.origin v o h

/-- What user code sees of a call of a callback: which one, whether it is that of a rule, and where the rule began. -/
def Call.seen (c : Call) : Nat × Bool × Nat := (c.cb, c.ofRule, c.pos)

/-- The same panic, except that an undefined reference is reported by its new name. -/
def Panic.Renamed (ρ : String → String) (e e' : Panic) : Prop := e' = e ∨ ∃ nm, e = .undefinedRef nm ∧ e' = .undefinedRef (ρ nm)

/-- Two parses went the same way: the same value or error message, the same store, end, number of stack entries and callbacks, the same tracing afterwards;
or the same panic; or neither ended. -/
def SameWay {V H : Type} (ρ : String → String) : Out (Outcome V × St V H) × Trace → Out (Outcome V × St V H) × Trace → Prop
  | (.ok (o, s), t), (.ok (o', s'), t') =>
    o' = o ∧ t' = t ∧ s'.h = s.h ∧ s'.pos = s.pos ∧ s'.counter = s.counter ∧ s'.calls.map Call.seen = s.calls.map Call.seen
  | (.panic e, t), (.panic e', t') => e.Renamed ρ e' ∧ t' = t
  | (.oof, t), (.oof, t') => t' = t
  | _, _ => False

end Joeson
