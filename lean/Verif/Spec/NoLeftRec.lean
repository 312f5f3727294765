import Verif.Spec.Grammar
/-!
# Grammars without left recursion

The usual static analysis: which rules a parser may call before anything is consumed.
-/

namespace Joeson

/-- `First g nn n id`: parsing `n` may call rule `id` at the position where `n` starts, given that the rules in
`nn` cannot match without consuming. -/
inductive First (g : Grammar) (nn : Nat → Prop) : Node → Nat → Prop
  | rule {id} : First g nn (.rule id) id
  | ref {i nm id} : g.lookup nm = some id → First g nn (.ref i nm) id
  | choice {i l c id} : c ∈ l → First g nn c id → First g nn (.choice i l) id
  | seq {i r pre c post id} : (∀ x ∈ pre, ¬ Consumes g nn x) → First g nn c id →
      First g nn (.seq i r (pre ++ c :: post)) id
  | exist {i n id} : First g nn n id → First g nn (.exist i n) id
  | look {i n id} : First g nn n id → First g nn (.look i n) id
  | not {i n id} : First g nn n id → First g nn (.not i n) id
  | patValue {i v j mn mx id} : First g nn v id → First g nn (.pattern i v j mn mx) id
  | patJoin {i v j mn mx id} : ¬ Consumes g nn v → First g nn j id → First g nn (.pattern i v (some j) mn mx) id

/-- Rule `id` may call rule `id'` at its own start position, directly or through other rules. -/
inductive Reaches (g : Grammar) (nn : Nat → Prop) : Nat → Nat → Prop
  | one {id body id'} : g.rules[id]? = some body → First g nn body id' → Reaches g nn id id'
  | trans {a b c} : Reaches g nn a b → Reaches g nn b c → Reaches g nn a c

/-- No rule may call itself at its start position, and every repetition consumes something at each turn, by an
analysis `nn` of which rules cannot be empty. -/
def Grammar.NoLeftRec (g : Grammar) : Prop :=
  ∃ nn : Nat → Prop, (∀ id n, nn id → g.rules[id]? = some n → Consumes g nn n) ∧
    (∀ n ∈ g.rules, n.Guarded g nn) ∧ ∀ id, ¬ Reaches g nn id id

end Joeson
