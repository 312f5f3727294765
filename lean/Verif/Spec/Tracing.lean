import Verif.Model.GrammarParse
/-!
# Tracing

What is needed to compare parses that differ only in tracing.
-/

namespace Joeson
variable {V H : Type}

/-- Set the rule level `Debug` option of a node. -/
def Node.setDebug (b : Bool) : Node → Node
  | .str i s => .str { i with debug := b } s
  | .regex i re => .regex { i with debug := b } re
  | .choice i l => .choice { i with debug := b } l
  | .seq i r l => .seq { i with debug := b } r l
  | .exist i n => .exist { i with debug := b } n
  | .look i n => .look { i with debug := b } n
  | .not i n => .not { i with debug := b } n
  | .pattern i v j mn mx => .pattern { i with debug := b } v j mn mx
  | .ref i nm => .ref { i with debug := b } nm
  | .rule id => .rule id

/-- Choose for each rule whether it is debugged. -/
def Grammar.setDebug (g : Grammar) (f : Nat → Bool) : Grammar :=
  { g with rules := g.rules.mapIdx fun id n => n.setDebug (f id) }

/-- What a caller sees of a parse: its outcome, the values it made, the callbacks that ran, and where the stream is afterwards. -/
def Out.seen : Out (Outcome V × St V H) → Out (Outcome V × H × List Call × Nat)
  | .ok (o, s) => .ok (o, s.h, s.calls, s.pos)
  | .panic e => .panic e
  | .oof => .oof

end Joeson
