import Verif.Model.Engine
/-!
# How large a grammar is, and how deep its repetitions nest
-/

namespace Joeson

mutual
/-- The number of parsers that an expression consists of; the name of a rule counts as two, the name and the rule. -/
def Node.parts : Node → Nat
  | .str _ _ => 1
  | .regex _ _ => 1
  | .choice _ l => 1 + partsAll l
  | .seq _ _ l => 1 + partsAll l
  | .exist _ n => 1 + n.parts
  | .look _ n => 1 + n.parts
  | .not _ n => 1 + n.parts
  | .pattern _ v none _ _ => 1 + v.parts
  | .pattern _ v (some j) _ _ => 1 + (v.parts + j.parts)
  | .ref _ _ => 2
  | .rule _ => 1
/-- The sum for the parts of a choice or sequence. -/
def partsAll : List Node → Nat
  | [] => 0
  | n :: l => n.parts + partsAll l
end

mutual
/-- How many repetitions are inside each other. -/
def Node.loops : Node → Nat
  | .str _ _ => 0
  | .regex _ _ => 0
  | .choice _ l => loopsAll l
  | .seq _ _ l => loopsAll l
  | .exist _ n => n.loops
  | .look _ n => n.loops
  | .not _ n => n.loops
  | .pattern _ v none _ _ => 1 + v.loops
  | .pattern _ v (some j) _ _ => 1 + max v.loops j.loops
  | .ref _ _ => 0
  | .rule _ => 0
/-- The greatest of them. -/
def loopsAll : List Node → Nat
  | [] => 0
  | n :: l => max n.loops (loopsAll l)
end

/-- Of all rules together. -/
def Grammar.parts (g : Grammar) : Nat := partsAll g.rules

/-- In any rule. Repetitions in a rule that is called from inside a repetition are not inside it. -/
def Grammar.loops (g : Grammar) : Nat := loopsAll g.rules

end Joeson
