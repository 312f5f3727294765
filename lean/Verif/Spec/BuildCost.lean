import Verif.Spec.Lang
/-!
# Numbers of parsers, counted with their depth

On the expressions and lines of `Spec/Lang`: an expression at depth `k` counts `2 ^ k` times.
-/

namespace Joeson.RuleText

mutual
/-- Itself, and twice what is directly inside. -/
def Pat.visits : Pat → Nat
  | .lit _ | .re _ | .name _ => 1
  | .seq l | .alt l => 1 + 2 * Pat.visitsAll l
  | .opt p | .not p | .look p => 1 + 2 * p.visits
  | .rep v sep _ _ => 1 + 2 * (v.visits + Pat.visitsOpt sep)
/-- Their sum. -/
def Pat.visitsAll : List Pat → Nat
  | [] => 0
  | p :: l => p.visits + Pat.visitsAll l
/-- If there is one. -/
def Pat.visitsOpt : Option Pat → Nat
  | none => 0
  | some p => p.visits
end

mutual
/-- The same for a line. -/
def GLine.visits : GLine → Nat
  | .alt _ _ b | .incl _ _ b => b.visits
/-- For a rule. -/
def Body.visits : Body → Nat
  | .text e => e.pat.visits
  | .rank ls => 1 + 2 * visitsLines ls
/-- For lines. -/
def visitsLines : List GLine → Nat
  | [] => 0
  | l :: ls => l.visits + visitsLines ls
end

/-- For a grammar, which has a rank that has the lines. -/
def grammarVisits (L : List GLine) : Nat := 1 + 2 * (1 + 2 * visitsLines L)

mutual
/-- How many expressions. -/
def Pat.size : Pat → Nat
  | .lit _ | .re _ | .name _ => 1
  | .seq l | .alt l => 1 + Pat.sizeAll l
  | .opt p | .not p | .look p => 1 + p.size
  | .rep v sep _ _ => 1 + (v.size + Pat.sizeOpt sep)
/-- Their sum. -/
def Pat.sizeAll : List Pat → Nat
  | [] => 0
  | p :: l => p.size + Pat.sizeAll l
/-- If there is one. -/
def Pat.sizeOpt : Option Pat → Nat
  | none => 0
  | some p => p.size
end

mutual
/-- How deep expressions are inside each other. -/
def Pat.deep : Pat → Nat
  | .lit _ | .re _ | .name _ => 0
  | .seq l | .alt l => 1 + Pat.deepAll l
  | .opt p | .not p | .look p => 1 + p.deep
  | .rep v sep _ _ => 1 + max v.deep (Pat.deepOpt sep)
/-- The deepest. -/
def Pat.deepAll : List Pat → Nat
  | [] => 0
  | p :: l => max p.deep (Pat.deepAll l)
/-- If there is one. -/
def Pat.deepOpt : Option Pat → Nat
  | none => 0
  | some p => p.deep
end

/-- `!(!(…!('a')…))`, with `n` times `!(`. -/
def notNest : Nat → Expr
  | 0 => .single (.one [] none (.prim (.str [⟨false, 0x61⟩]))) []
  | n + 1 => .single (.one [] none (.not (.group (notNest n)))) []

/-- A grammar of that text. -/
def notLines (n : Nat) : List GLine := [.alt "S" none (.text (notNest n))]

end Joeson.RuleText
