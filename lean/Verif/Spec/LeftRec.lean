import Verif.Spec.Peg
/-!
# Parsing expression grammars with direct left recursion

`lpeg` extends `peg` (Spec/Peg.lean): a rule that calls itself at the position where it started gets
the seed, which is a failure at first and then the last result. The rule is parsed again as long as the
result ends further: the usual meaning of left recursion as bounded growth. Still without memo table,
wiping or rule stack. Recursion through another rule has no meaning here (`oof`), nor has left
recursion in a rule that skips the cache: the engine keeps the seed in the cache.
-/

namespace Joeson

/-- The answer to a left recursive call. `unknown` forbids such calls. -/
inductive Seed (V : Type) where
  | unknown
  | known (x : Option (V × Nat))

section
variable {V : Type}

/-- The rule being parsed and the seed of its left recursive calls; `none` if there is no such rule. -/
abbrev Ctx (V : Type) := Option (Nat × Seed V)

/-- The seed for a call of rule `id` at `p` from inside a rule that started at `q`, if left recursive. -/
def lrSeed (c : Ctx V) (q id p : Nat) : Option (Seed V) :=
  match c with
  | none => none
  | some (i, x) => if i = id ∧ q = p then some x else none

/-- Parse again with the last result as seed, as long as the result ends further. -/
def growSeed (run : Option (V × Nat) → Out (Option (V × Nat))) : Nat → V → Nat → Out (Option (V × Nat))
  | 0, _, _ => .oof
  | k + 1, v, e => do
    match ← run (some (v, e)) with
    | none => .ok (some (v, e))
    | some (v', e') => if e' ≤ e then .ok (some (v, e)) else growSeed run k v' e'

/-- The body of a rule, its label, callback and origin. -/
def ruleBody (E : PegEnv V) (ev : Node → Nat → Out (Option (V × Nat))) (k : Nat) (body : Node) (p : Nat) :
    Out (Option (V × Nat)) := do
  pegFinish E body.info p (← pegKind E ev k body p)

/-- A rule: its body with a failing seed, then grown. -/
def ruleGrow (run : Seed V → Out (Option (V × Nat))) (k : Nat) : Out (Option (V × Nat)) := do
  match ← run (.known none) with
  | none => .ok none
  | some (v, e) => growSeed (fun x => run (.known x)) k v e

/-- The meaning of a parser at position `p`, inside a rule that started at `q`. -/
def lpeg (E : PegEnv V) : Nat → Nat → Ctx V → Node → Nat → Nat → Out (Option (V × Nat))
  | 0, _, _, _, _, _ => .oof
  | k + 1, d, c, .rule id, q, p =>
    match E.g.rules[id]? with
    | none => .panic .indexOutOfRange
    | some body =>
      match d with
      | 0 => .oof
      | d + 1 =>
        match lrSeed c q id p with
        | some .unknown => .oof
        | some (.known x) => .ok x
        | none =>
          if body.info.skipCache then ruleBody E (fun n p' => lpeg E k d none n p p') k body p
          else ruleGrow (fun x => ruleBody E (fun n p' => lpeg E k d (some (id, x)) n p p') k body p) k
  | k + 1, d, c, n, q, p =>
    if n.info.ownLabel || n.info.cb.isSome then do
      pegFinish E n.info q (← pegKind E (fun n p' => lpeg E k d c n q p') k n p)
    else pegKind E (fun n p' => lpeg E k d c n q p') k n p

end
end Joeson
