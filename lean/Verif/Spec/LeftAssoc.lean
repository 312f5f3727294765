import Verif.Spec.LeftRec
import Verif.Spec.Means
/-!
# Rules `E: E op T | T`

What such a rule should make of `t0 op t1 op ... op tn`.
-/

namespace Joeson
variable {V : Type}

/-- Inside rule `id`, that started at `q`, the parser `n` gives `r` at `p`, whatever left recursive calls
of `id` answer. -/
def GivesIn (E : PegEnv V) (d id q : Nat) (n : Node) (p : Nat) (r : Option (V × Nat)) : Prop :=
  ∃ k, lpeg E k d (some (id, .unknown)) n q p = .ok r

/-- Rule `id` is `E: E op T | T'`, where `nm` is its name. -/
structure LeftAssoc (g : Grammar) (id : Nat) (i j r : Info) (nm : String) (op t t' : Node) : Prop where
  rule : g.rules[id]? = some (.choice i [.seq j .array [.ref r nm, op, t], t'])
  self : g.lookup nm = some id
  /-- the rule does not skip the cache -/
  cached : i.skipCache = false
  /-- the inner sequence and reference have neither label of their own nor callback -/
  seqPlain : (Node.seq j .array [.ref r nm, op, t]).wraps = false
  refPlain : (Node.ref r nm).wraps = false

/-- From `p` on: `op t op t ... op t`, up to `e`, where no further `op t` follows. Lists the values of the
operators and operands and where the operands end. -/
inductive Operands (E : PegEnv V) (d id q : Nat) (op t : Node) : Nat → List (V × V × Nat) → Nat → Prop
  | noOp {p} : GivesIn E d id q op p none → Operands E d id q op t p [] p
  | noOperand {p o p1} : GivesIn E d id q op p (some (o, p1)) → GivesIn E d id q t p1 none →
      Operands E d id q op t p [] p
  | more {p o p1 v p2 l e} : GivesIn E d id q op p (some (o, p1)) → GivesIn E d id q t p1 (some (v, p2)) →
      p < p2 → Operands E d id q op t p2 l e → Operands E d id q op t p ((o, v, p2) :: l) e

/-- The captured ones of the values of some nodes. -/
def capturedBy (g : Grammar) (l : List (Node × V)) : List V :=
  (l.filter fun x => (g.info x.1).capture).map (·.2)

/-- The value, nested to the left. `fin v e` is what the rule makes (label, callback, origin) of value `v`
ending at `e`. -/
def leftNest (P : PureOps V) (g : Grammar) (fin : V → Nat → V) (self op t : Node) (v0 : V) : List (V × V × Nat) → V :=
  List.foldl (fun v x => fin (P.arr (capturedBy g [(self, v), (op, x.1), (t, x.2.1)])) x.2.2) v0

end Joeson
