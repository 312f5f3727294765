import Verif.Model.Engine
/-!
# What the PEG operators promise, in terms of runs of their operands

`run n s` is a call of parser `n` in state `s`. These notions do not mention how operators are
implemented.
-/

namespace Joeson.Spec
open Joeson
variable {V H : Type}

/-- Operand `n`, tried at position `p`, fails. -/
def FailsAt (run : Node → Run V H) (n : Node) (p : Nat) : Prop :=
  ∃ s s', s.pos = p ∧ run n s = .ok (none, s')

/-- Operand `n`, tried at position `p`, gives `v` and ends at `q`. -/
def GivesAt (run : Node → Run V H) (n : Node) (p : Nat) (v : V) (q : Nat) : Prop :=
  ∃ s s', s.pos = p ∧ run n s = .ok (some v, s') ∧ s'.pos = q

/-- `items` match one after the other from `p`, giving `vs`, up to `q`. -/
inductive Chain (run : Node → Run V H) : List Node → Nat → List V → Nat → Prop
  | nil {p} : Chain run [] p [] p
  | cons {n ns p q r v vs} : GivesAt run n p v q → Chain run ns q vs r → Chain run (n :: ns) p (v :: vs) r

/-- `value` then `t - 1` times (`join` then `value`), giving the values `vs` (`t` of them). -/
inductive Repeated (run : Node → Run V H) (value : Node) (join : Option Node) : Nat → List V → Nat → Prop
  | one {p v q} : GivesAt run value p v q → Repeated run value join p [v] q
  | more {p vs q q' v r} : Repeated run value join p vs q →
      (match join with | none => q' = q | some j => ∃ w, GivesAt run j q w q') →
      GivesAt run value q' v r → Repeated run value join p (vs ++ [v]) r

/-- No further (join and) value at `p`. -/
def NoMore (run : Node → Run V H) (value : Node) (join : Option Node) (p : Nat) : Prop :=
  match join with
  | none => FailsAt run value p
  | some j => FailsAt run j p ∨ ∃ w q, GivesAt run j p w q ∧ FailsAt run value q

end Joeson.Spec
