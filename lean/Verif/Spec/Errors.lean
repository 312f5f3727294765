import Verif.Model.Values
/-!
# Parse errors seen as ordinary values
-/

namespace Joeson.Spec
open Joeson

mutual
/-- The value with every `ParseError` replaced by a node of a user type. -/
def disguise (tag : Nat) : Ast → Ast
  | .undef => .undef
  | .str s => .str s
  | .int n => .int n
  | .arr l => .arr (disguiseList tag l)
  | .map kvs => .map (disguiseKvs tag kvs)
  | .user t l => .user t (disguiseList tag l)
  | .error m => .user tag [.str m]
/-- Element by element. -/
def disguiseList (tag : Nat) : List Ast → List Ast
  | [] => []
  | x :: l => disguise tag x :: disguiseList tag l
/-- Entry by entry. -/
def disguiseKvs (tag : Nat) : List (String × Ast) → List (String × Ast)
  | [] => []
  | (k, x) :: l => (k, disguise tag x) :: disguiseKvs tag l
end

/-- The callback answers the disguised value with its disguised answer. -/
def Disguised {H : Type} (tag : Nat) (cb cb' : Nat → Ast → Nat → H → Except Panic (Option Ast × H)) : Prop :=
  ∀ c v p h, cb' c (disguise tag v) p h = (cb c v p h).map fun x => (x.1.map (disguise tag), x.2)

end Joeson.Spec
