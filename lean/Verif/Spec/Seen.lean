import Verif.Spec.Values
import Verif.Model.Origins
/-!
# Values seen from outside

The library does not depend on what values are, nor on what else they carry: an application may look at the values of a parse
through a function `see`, that forgets origins or anything else, and at the operations on values and the callbacks, which may
have a state of their own, as pure operations on what is seen.
-/

namespace Joeson
open RuleText

/-- `P` is what is seen of `ops` through `see`: the operations commute with it, whatever the store; to record an origin changes
nothing that is seen. -/
structure Seen {V H V' : Type} (ops : Ops V H) (P : PureOps V') (see : V → V') : Prop where
  str : ∀ b, see (ops.str b) = P.str b
  undef : see ops.undef = P.undef
  isUndef : ∀ v, ops.isUndef v = P.isUndef (see v)
  arr : ∀ l h, see (ops.arr l h).1 = P.arr (l.map see)
  newMap : ∀ k v h, see (ops.newMap k v h).1 = P.newMap k (see v)
  mapSet : ∀ r k v h, (ops.mapSet r k v h).map (fun x => see x.1) = P.mapSet (see r) k (see v)
  merge : ∀ a b h, (ops.merge a b h).map (fun x => see x.1) = P.merge (see a) (see b)
  cb : ∀ c v p h, (ops.cb c v p h).map (fun x => x.1.map see) = P.cb c (see v) p
  origin : ∀ v o h, see (ops.origin v o h).1 = see v
  none : ∀ v o, P.origin v o = v

/-- What is seen of an outcome. -/
def Outcome.seen {V V' : Type} (see : V → V') : Outcome V → Outcome V'
  | .value v => .value (see v)
  | .error r => .error r
  | .nil => .nil

mutual
/-- Without origins. -/
def OVal.forget : OVal → Ast
  | .undef => .undef
  | .str s => .str s
  | .int n => .int n
  | .arr l => .arr (forgetAll l)
  | .map _ kvs => .map (forgetKvs kvs)
  | .user _ t l => .user t (forgetAll l)
  | .error _ m => .error m
/-- Elements. -/
def forgetAll : List OVal → List Ast
  | [] => []
  | v :: l => v.forget :: forgetAll l
/-- Entries. -/
def forgetKvs : List (String × OVal) → List (String × Ast)
  | [] => []
  | (k, v) :: l => (k, v.forget) :: forgetKvs l
end

/-- The operations on trees, callbacks included, as pure operations. -/
def treePure (tcb : Nat → Ast → Nat → Except Panic (Option Ast)) : PureOps Ast where
  str b := .str b
  undef := .undef
  isUndef v := match v with | .undef => true | _ => false
  arr l := .arr l
  newMap k v := .map [(k, v)]
  mapSet r k v := match r with
    | .map kvs => .ok (.map (kvSet k v kvs))
    | _ => .error .assertion
  merge a b := a.merge b
  cb := tcb
  origin v _ := v

/-- What `ParseString` should answer when matching the text has the outcome `r`, for an application that sees values through
`see` (compare `Gives`). -/
def GivesSeen {V H V' : Type} (see : V → V') (text : Bytes) (r : VRes V') (o : Out (Outcome V × St V H)) : Prop :=
  match r with
  | .error e => o = .panic e
  | .ok (some (v, rest)) =>
    if rest = [] then ∃ x s, o = .ok (.value x, s) ∧ see x = v else ∃ rep s, o = .ok (.error rep, s) ∧ text.drop s.pos = rest
  | .ok none => if text = [] then ∃ s, o = .ok (.nil, s) else ∃ rep s, o = .ok (.error rep, s) ∧ s.pos = 0

end Joeson
