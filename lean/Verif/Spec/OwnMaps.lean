import Verif.Spec.Heap
import Verif.Spec.Values
/-!
# Rule texts whose sequences merge only into maps of their own

What is said on values that are read out of the store.
-/

namespace Joeson.RuleText
open Joeson.Spec

/-- No label is `&`, and before each `@` there is a label that is neither. -/
def FillsOwn (labels : List String) : Prop :=
  "&" ∉ labels ∧ ∀ l1 l2, labels = l1 ++ "@" :: l2 → ∃ l ∈ l1, l ≠ "" ∧ l ≠ "@"

mutual
/-- Each sequence puts a label of its own into its map before something is merged into it. An optional element with labels
inside counts as one labelled `@`. -/
def VP.OwnMaps : VP → Prop
  | .lit _ _ | .re _ _ | .name _ _ _ => True
  | .seq _ l => FillsOwn (l.map VP.outLab) ∧ ownMapsAll l
  | .alt _ l => ownMapsAll l
  | .opt _ p | .not _ p | .look _ p => p.OwnMaps
  | .rep _ v s _ _ => v.OwnMaps ∧ ownMapsO s
/-- Of all. -/
def ownMapsAll : List VP → Prop
  | [] => True
  | p :: l => p.OwnMaps ∧ ownMapsAll l
/-- If there is one. -/
def ownMapsO : Option VP → Prop
  | none => True
  | some p => p.OwnMaps
end

/-- What `ParseString` should answer when matching the text has the outcome `r`, maps read out of the store (compare
`Gives`). -/
def GivesRead (text : Bytes) (r : VRes Ast) (o : Out (Outcome Val × St Val Store)) : Prop :=
  match r with
  | .error e => o = .panic e
  | .ok (some (t, rest)) =>
    if rest = [] then ∃ v s, o = .ok (.value v, s) ∧ Reads s.h v t else ∃ rep s, o = .ok (.error rep, s) ∧ text.drop s.pos = rest
  | .ok none => if text = [] then ∃ s, o = .ok (.nil, s) else ∃ rep s, o = .ok (.error rep, s) ∧ s.pos = 0

/-- Trees as values, with these callbacks. -/
def treePure (tcb : Nat → Ast → Nat → Except Panic (Option Ast)) : PureOps Ast where
  str b := .str b
  undef := .undef
  isUndef v := match v with | .undef => true | _ => false
  arr l := .arr l
  newMap k v := .map [(k, v)]
  mapSet r k v := match r with
    | .map kvs => .ok (.map (kvSet k v kvs))
    | _ => .error .assertion
  merge a b := a.merge b
  cb := tcb
  origin v _ := v

end Joeson.RuleText
