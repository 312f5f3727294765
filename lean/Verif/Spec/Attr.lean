import Verif.Model.Attr
/-!
# What setting the line and the origin of a node should do

What is got is what was set last.
-/

namespace Joeson

/-- A call. -/
inductive AttrCall where
  | line (n : Int)
  | origin (o : FullOrigin)
deriving Repr, DecidableEq

/-- One after the other. -/
def Holder.calls : List AttrCall → Holder → Except Panic Holder
  | [], x => .ok x
  | .line n :: l, x => do Holder.calls l (← x.setLine n)
  | .origin o :: l, x => do Holder.calls l (← x.setOrigin o)

/-- The origin set last, if one was. -/
def lastOrigin : List AttrCall → Option FullOrigin
  | [] => none
  | .line _ :: l => lastOrigin l
  | .origin o :: l => some ((lastOrigin l).getD o)

/-- The line set last, by either. -/
def lastLine : List AttrCall → Option Int
  | [] => none
  | .line n :: l => some ((lastLine l).getD n)
  | .origin o :: l => some ((lastLine l).getD o.line)

/-- Was the last call `SetOrigin`? -/
def endsInOrigin : List AttrCall → Bool
  | [] => false
  | [.origin _] => true
  | _ :: l => endsInOrigin l

end Joeson
