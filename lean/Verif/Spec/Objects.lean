import Verif.Model.Objects
/-! # Which objects a parser is made of -/

namespace Joeson

mutual
/-- The objects of a parser, itself included. -/
def Obj.addrs : Obj → List Nat
  | .mk a kids => a :: addrsAll kids
/-- Of all of them. -/
def addrsAll : List Obj → List Nat
  | [] => []
  | x :: l => x.addrs ++ addrsAll l
end

/-- The objects that lines are made of. -/
def lineAddrs (lines : List (Obj × String × Option Nat)) : List Nat := addrsAll (lines.map (·.1))

end Joeson
