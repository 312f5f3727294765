import Verif.Spec.Native
/-!
# What the TRACE variable means
-/

namespace Joeson.Spec
open Joeson

/-- `line=N` or `filterline=N`. -/
def LineWord (v : Bytes) (n : Int) : Prop :=
  ∃ s, (v = asc "line=" ++ s ∨ v = asc "filterline=" ++ s) ∧ Numeral s n ∧ Fits n

/-- The words of TRACE. -/
def Recognised (v : Bytes) : Prop :=
  v ∈ [asc "none", asc "stack", asc "loop", asc "skipsetup", asc "grammar", asc "all"] ∨ ∃ n, LineWord v n

/-- A word of the list meets `p`, and none of the words after it is one of `resets`. -/
def LastSay (ws : List Bytes) (p : Bytes → Prop) (resets : List Bytes) : Prop :=
  ∃ pre v post, ws = pre ++ v :: post ∧ p v ∧ ∀ x ∈ post, x ∉ resets

/-- Words joined by commas. -/
def commas : List Bytes → Bytes
  | [] => []
  | [w] => w
  | w :: ws => w ++ asc "," ++ commas ws

end Joeson.Spec
