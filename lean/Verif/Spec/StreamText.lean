import Verif.Spec.Report
import Verif.Model.Native
/-!
# How a place in a text is shown
-/

namespace Joeson.Spec
open Joeson

/-- The number of the place, the length of the text, what is before the place and what is after it. -/
def placeShown (text : Bytes) (p : Nat) : Bytes :=
  asc "Code at offset " ++ itoa p ++ asc "/" ++ itoa text.length ++ asc ": '" ++ between text (p - 20) p ++ asc "|" ++ between text p (p + 40) ++ asc "'"

/-- A line in which tabs and blanks can be seen. -/
def visible (l : Bytes) : Bytes := l.flatMap fun b => if b = 0x09 then asc "<TAB>" else if b = 0x20 then asc "_" else [b]

end Joeson.Spec
