import Verif.Model.Go
/-!
# Texts with colours
-/

namespace Joeson.Spec
open Joeson

/-- The escape sequences that switch a colour on, and the one that switches it off. -/
def colourCodes : List String :=
  ["[30m", "[31m", "[32m", "[33m", "[34m", "[35m", "[36m", "[37m",
   "[1;30m", "[1;31m", "[1;32m", "[1;33m", "[1;34m", "[1;35m", "[1;36m", "[1;37m", "[1m", "[0m"]

/-- `Coloured a p`: `a` is the text `p` with escape sequences for colours inserted, anywhere and any number of them. -/
inductive Coloured : Bytes → Bytes → Prop
  | nil : Coloured [] []
  | char {a p : Bytes} (b : UInt8) : Coloured a p → Coloured (b :: a) (b :: p)
  | code {a p : Bytes} {c : String} : c ∈ colourCodes → Coloured a p → Coloured (0x1B :: asc c ++ a) p

/-- The text contains neither the character escape nor its 8 bit variant U+009B (bytes C2 9B), nor the bell. -/
def NoEscapes (p : Bytes) : Prop := 0x1B ∉ p ∧ 0x07 ∉ p ∧ ¬ [0xC2, 0x9B] <:+: p

end Joeson.Spec
