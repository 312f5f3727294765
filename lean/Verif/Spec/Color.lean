import Verif.Spec.Readme
import Verif.Model.Color
/-!
# The texts of the color example

What the grammar is for: names, `rgb(r, g, b)` and `hsl(h, s%, l%)`.
-/

namespace Joeson
open RuleText hiding decimal
open Arith

/-- Blanks. -/
def IsGap (w : Bytes) : Prop := ∀ c ∈ w, c = 0x20 ∨ c = 0x09

/-- Blanks and commas, at least one. -/
def IsComma (w : Bytes) : Prop := w ≠ [] ∧ ∀ c ∈ w, c = 0x20 ∨ c = 0x2C

/-- A number that fits in an `int`. Numbers do not begin with 0, and are not 0. -/
def IsNum (ds : Bytes) (n : Nat) : Prop := IsId ds ∧ n = decimal ds ∧ n < 2 ^ 63

/-- The texts, and the colors they stand for. (Whatever the numbers, `hslToRgb` gives the same color.) -/
inductive ColorText : Bytes → Int → Int → Int → Prop
  | red : ColorText (asc "red") 255 0 0
  | green : ColorText (asc "green") 0 255 0
  | blue : ColorText (asc "blue") 0 0 255
  | rgb {w1 w2 d1 c1 d2 c2 d3 w3 : Bytes} {r g b : Nat} : IsGap w1 → IsGap w2 → IsNum d1 r → IsComma c1 → IsNum d2 g → IsComma c2 → IsNum d3 b → IsGap w3 →
      ColorText (asc "rgb" ++ (w1 ++ (asc "(" ++ (w2 ++ (d1 ++ (c1 ++ (d2 ++ (c2 ++ (d3 ++ (w3 ++ asc ")")))))))))) r g b
  | hsl {w1 w2 d1 w3 w4 d2 w5 w6 d3 w7 : Bytes} {h s l : Nat} : IsGap w1 → IsGap w2 → IsNum d1 h → IsGap w3 → IsGap w4 → IsNum d2 s → IsGap w5 → IsGap w6 → IsNum d3 l → IsGap w7 →
      ColorText (asc "hsl" ++ (w1 ++ (asc "(" ++ (w2 ++ (d1 ++ (w3 ++ (asc "," ++ (w4 ++ (d2 ++ (asc "%" ++ (w5 ++ (asc "," ++ (w6 ++ (d3 ++ (asc "%" ++ (w7 ++ asc ")"))))))))))))))))
        12 23 34

/-- The texts in which such a number is met, whatever comes after it. -/
inductive ColorPanic : Bytes → Prop
  | rgb1 {w1 w2 d s : Bytes} : IsGap w1 → IsGap w2 → IsBig d → ColorPanic (asc "rgb" ++ (w1 ++ (asc "(" ++ (w2 ++ (d ++ s)))))
  | rgb2 {w1 w2 d1 c1 d s : Bytes} {n1 : Nat} : IsGap w1 → IsGap w2 → IsNum d1 n1 → IsComma c1 → IsBig d → ColorPanic (asc "rgb" ++ (w1 ++ (asc "(" ++ (w2 ++ (d1 ++ (c1 ++ (d ++ s)))))))
  | rgb3 {w1 w2 d1 c1 d2 c2 d s : Bytes} {n1 n2 : Nat} : IsGap w1 → IsGap w2 → IsNum d1 n1 → IsComma c1 → IsNum d2 n2 → IsComma c2 → IsBig d →
      ColorPanic (asc "rgb" ++ (w1 ++ (asc "(" ++ (w2 ++ (d1 ++ (c1 ++ (d2 ++ (c2 ++ (d ++ s)))))))))
  | hsl1 {w1 w2 d s : Bytes} : IsGap w1 → IsGap w2 → IsBig d → ColorPanic (asc "hsl" ++ (w1 ++ (asc "(" ++ (w2 ++ (d ++ s)))))
  | hsl2 {w1 w2 d1 w3 w4 d s : Bytes} {n1 : Nat} : IsGap w1 → IsGap w2 → IsNum d1 n1 → IsGap w3 → IsGap w4 → IsBig d →
      ColorPanic (asc "hsl" ++ (w1 ++ (asc "(" ++ (w2 ++ (d1 ++ (w3 ++ (asc "," ++ (w4 ++ (d ++ s)))))))))
  | hsl3 {w1 w2 d1 w3 w4 d2 w5 w6 d s : Bytes} {n1 n2 : Nat} : IsGap w1 → IsGap w2 → IsNum d1 n1 → IsGap w3 → IsGap w4 → IsNum d2 n2 → IsGap w5 → IsGap w6 → IsBig d →
      ColorPanic (asc "hsl" ++ (w1 ++ (asc "(" ++ (w2 ++ (d1 ++ (w3 ++ (asc "," ++ (w4 ++ (d2 ++ (asc "%" ++ (w5 ++ (asc "," ++ (w6 ++ (d ++ s))))))))))))))

end Joeson
