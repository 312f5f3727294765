import Verif.Spec.Values
/-!
# Repetitions of a string

`'x'*`, `'x'+`, `'x'*'y'`, `'x'+'y'`, `'x'{m,n}`, `'x'*'y'{m,n}`: the texts they match.
-/

namespace Joeson.RuleText

/-- `x`, then `n` times `y` and `x`. -/
def joined (x y : Bytes) : Nat → Bytes
  | 0 => x
  | n + 1 => joined x y n ++ y ++ x

/-- The string between quotes. -/
def strOf (l : List Piece) : Bytes := Spec.utf8 (l.map Piece.char)

/-- `StringRep d x y mn mx`: `d` repeats the string `x`, with `y` in between if there is one, at least `mn` times and at most
`mx` times. -/
inductive StringRep : Deco → Bytes → Option Bytes → Nat → Option Nat → Prop
  | star (l r) : StringRep (.star (.str l) r) (strOf l) none (minPat r) (maxPat r)
  | starJoin (l l' r) : StringRep (.starJoin (.str l) (.str l') r) (strOf l) (some (strOf l')) (minPat r) (maxPat r)
  | plus (l) : StringRep (.plus (.str l)) (strOf l) none 1 none
  | plusJoin (l l') : StringRep (.plusJoin (.str l) (.str l')) (strOf l) (some (strOf l')) 1 none
  | times (l r) : StringRep (.times (.str l) r) (strOf l) none (minPat (some r)) (maxPat (some r))

/-- Does the text match, and how many times is `x` in it? A maximum of 0 or 1 counts as 2 (`C31_max_one_matches_two`). -/
def RepText (x y : Bytes) (mn : Nat) (mx : Option Nat) (text : Bytes) (n : Nat) : Prop :=
  mn ≤ n ∧ (∀ m, mx = some m → n ≤ max m 2) ∧ ((n = 0 ∧ text = []) ∨ ∃ k, n = k + 1 ∧ text = joined x y k)

end Joeson.RuleText
