import Verif.Model.Utf8
/-!
# Specification vocabulary for text: code points and newline counting

Independent of the decoder of the model.
-/

namespace Joeson.Spec

/-- A Unicode scalar value: the code points a UTF-8 text can contain. -/
def Scalar (r : Nat) : Prop := r < 0xD800 ∨ (0xE000 ≤ r ∧ r ≤ 0x10FFFF)

instance (r : Nat) : Decidable (Scalar r) := inferInstanceAs (Decidable (_ ∨ _))

/-- RFC 3629 encoding of one scalar value, written as byte values. -/
def utf8Nat (r : Nat) : List Nat :=
  if r < 0x80 then [r]
  else if r < 0x800 then [0xC0 + r / 0x40, 0x80 + r % 0x40]
  else if r < 0x10000 then [0xE0 + r / 0x1000, 0x80 + r / 0x40 % 0x40, 0x80 + r % 0x40]
  else [0xF0 + r / 0x40000, 0x80 + r / 0x1000 % 0x40, 0x80 + r / 0x40 % 0x40, 0x80 + r % 0x40]

/-- The UTF-8 text made of the code points `rs`. -/
def utf8 (rs : List Nat) : Bytes := rs.flatMap (fun r => (utf8Nat r).map UInt8.ofNat)

/-- Number of newline bytes in a text. -/
def newlines (s : Bytes) : Nat := s.count 0x0A

/-- Bytes after the last newline of `s` (all of `s` when there is none). -/
def afterLastNewline (s : Bytes) : Bytes := (s.reverse.takeWhile (· ≠ 0x0A)).reverse

/-- The lines of a text: pieces between newline bytes. -/
def lines : Bytes → List Bytes
  | [] => [[]]
  | b :: s =>
    if b = 0x0A then [] :: lines s
    else match lines s with
      | l :: ls => (b :: l) :: ls
      | [] => [[b]]

/-- Lines joined back with newlines. -/
def joinLines : List Bytes → Bytes
  | [] => []
  | [l] => l
  | l :: ls => l ++ 0x0A :: joinLines ls

/-- `a` is the text before the first occurrence of `e` in `s`. -/
def FirstOccurrence (e s a : Bytes) : Prop :=
  (∃ b, s = a ++ e ++ b) ∧ ∀ a' b', s = a' ++ e ++ b' → a.length ≤ a'.length

end Joeson.Spec
