import Verif.Spec.TokenStream
/-!
# Reading tokens off a text

As a person would who knows no operators: words and runs of other characters.
-/

namespace Joeson.Spec

/-- Letters, digits and `_`. -/
def wordChar (b : UInt8) : Bool := b ∈ asc "abcdefghijklmnopqrstuvwxyzABCDEFGHIJKLMNOPQRSTUVWXYZ0123456789_"

/-- A blank, part of a word, or something else. -/
def charKind (b : UInt8) : Nat := if b = 0x20 then 0 else if wordChar b then 1 else 2

/-- The longest runs of characters of one kind. -/
def runs : Bytes → List Bytes
  | [] => []
  | b :: s => match runs s with
    | (c :: r) :: rs => if charKind b = charKind c then (b :: c :: r) :: rs else [b] :: (c :: r) :: rs
    | rs => [b] :: rs

/-- The runs that are not blanks. -/
def readTokens (s : Bytes) : List Bytes := (runs s).filter fun r => r.head?.map charKind != some 0

/-- An identifier, a keyword or a number without a dot: it has a literal. -/
def IsWordTok (t : ScanTok) : Prop := t.lit ≠ [] ∧ ∀ b ∈ t.lit, wordChar b = true

/-- An operator, a bracket or a semicolon: characters of no words, and no blanks. -/
def IsSignTok (t : ScanTok) : Prop := scanText t ≠ [] ∧ ∀ b ∈ scanText t, charKind b = 2

/-- Words and signs, and no two signs next to each other. -/
def Spaced : List ScanTok → Prop
  | [] => True
  | [t] => IsWordTok t ∨ IsSignTok t
  | t :: t' :: l => (IsWordTok t ∨ IsSignTok t) ∧ (IsWordTok t ∨ IsWordTok t') ∧ Spaced (t' :: l)

/-- The same tokens, wherever they are. -/
def SameTokens (l l' : List ScanTok) : Prop :=
  l.map (fun t => (t.tokStr, t.lit, t.isComma)) = l'.map (fun t => (t.tokStr, t.lit, t.isComma))

end Joeson.Spec
