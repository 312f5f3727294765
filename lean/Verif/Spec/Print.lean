import Verif.Spec.RuleText
/-!
# Parsers whose printed form is a rule text
-/

namespace Joeson.Spec
open Joeson RuleText

/-- Characters that can be in a string: all but the single quote, the control characters that have an escape like `\n`,
and the characters terminals take for the beginning of an escape sequence. -/
def PlainChar (c : Nat) : Prop := Scalar c ∧ c ≠ 0x27 ∧ c ≠ 0x1B ∧ c ≠ 0x9B ∧ ¬ (7 ≤ c ∧ c ≤ 13)

/-- Not given, or a number that fits. -/
def BoundOk (m : Int) : Prop := m = -1 ∨ (0 ≤ m ∧ m < 2 ^ 63)

/-- How parsers can be nested without parentheses in between. -/
inductive Level where
  /-- operands of `?`, `*` and `!` -/
  | prim
  /-- with an operator -/
  | deco
  /-- with a label: elements of sequences and choices, whole texts -/
  | item

/-- `Printable lv k n`: the printed form of `n` can be read back at the level `lv`, and nests at most `k` parentheses. -/
inductive Printable : Level → Nat → Node → Prop
  | str {k : Nat} {cs : List Nat} : (∀ c ∈ cs, PlainChar c) → Printable .prim k (mkStr (utf8 cs))
  | ref {k : Nat} {w : Bytes} : Word w → Printable .prim k (mkRef (nameOf w) (w.head? == some 0x5F))
  | seq {k : Nat} {l : List Node} : 2 ≤ l.length → (∀ n ∈ l, Printable .item k n) → Printable .prim (k + 1) (mkSeq l)
  | choice {k : Nat} {l : List Node} : 2 ≤ l.length → (∀ n ∈ l, Printable .item k n) → Printable .prim (k + 1) (mkChoice l)
  | look {k : Nat} {n : Node} : Printable .item k n → Printable .prim (k + 2) (mkLook n)
  | prim {k : Nat} {n : Node} : Printable .prim k n → Printable .deco k n
  | exist {k : Nat} {n : Node} : Printable .prim k n → Printable .deco k (mkExist n)
  | not {k : Nat} {n : Node} : Printable .prim k n → Printable .deco k (mkNot n)
  | pattern {k : Nat} {n : Node} {mn mx : Int} : Printable .prim k n → BoundOk mn → BoundOk mx →
      Printable .deco k (mkPattern n none mn mx)
  | patternJoin {k : Nat} {n j : Node} {mn mx : Int} : Printable .prim k n → Printable .prim k j → BoundOk mn → BoundOk mx →
      Printable .deco k (mkPattern n (some j) mn mx)
  | item {k : Nat} {n : Node} {lab : Option Bytes} : Printable .deco k n → LabOk lab → Printable .item k (labelled lab n)

end Joeson.Spec
