import Verif.Model.Engine
import Mathlib.Data.List.SplitOn
/-!
# Reading the table of rules

As a person would: a row is a line, and its columns begin at fixed places.
-/

namespace Joeson.Spec

/-- Without the blanks at the end. -/
def trimEnd (b : Bytes) : Bytes := (b.reverse.dropWhile (· = 0x20)).reverse

/-- The columns of these widths, and what is left, with one byte between them. -/
def readCells : List Nat → Bytes → List Bytes
  | [], b => [trimEnd b]
  | w :: ws, b => trimEnd (b.take w) :: readCells ws (b.drop (w + 1))

/-- Name, number, type, captured or not, label, labels, name of the parent, content; after four bytes of margin. -/
def readRow (line : Bytes) : List Bytes := readCells [14, 3, 20, 3, 7, 21, 16] (line.drop 4)

/-- There are seven lines before the rows, and one after them; it ends with a newline. -/
def readTable (out : Bytes) : List (List Bytes) := ((out.splitOn 0x0A).drop 7).dropLast.dropLast.map readRow

/-- A text that fits in a column, and does not look different there. -/
structure CellFits (width : Nat) (b : Bytes) : Prop where
  short : b.length ≤ width
  noBlank : b.getLast? ≠ some 0x20

/-- The labels a parser brings into a sequence: its own, if any; those of its parts, if it is a sequence or an optional without a
label; those of the rule it refers to, if it is labelled `@`. -/
inductive LabelsOf (lookup : String → Option Nat) (rules : List Node) : Node → List String → Prop
  | none {n} : n.info.label = "" → (∀ i r l, n ≠ .seq i r l) → (∀ i m, n ≠ .exist i m) → LabelsOf lookup rules n []
  | own {n} : n.info.label ≠ "" → (∀ i r l, n ≠ .seq i r l) → (∀ i m, n = .exist i m → i.label ≠ "@" ∧ i.label ≠ "&") →
      (∀ i nm, n = .ref i nm → i.label ≠ "@") → LabelsOf lookup rules n [n.info.label]
  | opt {i m l} : (i.label = "" ∨ i.label = "@" ∨ i.label = "&") → LabelsOf lookup rules m l → LabelsOf lookup rules (.exist i m) l
  | seqEnd {i r} : LabelsOf lookup rules (.seq i r []) []
  | seqNext {i r n l a b} : LabelsOf lookup rules n a → LabelsOf lookup rules (.seq i r l) b → LabelsOf lookup rules (.seq i r (n :: l)) (a ++ b)
  | merged {i nm id n l} : i.label = "@" → lookup nm = some id → rules[id]? = some n → LabelsOf lookup rules n l →
      LabelsOf lookup rules (.ref i nm) l

end Joeson.Spec
