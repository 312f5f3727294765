import Verif.Spec.Native
/-!
# Values that can be told apart by their printed form
-/

namespace Joeson.Spec
open Joeson

/-- The signs `[ ] , { } : < >`. -/
def signs : List UInt8 := [0x5B, 0x5D, 0x2C, 0x7B, 0x7D, 0x3A, 0x3C, 0x3E]

/-- There are none of these signs in the text. -/
def NoSigns (s : Bytes) : Prop := ∀ b ∈ s, b ∉ signs

mutual
/-- Native values only; no string is empty, contains a sign, or is a number; no key contains a sign; integers fit in 64 bits. -/
def Readable : Ast → Prop
  | .undef => True
  | .str s => s ≠ [] ∧ NoSigns s ∧ ∀ n, ¬ Numeral s n
  | .int n => Fits n
  | .arr l => ReadableList l
  | .map kvs => ReadableKvs kvs
  | .user _ _ => False
  | .error _ => False
def ReadableList : List Ast → Prop
  | [] => True
  | v :: l => Readable v ∧ ReadableList l
def ReadableKvs : List (String × Ast) → Prop
  | [] => True
  | (k, v) :: l => NoSigns (keyBytes k) ∧ Readable v ∧ ReadableKvs l
end

mutual
/-- How values are printed: `Prints v s`. -/
inductive Prints : Ast → Bytes → Prop
  | undef : Prints .undef (asc "<NativeUndefined>")
  | str {s : Bytes} : Prints (.str s) s
  | int {n : Int} {s : Bytes} : s = itoa n → Prints (.int n) s
  | arr {l : List Ast} {ts : List Bytes} : PrintsAll l ts → Prints (.arr l) (asc "[" ++ (asc ",").intercalate ts ++ asc "]")
  | map {kvs : List (String × Ast)} {ts : List Bytes} : PrintsKvs kvs ts → Prints (.map kvs) (asc "NativeMap{" ++ (asc ", ").intercalate ts ++ asc "}")
  | error {msg : Bytes} : Prints (.error msg) (asc "ERROR " ++ msg)
inductive PrintsAll : List Ast → List Bytes → Prop
  | nil : PrintsAll [] []
  | cons {v : Ast} {s : Bytes} {l : List Ast} {ts : List Bytes} : Prints v s → PrintsAll l ts → PrintsAll (v :: l) (s :: ts)
inductive PrintsKvs : List (String × Ast) → List Bytes → Prop
  | nil : PrintsKvs [] []
  | cons {k : String} {v : Ast} {s : Bytes} {l : List (String × Ast)} {ts : List Bytes} : Prints v s → PrintsKvs l ts →
      PrintsKvs ((k, v) :: l) ((keyBytes k ++ asc ":" ++ s) :: ts)
end

end Joeson.Spec
