import Verif.Model.Go
/-!
# Specifications for helpers/*.go
-/

namespace Joeson.Spec

/-- ECMAScript relative index: negative counts from the end, clamped to `[0, len]`. -/
def jsIndex (len : Nat) (i : Int) : Nat :=
  if i < 0 then (max 0 ((len : Int) + i)).toNat else (min i len).toNat

/-- `String.prototype.slice`: the elements whose index lies in `[from, to)`. -/
def jsSlice (s : List α) (a b : Int) : List α :=
  (s.zipIdx.filter (fun p => decide (jsIndex s.length a ≤ p.2 ∧ p.2 < jsIndex s.length b))).map Prod.fst

/-- Reader of escaped text: `\n`, `\r`, `\t`, `\\`, `\a`, `\f`, `\b`, `\v` denote one byte each. -/
def unescape : Bytes → Bytes
  | 0x5C :: c :: s =>
    (if c = 0x6E then 0x0A else if c = 0x72 then 0x0D else if c = 0x74 then 0x09
     else if c = 0x61 then 0x07 else if c = 0x66 then 0x0C else if c = 0x62 then 0x08
     else if c = 0x76 then 0x0B else c) :: unescape s
  | c :: s => c :: unescape s
  | [] => []

/-- Bytes that must not occur in escaped text: BEL, BS, HT, LF, VT, FF, CR. -/
def isControl (b : UInt8) : Bool := 0x07 ≤ b.toNat && b.toNat ≤ 0x0D

end Joeson.Spec
