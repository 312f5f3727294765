import Verif.Model.Native
/-!
# What the native values should do
-/

namespace Joeson.Spec
open Joeson
variable {V : Type}

/-- The value a history of assignments leaves for a key: that of the last assignment. -/
def lastSet (hist : List (String × V)) (k : String) : Option V :=
  (hist.reverse.find? fun p => p.1 == k).map (·.2)

/-- Each key once, where it first appears. -/
def firstOnly : List String → List String
  | [] => []
  | k :: l => k :: (firstOnly l).filter fun x => x != k

/-- The map after a history of `Set` calls. -/
def afterSets (m : NativeMap V) (hist : List (String × V)) : NativeMap V :=
  hist.foldl (fun m p => m.set p.1 p.2) m

/-- The number written by a list of decimal digits, most significant first. -/
def decimal : List Nat → Nat
  | [] => 0
  | d :: ds => d * 10 ^ ds.length + decimal ds

/-- The byte of a digit. -/
def digitByte (d : Nat) : UInt8 := UInt8.ofNat (48 + d)

/-- `s` is an optionally signed decimal numeral of value `n`. -/
def Numeral (s : Bytes) (n : Int) : Prop :=
  ∃ sign ds, ds ≠ [] ∧ (∀ d ∈ ds, d < 10) ∧ s = sign ++ ds.map digitByte ∧
    ((sign = [] ∨ sign = asc "+") ∧ n = decimal ds ∨ sign = asc "-" ∧ n = -(decimal ds : Int))

/-- A 64 bit integer. -/
def Fits (n : Int) : Prop := -9223372036854775808 ≤ n ∧ n ≤ 9223372036854775807

mutual
/-- The leaf strings of a value, from left to right; undefined values have none. -/
def leaves (u : UserString) : Ast → List Bytes
  | .undef => []
  | .str s => [s]
  | .int n => [itoa n]
  | .arr l => leavesList u l
  | .map kvs => leavesKvs u kvs
  | .user t l => [u t l]
  | .error msg => [asc "ERROR " ++ msg]
/-- The leaves of the elements. -/
def leavesList (u : UserString) : List Ast → List Bytes
  | [] => []
  | v :: l => leaves u v ++ leavesList u l
/-- The leaves of the values. -/
def leavesKvs (u : UserString) : List (String × Ast) → List Bytes
  | [] => []
  | (_, v) :: l => leaves u v ++ leavesKvs u l
end

/-- A value found inside arrays only. -/
inductive InArrays : List Ast → Ast → Prop
  | here {l v} : v ∈ l → InArrays l v
  | deeper {l l' v} : Ast.arr l' ∈ l → InArrays l' v → InArrays l v

/-- A value found inside maps only. -/
inductive InMaps : List (String × Ast) → Ast → Prop
  | here {kvs k v} : (k, v) ∈ kvs → InMaps kvs v
  | deeper {kvs kvs' k v} : (k, Ast.map kvs') ∈ kvs → InMaps kvs' v → InMaps kvs v

/-- Not one of the `Native*` types. -/
def Foreign : Ast → Prop
  | .user _ _ => True
  | .error _ => True
  | _ => False

end Joeson.Spec
