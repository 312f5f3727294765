import Verif.Model.Values
/-!
# native_map.go, native_array.go, native_int.go, native_string.go
-/

namespace Joeson
variable {V : Type}

/-! ## NativeMap -/

/-- A Go `map[string]Ast`: at most one pair per key, in no particular order. -/
abbrev GoMap (V : Type) := List (String × V)

/-- `m[k]`. -/
def GoMap.get (m : GoMap V) (k : String) : Option V := (m.find? fun p => p.1 == k).map (·.2)

/-- `m[k] = v`. -/
def GoMap.put (m : GoMap V) (k : String) (v : V) : GoMap V := (k, v) :: m.filter fun p => p.1 != k

/-- native_map.go:16-20 `NativeMap`, without the `Attr`. -/
structure NativeMap (V : Type) where
  vals : GoMap V
  keys : List String

/-- One step of an insertion sort. -/
def insertString (k : String) : List String → List String
  | [] => [k]
  | x :: l => if k ≤ x then k :: x :: l else x :: insertString k l

/-- `sort.Strings`; the algorithm does not matter, see `sortStrings_spec`. -/
def sortStrings : List String → List String
  | [] => []
  | k :: l => insertString k (sortStrings l)

/-- helpers/mapsorter.go:16-23 `SortStringKeys`: the keys, sorted by `sort.Strings`. -/
def sortStringKeys (m : GoMap V) : List String := sortStrings (m.map (·.1))

namespace NativeMap

/-- native_map.go:23-31 `NewNativeMap`. The Go code keeps the map it is given; later changes of that map by
its owner are in `SharedMaps.lean`. -/
def new (h : GoMap V) : NativeMap V := ⟨h, sortStringKeys h⟩

/-- native_map.go:22 `NewEmptyNativeMap`. -/
def empty : NativeMap V := new []

/-- native_map.go:171-180 `Set`. -/
def set (m : NativeMap V) (k : String) (v : V) : NativeMap V :=
  ⟨m.vals.put k v, if m.keys.any (fun k2 => k == k2) then m.keys else m.keys ++ [k]⟩

/-- native_map.go:84-87 `GetExists`. -/
def getExists (m : NativeMap V) (k : String) : Option V := m.vals.get k

/-- native_map.go:167-169 `Get`: nil when there is no such key. -/
def get (m : NativeMap V) (k : String) : Option V := m.vals.get k

/-- native_map.go:182-185 `Exists`. -/
def exist (m : NativeMap V) (k : String) : Bool := (m.vals.get k).isSome

/-- native_map.go:77-82 `IsEmpty`: the loop returns true if it is entered. -/
def isEmpty (m : NativeMap V) : Bool :=
  match m.vals with
  | _ :: _ => true
  | [] => false

/-- native_map.go:149-155 `GetOrPanic`. -/
def getOrPanic (m : NativeMap V) (k : String) : Except Panic V :=
  match m.vals.get k with
  | some v => .ok v
  | none => .error .noKey

/-- native_map.go:158-165 `GetWhicheverOrPanic`. -/
def getWhicheverOrPanic (m : NativeMap V) : List String → Except Panic V
  | [] => .error .noKey
  | k :: rest => match m.getExists k with
    | some v => .ok v
    | none => m.getWhicheverOrPanic rest

end NativeMap

/-- native_map.go:138-147 `IsUndefined`. -/
def NativeMap.isUndefined (m : NativeMap Ast) (k : String) : Bool :=
  match m.vals.get k with
  | some .undef => true
  | some _ => false
  | none => true

/-- The entries in the order of `Keys()`: how `Ast.map` represents a `*NativeMap`. -/
def NativeMap.pairs (m : NativeMap V) : List (String × V) :=
  m.keys.filterMap fun k => (m.vals.get k).map fun v => (k, v)

/-! ## Integers -/

/-- Go's `strconv.Itoa` on a natural number, least significant digit last. -/
def itoaNat : Nat → Nat → Bytes
  | 0, _ => []
  | f + 1, n => if n < 10 then [UInt8.ofNat (0x30 + n)] else itoaNat f (n / 10) ++ [UInt8.ofNat (0x30 + n % 10)]

/-- Go's `strconv.Itoa`. -/
def itoa (n : Int) : Bytes :=
  if n < 0 then 0x2D :: itoaNat (n.natAbs + 1) n.natAbs else itoaNat (n.natAbs + 1) n.natAbs

/-- The digit loop of `strconv.Atoi`. -/
def atoiDigits : Nat → Bytes → Option Nat
  | acc, [] => some acc
  | acc, b :: rest => if 0x30 ≤ b.toNat ∧ b.toNat ≤ 0x39 then atoiDigits (acc * 10 + (b.toNat - 0x30)) rest else none

/-- A 64 bit `int`. -/
def minInt : Int := -2 ^ 63
/-- A 64 bit `int`. -/
def maxInt : Int := 2 ^ 63 - 1

/-- `strconv.Atoi` after the sign. -/
def atoiSigned (neg : Bool) (ds : Bytes) : Option Int :=
  if ds = [] then none
  else match atoiDigits 0 ds with
    | none => none
    | some n =>
      let v : Int := if neg then -(n : Int) else n
      if minInt ≤ v ∧ v ≤ maxInt then some v else none

/-- Go's `strconv.Atoi` on a 64 bit platform: an optional sign, at least one digit, nothing else, no overflow
(`none` is the error). -/
def atoi (s : Bytes) : Option Int :=
  match s with
  | b :: rest => if b = 0x2D then atoiSigned true rest else if b = 0x2B then atoiSigned false rest else atoiSigned false s
  | [] => atoiSigned false s

/-! ## Strings and concatenation -/

/-- `String()` of values of user types. -/
abbrev UserString := Nat → List Ast → Bytes

/-- The bytes of a key (keys are labels, so text). -/
def keyBytes (k : String) : Bytes := k.toList.flatMap fun c => encodeRune c.toNat

mutual
/-- `String()`: native_undefined.go:19, native_string.go:11, native_int.go:55, native_array.go:39-52,
native_map.go:58-71 (its `GetOrPanic` cannot fail, see `C18_history`), parseerror.go:18-20. -/
def Ast.string (u : UserString) : Ast → Bytes
  | .undef => asc "<NativeUndefined>"
  | .str s => s
  | .int n => itoa n
  | .arr l => asc "[" ++ Ast.stringList u true l ++ asc "]"
  | .map kvs => asc "NativeMap{" ++ Ast.stringKvs u true kvs ++ asc "}"
  | .user t l => u t l
  | .error msg => asc "ERROR " ++ msg
/-- Loop of native_array.go:43-49. -/
def Ast.stringList (u : UserString) : Bool → List Ast → Bytes
  | _, [] => []
  | first, v :: l => (if first then [] else asc ",") ++ v.string u ++ Ast.stringList u false l
/-- Loop of native_map.go:62-68. -/
def Ast.stringKvs (u : UserString) : Bool → List (String × Ast) → Bytes
  | _, [] => []
  | first, (k, v) :: l => (if first then [] else asc ", ") ++ (keyBytes k ++ asc ":" ++ v.string u) ++ Ast.stringKvs u false l
end

mutual
/-- native_array.go:64-78: what an element adds to `NativeArray.Concat`. -/
def Ast.inArray (u : UserString) : Ast → Bytes
  | .str s => s
  | .arr l => Ast.concatArray u l
  | .undef => []
  | .int n => itoa n
  | .map kvs => (Ast.map kvs).string u
  | .user t l => u t l
  | .error msg => (Ast.error msg).string u
/-- native_array.go:64-78 `NativeArray.Concat`. -/
def Ast.concatArray (u : UserString) : List Ast → Bytes
  | [] => []
  | v :: l => v.inArray u ++ Ast.concatArray u l
end

mutual
/-- native_map.go:39-51: what a value adds to `NativeMap.Concat`. -/
def Ast.inMap (u : UserString) : Ast → Except Panic Bytes
  | .map kvs => Ast.concatMap u kvs
  | .arr l => .ok (Ast.concatArray u l)
  | .undef => .ok []
  | .str s => .ok s
  | .int n => .ok (itoa n)
  | .user _ _ => .error .badType
  | .error _ => .error .badType
/-- native_map.go:35-55 `NativeMap.Concat`. -/
def Ast.concatMap (u : UserString) : List (String × Ast) → Except Panic Bytes
  | [] => .ok []
  | (_, v) :: l => do
    let a ← v.inMap u
    let b ← Ast.concatMap u l
    return a ++ b
end

/-- native_int.go:19-25 `NewNativeIntFromString`. -/
def newNativeIntFromString (s : Bytes) : Except Panic Int :=
  match atoi s with
  | some n => .ok n
  | none => .error .notANumber

/-- native_int.go:34-50 `NativeIntFrom`. -/
def nativeIntFrom (u : UserString) : Ast → Except Panic Ast
  | .int n => .ok (.int n)
  | .str s => match atoi s with
    | some n => .ok (.int n)
    | none => .error .notANumber
  | .arr l => do
    let n ← newNativeIntFromString (Ast.concatArray u l)
    return .int n
  | _ => .error .badType

/-- native_string.go:28-39 `NativeStringFrom`. -/
def nativeStringFrom (u : UserString) : Ast → Except Panic Ast
  | .str s => .ok (.str s)
  | .int n => .ok (.str (itoa n))
  | .arr l => .ok (.str (Ast.concatArray u l))
  | _ => .error .badType

/-- native_map.go:93-106 `GetStringExists`. -/
def NativeMap.getStringExists (u : UserString) (m : NativeMap Ast) (k : String) : Except Panic (Bytes × Bool) :=
  match m.vals.get k with
  | some (.str s) => .ok (s, true)
  | some (.arr l) => .ok (Ast.concatArray u l, true)
  | some _ => .error .badType
  | none => .ok ([], false)

/-- native_map.go:111-134 `GetIntExists`. -/
def NativeMap.getIntExists (u : UserString) (m : NativeMap Ast) (k : String) : Except Panic (Int × Bool) :=
  match m.vals.get k with
  | some (.int n) => .ok (n, true)
  | some (.str s) => match atoi s with
    | some n => .ok (n, true)
    | none => .error .notANumber
  | some (.arr l) => match atoi (Ast.concatArray u l) with
    | some n => .ok (n, true)
    | none => .error .notANumber
  | some _ => .error .badType
  | none => .ok (0, false)

end Joeson
