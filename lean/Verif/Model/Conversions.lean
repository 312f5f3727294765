import Verif.Model.Native
import Verif.Model.TraceOptions
/-!
# Small conversions: helpers/mapsorter.go, native_int.go, ast.go, traceoptions.go, examples/color/color.go
-/

namespace Joeson

/-- One step of an insertion sort. -/
def insertInt (k : Int) : List Int → List Int
  | [] => [k]
  | x :: l => if k ≤ x then k :: x :: l else x :: insertInt k l

/-- `sort.Ints` -/
def sortInts : List Int → List Int
  | [] => []
  | k :: l => insertInt k (sortInts l)

/-- helpers/mapsorter.go:7-14 `SortIntKeys`: the entries are in the order in which `range` comes across them. -/
def sortIntKeys (m : List (Int × V)) : List Int := sortInts (m.map (·.1))

/-- native_int.go:11-17 `NewNativeIntFromBool` -/
def intFromBool (b : Bool) : Int := if b then 1 else 0

/-- native_int.go:54 `NativeInt.Bool` -/
def intToBool (n : Int) : Bool := n != 0

/-- ast.go:40-46 `Origin` -/
structure SourceOrigin where
  code : Bytes
  line : Int
  start : Int
  stop : Int
  rule : Bytes

/-- ast.go:47-49 `Origin.String` -/
def SourceOrigin.string (o : SourceOrigin) : Bytes :=
  asc "Origin=(" ++ itoa o.start ++ asc "," ++ itoa o.stop ++ asc ",'rule=" ++ o.rule ++ asc "')"

/-- examples/color/color.go:21-23 `Color.String` -/
def colorString (r g b : Int) : Bytes :=
  asc "Color is rgb ( " ++ itoa r ++ asc ", " ++ itoa g ++ asc ", " ++ itoa b ++ asc " )"

/-- traceoptions.go:22-30 `TraceOptions.Copy` -/
def TraceOptions.copy (o : TraceOptions) : TraceOptions :=
  { stack := o.stack, loop := o.loop, grammar := o.grammar, filterLine := o.filterLine, skipSetup := o.skipSetup }

end Joeson
