import Verif.Model.Values
/-!
# Values with maps as pointers

`*NativeMap` (native_map.go:16-20) is a pointer: two values may share a map, and whoever calls `Set` changes it
for both. Here a map is an address in a store. Other values are as in `Values.lean`: strings, integers, undefined
are never changed by the engine, and arrays are filled before they are handed out (parser_sequence.go:137-149,
parser_pattern.go:89-124). The origin of a value (packrat.go:280-286, "only for debugging") is not recorded.
-/

namespace Joeson

/-- Values, with maps by address. -/
inductive Val where
  /-- native_undefined.go:9-12 -/
  | undef
  /-- native_string.go:8 -/
  | str (s : Bytes)
  /-- native_int.go:8 -/
  | int (n : Int)
  /-- native_array.go:25 -/
  | arr (l : List Val)
  /-- a `*NativeMap`, native_map.go:16-20 -/
  | ref (a : Nat)
  /-- a user type -/
  | user (tag : Nat) (l : List Val)
  /-- parseerror.go:11-15 -/
  | error (msg : Bytes)

/-- The maps made so far. Cells from `next` on are not in use. -/
structure Store where
  next : Nat
  cells : Nat → List (String × Val)

/-- No maps. -/
def Store.empty : Store := ⟨0, fun _ => []⟩

/-- `NewNativeMap` (native_map.go:24-38) and `NewEmptyNativeMap`: a new cell. -/
def Store.alloc (h : Store) (kvs : List (String × Val)) : Store :=
  ⟨h.next + 1, fun b => if b = h.next then kvs else h.cells b⟩

/-- Assignment to the map at `a`. -/
def Store.put (h : Store) (a : Nat) (kvs : List (String × Val)) : Store :=
  ⟨h.next, fun b => if b = a then kvs else h.cells b⟩

/-- The assertion `value.(NativeString)`, parser_sequence.go:232. -/
def Val.isStr : Val → Bool
  | .str _ => true
  | _ => false

/-- parser_sequence.go:209-251 `merge`, on maps by address; the map extended is changed in place. -/
def Val.merge (toExtend newcomer : Val) (h : Store) : Except Panic (Val × Store) :=
  match newcomer with
  | .undef => .ok (toExtend, h)
  | .ref b => match toExtend with
    | .ref a => .ok (.ref a, h.put a ((h.cells b).foldl (fun m p => kvSet p.1 p.2 m) (h.cells a)))
    | .undef => if (h.cells b).all (fun p => p.1 == "label" && p.2.isStr) then .ok (.undef, h) else .error .assertion
    | _ => .error .assertion
  | _ => .error .assertion

/-- The operations on values with maps by address; the callbacks are given. -/
def heapOps (cb : Nat → Val → Nat → Store → Except Panic (Option Val × Store)) : Ops Val Store where
  str b := .str b
  undef := .undef
  isUndef v := match v with | .undef => true | _ => false
  arr l h := (.arr l, h)
  -- packrat.go:268, parser_sequence.go:178-179
  newMap k v h := (.ref h.next, h.alloc [(k, v)])
  -- parser_sequence.go:181-185
  mapSet r k v h := match r with
    | .ref a => .ok (.ref a, h.put a (kvSet k v (h.cells a)))
    | _ => .error .assertion
  merge := Val.merge
  cb := cb
  origin v _ h := (v, h)

end Joeson
