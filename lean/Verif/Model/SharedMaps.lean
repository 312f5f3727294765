import Verif.Model.Native
/-!
# Go maps that are shared

`NewNativeMap` keeps the Go map it is given (native_map.go:23-31), and notes its keys at that moment. The caller may go on using that map, or give it
to `NewNativeMap` again. Here Go maps are variables of their own.
-/

namespace Joeson

/-- `delete(m, k)`. -/
def GoMap.del (m : GoMap V) (k : String) : GoMap V := m.filter fun p => p.1 != k

/-- The Go maps of a program, and its `NativeMap`s: which Go map is in the field `vals`, and the field `keys` (native_map.go:16-20). -/
structure MapState (V : Type) where
  maps : List (GoMap V)
  objs : List (Nat × List String)

/-- Statements. Those that make something new add it at the end. -/
inductive MapOp (V : Type) where
  /-- `h := map[string]Ast{…}` -/
  | make (l : List (String × V))
  /-- `h[k] = v` -/
  | put (m : Nat) (k : String) (v : V)
  /-- `delete(h, k)` -/
  | delete (m : Nat) (k : String)
  /-- `nm := NewNativeMap(h)`, native_map.go:23-31 -/
  | wrap (m : Nat)
  /-- `nm.Set(k, v)`, native_map.go:171-180 -/
  | set (o : Nat) (k : String) (v : V)

/-- The `NativeMap` with the number `o`, as its methods see it. -/
def MapState.view (st : MapState V) (o : Nat) : Option (NativeMap V) :=
  (st.objs[o]?).bind fun p => (st.maps[p.1]?).map fun h => ⟨h, p.2⟩

/-- One statement; `none` if it names no variable. `Set` writes to the map in `vals`, whoever else has it. -/
def MapState.step (st : MapState V) : MapOp V → Option (MapState V)
  | .make l => some { st with maps := st.maps ++ [l.foldl (fun h p => GoMap.put h p.1 p.2) []] }
  | .put m k v => (st.maps[m]?).map fun h => { st with maps := st.maps.set m (GoMap.put h k v) }
  | .delete m k => (st.maps[m]?).map fun h => { st with maps := st.maps.set m (GoMap.del h k) }
  | .wrap m => (st.maps[m]?).map fun h => { st with objs := st.objs ++ [(m, (NativeMap.new h).keys)] }
  | .set o k v => (st.objs[o]?).bind fun p => (st.maps[p.1]?).map fun h =>
    ⟨st.maps.set p.1 ((⟨h, p.2⟩ : NativeMap V).set k v).vals, st.objs.set o (p.1, ((⟨h, p.2⟩ : NativeMap V).set k v).keys)⟩

/-- A program, statement by statement. -/
def MapState.run (st : MapState V) : List (MapOp V) → Option (MapState V)
  | [] => some st
  | op :: l => (st.step op).bind fun st' => st'.run l

/-- native_map.go:62-69: the loop of `String`, with `GetOrPanic` for each key -/
def NativeMap.stringLoop (str : V → Bytes) (m : NativeMap V) : Bool → List String → Except Panic Bytes
  | _, [] => .ok []
  | first, k :: ks => do
    let v ← m.getOrPanic k
    let rest ← m.stringLoop str false ks
    return (if first then [] else asc ", ") ++ keyBytes k ++ asc ":" ++ str v ++ rest

/-- native_map.go:58-72 `String` -/
def NativeMap.string (str : V → Bytes) (m : NativeMap V) : Except Panic Bytes := do
  return asc "NativeMap{" ++ (← m.stringLoop str true m.keys) ++ asc "}"

end Joeson
