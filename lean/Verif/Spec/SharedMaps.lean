import Verif.Model.SharedMaps
/-!
# Maps that are not shared

Every `NativeMap` with a content of its own, and the programs for which that is what happens.
-/

namespace Joeson.Spec

/-- Go maps that the program may still use, and `NativeMap`s. -/
structure PrivateMaps (V : Type) where
  maps : List (Option (GoMap V))
  objs : List (NativeMap V)

/-- Careful statements: a Go map that was given to `NewNativeMap` is not used any more. -/
def PrivateMaps.step {V : Type} (st : PrivateMaps V) : MapOp V → Option (PrivateMaps V)
  | .make l => some { st with maps := st.maps ++ [some (l.foldl (fun h p => GoMap.put h p.1 p.2) [])] }
  | .put m k v => (st.maps[m]?).join.map fun h => { st with maps := st.maps.set m (some (GoMap.put h k v)) }
  | .delete m k => (st.maps[m]?).join.map fun h => { st with maps := st.maps.set m (some (GoMap.del h k)) }
  | .wrap m => (st.maps[m]?).join.map fun h => ⟨st.maps.set m none, st.objs ++ [NativeMap.new h]⟩
  | .set o k v => (st.objs[o]?).map fun nm => { st with objs := st.objs.set o (nm.set k v) }

/-- A careful program. -/
def PrivateMaps.run {V : Type} (st : PrivateMaps V) : List (MapOp V) → Option (PrivateMaps V)
  | [] => some st
  | op :: l => (st.step op).bind fun st' => PrivateMaps.run st' l

end Joeson.Spec
