import Verif.Model.Values
/-!
# What labels, `@` and `&` contribute to the result of a sequence

Entries in order of increasing priority: of two with the same key the later one counts.
-/

namespace Joeson.Spec
open Joeson

/-- The entries of a map. -/
def entriesOf : Ast → List (String × Ast)
  | .map kvs => kvs
  | _ => []

/-- What one item adds to the entries so far: a labelled item is an entry, `@` adds the entries of the item above those
there are, `&` below those there are. -/
def contribute (label : String) (v : Ast) (old : List (String × Ast)) : List (String × Ast) :=
  if label = "@" then old ++ entriesOf v
  else if label = "&" then entriesOf v ++ old
  else if label = "" then old
  else old ++ [(label, v)]

/-- All items, given by label and value. -/
def contributions (items : List (String × Ast)) : List (String × Ast) :=
  items.foldl (fun old x => contribute x.1 x.2 old) []

/-- The value of a key: the last one counts. -/
def lastOf (key : String) (l : List (String × Ast)) : Option Ast := ((l.filter (·.1 == key)).map (·.2)).getLast?

/-- `@` merges maps and optional maps, `&` maps. The keys of a map are distinct. -/
def Mergeable (label : String) (v : Ast) : Prop :=
  (label = "@" → v = .undef ∨ ∃ kvs, v = .map kvs ∧ (kvs.map (·.1)).Nodup) ∧
  (label = "&" → ∃ kvs, v = .map kvs ∧ (kvs.map (·.1)).Nodup)

end Joeson.Spec
