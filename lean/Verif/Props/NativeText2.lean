import Verif.Props.NativeText
import Verif.Model.SharedMaps
/-!
# C95: `String` of a NativeMap, with its loop over the keys
-/

namespace Joeson
open Spec

/-- C95: `NativeMap.String`, which looks up its keys one by one, writes what `Ast.string` writes for the entries; so that `C95_compare_partial` is about
`NativeMap`s as they are in memory. -/
theorem C95_map (u : UserString) (m : NativeMap Ast) (kvs : List (String × Ast)) (hk : m.keys = kvs.map (·.1)) (hv : ∀ p ∈ kvs, m.get p.1 = some p.2) :
    m.string (Ast.string u) = .ok ((Ast.map kvs).string u) := by
  have go : ∀ (l : List (String × Ast)) (first : Bool), (∀ p ∈ l, m.get p.1 = some p.2) →
      m.stringLoop (Ast.string u) first (l.map (·.1)) = .ok (Ast.stringKvs u first l) := by
    intro l
    induction l with
    | nil => intro first _; rw [Ast.stringKvs]; rfl
    | cons p l ih =>
      intro first h
      obtain ⟨k, v⟩ := p
      have h1 : m.vals.get k = some v := h (k, v) List.mem_cons_self
      have h2 : m.getOrPanic k = .ok v := by unfold NativeMap.getOrPanic; rw [h1]
      rw [List.map_cons, NativeMap.stringLoop, h2, Ast.stringKvs]
      have := ih false (fun p hp => h p (List.mem_cons_of_mem _ hp))
      simp only [bind, Except.bind, this, pure, Except.pure, List.append_assoc]
  unfold NativeMap.string
  rw [hk, go kvs true hv, Ast.string]
  rfl

example : (((NativeMap.new []).set "b" (.int 1)).set "a" (.str (asc "x"))).string (Ast.string fun _ _ => []) =
    .ok ((Ast.map [("b", .int 1), ("a", .str (asc "x"))]).string fun _ _ => []) :=
  C95_map _ _ _ rfl (by intro p hp; simp only [List.mem_cons, List.not_mem_nil, or_false] at hp; rcases hp with rfl | rfl <;> rfl)

end Joeson
