import Verif.Proofs.SharedMaps
/-!
# C93: maps given to NewNativeMap
-/

namespace Joeson
open Spec

variable {V : Type}

/-- C93: if Go maps are not used any more once they were given to `NewNativeMap`, then every `NativeMap` has a content of its own: that of the Go map
when it was given, changed by its own `Set` and nothing else. `Keys` lists the keys that exist, each once, and `String` does not panic.
What is missing: programs that do use them, for which it is false, see below. -/
theorem C93_contents_partial (prog : List (MapOp V)) (p : PrivateMaps V) (h : PrivateMaps.run ⟨[], []⟩ prog = some p) :
    ∃ st, MapState.run ⟨[], []⟩ prog = some st ∧ st.objs.length = p.objs.length ∧ ∀ o nm, p.objs[o]? = some nm →
      st.view o = some nm ∧ nm.keys.Nodup ∧ (∀ k, k ∈ nm.keys ↔ nm.exist k = true) ∧ ∀ str, ∃ t, nm.string str = .ok t := by
  obtain ⟨st, h1, h2⟩ := MapInv.init.run h
  refine ⟨st, h1, h2.objsLen, fun o nm ho => ?_⟩
  obtain ⟨a, b⟩ := h2.view o nm ho
  refine ⟨a, b.1, b.2, fun str => ?_⟩
  obtain ⟨t, ht⟩ := (stringLoop_ok str nm nm.keys true).mpr fun k hk => (b.2 k).mp hk
  exact ⟨_, by unfold NativeMap.string; rw [ht]; rfl⟩

/-- `h := {b: 1, a: 2}; delete(h, "b"); h["c"] = 3; x := NewNativeMap(h); y := NewNativeMap({a: 7}); x.Set("b", 4); y.Set("a", 8)` -/
def Sample.carefulMaps : List (MapOp Nat) :=
  [.make [("b", 1), ("a", 2)], .delete 0 "b", .put 0 "c" 3, .wrap 0, .make [("a", 7)], .wrap 1, .set 0 "b" 4, .set 1 "a" 8]

example : (PrivateMaps.run ⟨[], []⟩ Sample.carefulMaps).map (fun p => p.objs.map NativeMap.pairs) =
    some [[("a", 2), ("c", 3), ("b", 4)], [("a", 8)]] := by decide +kernel

theorem view_of {st : MapState V} {o a : Nat} {ks : List String} {g : GoMap V} (ho : st.objs[o]? = some (a, ks)) (hm : st.maps[a]? = some g) :
    st.view o = some ⟨g, ks⟩ := by
  unfold MapState.view
  rw [ho, Option.bind_some]
  dsimp only
  rw [hm]
  rfl

/-- C93, when a key is deleted from the Go map: `Keys` still lists it, `GetOrPanic` panics for it, and `String` panics. -/
theorem C93_deleted (st : MapState V) (o a : Nat) (ks : List String) (g : GoMap V) (ho : st.objs[o]? = some (a, ks)) (hm : st.maps[a]? = some g)
    (k : String) (hk : k ∈ ks) :
    ∃ st' nm, st.step (.delete a k) = some st' ∧ st'.view o = some nm ∧ k ∈ nm.keys ∧ nm.exist k = false ∧ nm.getOrPanic k = .error .noKey ∧
      ∀ str, nm.string str = .error .noKey := by
  have hla : a < st.maps.length := (List.getElem?_eq_some_iff.mp hm).1
  have hg : (g.del k).get k = none := by rw [GoMap.get_del, if_pos rfl]
  have he : (⟨g.del k, ks⟩ : NativeMap V).exist k = false := by unfold NativeMap.exist; rw [hg]; rfl
  refine ⟨{ st with maps := st.maps.set a (g.del k) }, ⟨g.del k, ks⟩, by rw [MapState.step, hm]; rfl, view_of ho (List.getElem?_set_self hla), hk, he, ?_, fun str => ?_⟩
  · unfold NativeMap.getOrPanic; rw [hg]
  · have only : ∀ (m : NativeMap V) (l : List String) (first : Bool) (e : Panic), m.stringLoop str first l = .error e → e = .noKey := by
      intro m l
      induction l with
      | nil => intro first e h; cases h
      | cons x l ih =>
        intro first e h
        rw [NativeMap.stringLoop] at h
        unfold NativeMap.getOrPanic at h
        cases hx : m.vals.get x with
        | none => rw [hx] at h; cases h; rfl
        | some v =>
          rw [hx] at h
          cases hr : m.stringLoop str false l with
          | error e' =>
            rw [hr] at h
            cases h
            exact ih false _ hr
          | ok t => rw [hr] at h; cases h
    unfold NativeMap.string
    cases hs : (⟨g.del k, ks⟩ : NativeMap V).stringLoop str true ks with
    | ok t =>
      have := (stringLoop_ok str ⟨g.del k, ks⟩ ks true).mp ⟨t, hs⟩ k hk
      rw [he] at this
      cases this
    | error e =>
      rw [only _ _ _ _ hs]
      rfl

/-- C93, when a key is added to the Go map: `Get` finds it, `Keys` does not list it, and `String` gives what it gave before. `Set` of that key
then makes it listed. -/
theorem C93_added (st : MapState V) (o a : Nat) (ks : List String) (g : GoMap V) (ho : st.objs[o]? = some (a, ks)) (hm : st.maps[a]? = some g)
    (k : String) (v : V) (hk : k ∉ ks) :
    ∃ st' nm, st.step (.put a k v) = some st' ∧ st'.view o = some nm ∧ nm.get k = some v ∧ k ∉ nm.keys ∧
      (∀ str, nm.string str = (⟨g, ks⟩ : NativeMap V).string str) ∧ ∀ w, (nm.set k w).keys = ks ++ [k] := by
  have hla : a < st.maps.length := (List.getElem?_eq_some_iff.mp hm).1
  refine ⟨{ st with maps := st.maps.set a (g.put k v) }, ⟨g.put k v, ks⟩, by rw [MapState.step, hm]; rfl, view_of ho (List.getElem?_set_self hla), ?_, hk, fun str => ?_, fun w => ?_⟩
  · unfold NativeMap.get; rw [GoMap.get_put, if_pos rfl]
  · unfold NativeMap.string
    dsimp only
    rw [stringLoop_congr str (m := ⟨g.put k v, ks⟩) (m' := ⟨g, ks⟩) ks true fun x hx => ?_]
    dsimp only
    rw [GoMap.get_put, if_neg (by rintro rfl; exact hk hx)]
  · unfold NativeMap.set
    dsimp only
    rw [if_neg]
    intro hc
    obtain ⟨x, hx, e⟩ := List.any_eq_true.mp hc
    rw [beq_iff_eq] at e
    subst e
    exact hk hx

/-- C93, with two `NativeMap`s made of one Go map: what is `Set` in one is what `Get` finds in the other; if the key is new, then the other does
not list it. -/
theorem C93_two_maps (st : MapState V) (o o' a : Nat) (ks ks' : List String) (g : GoMap V) (ho : st.objs[o]? = some (a, ks))
    (ho' : st.objs[o']? = some (a, ks')) (hne : o ≠ o') (hm : st.maps[a]? = some g) (k : String) (v : V) :
    ∃ st' nm nm', st.step (.set o k v) = some st' ∧ st'.view o = some nm ∧ st'.view o' = some nm' ∧ nm.get k = some v ∧ k ∈ nm.keys ∧
      nm'.get k = some v ∧ nm'.keys = ks' := by
  have hla : a < st.maps.length := (List.getElem?_eq_some_iff.mp hm).1
  have hlo : o < st.objs.length := (List.getElem?_eq_some_iff.mp ho).1
  have hg : (g.put k v).get k = some v := by rw [GoMap.get_put, if_pos rfl]
  refine ⟨_, (⟨g, ks⟩ : NativeMap V).set k v, ⟨g.put k v, ks'⟩, by rw [MapState.step, ho, Option.bind_some, hm]; rfl, ?_, ?_, hg, ?_, hg, rfl⟩
  · exact view_of (List.getElem?_set_self hlo) (List.getElem?_set_self hla)
  · exact view_of (a := a) (by dsimp only; rw [List.getElem?_set_ne hne]; exact ho') (List.getElem?_set_self hla)
  · unfold NativeMap.set
    dsimp only
    split
    · rename_i hc
      obtain ⟨x, hx, e⟩ := List.any_eq_true.mp hc
      rw [beq_iff_eq] at e
      subst e
      exact hx
    · simp

/-- `h := {a: 1}; x := NewNativeMap(h); y := NewNativeMap(h)`, and then `delete(h, "a")`, or `h["b"] = 2`, or `x.Set("b", 2)`. -/
example : ((MapState.run (⟨[], []⟩ : MapState Nat) [.make [("a", 1)], .wrap 0, .wrap 0, .delete 0 "a"]).bind (·.view 1)).map (fun m => (m.keys, m.exist "a")) =
      some (["a"], false) ∧
    ((MapState.run (⟨[], []⟩ : MapState Nat) [.make [("a", 1)], .wrap 0, .wrap 0, .put 0 "b" 2]).bind (·.view 1)).map (fun m => (m.keys, m.get "b")) =
      some (["a"], some 2) ∧
    ((MapState.run (⟨[], []⟩ : MapState Nat) [.make [("a", 1)], .wrap 0, .wrap 0, .set 0 "b" 2]).bind (·.view 1)).map (fun m => (m.keys, m.get "b")) =
      some (["a"], some 2) := by
  decide +kernel

example : (match (⟨[("b", 2), ("a", 1)], ["a", "b"]⟩ : NativeMap Nat).string (fun n : Nat => itoa n) with | .ok t => t | .error _ => []) =
    asc "NativeMap{a:1, b:2}" := by decide +kernel

end Joeson
