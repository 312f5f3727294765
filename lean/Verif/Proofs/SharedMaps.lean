import Verif.Spec.SharedMaps
import Verif.Props.Native
/-!
# Lemmas about Go maps that are shared or not
-/

namespace Joeson
open Spec

variable {V : Type}

theorem GoMap.get_del (m : GoMap V) (k l : String) : (m.del k).get l = if l = k then none else m.get l := by
  unfold GoMap.get GoMap.del
  by_cases h : l = k
  · subst h
    rw [if_pos rfl, List.find?_eq_none.mpr]
    · rfl
    · intro p hp
      have := (List.mem_filter.mp hp).2
      simp only [bne_iff_ne, ne_eq] at this
      simpa using this
  · rw [if_neg h, List.find?_filter]
    congr 2
    funext p
    by_cases e : p.1 = l
    · simp [e, h]
    · simp [e]

theorem GoMap.nodup_put {m : GoMap V} (h : (m.map (·.1)).Nodup) (k : String) (v : V) : ((m.put k v).map (·.1)).Nodup := by
  unfold GoMap.put
  rw [List.map_cons, List.nodup_cons]
  refine ⟨?_, ?_⟩
  · intro hm
    obtain ⟨p, hp, e⟩ := List.mem_map.mp hm
    have := (List.mem_filter.mp hp).2
    simp only [bne_iff_ne, ne_eq] at this
    exact this e
  · exact h.sublist (List.filter_sublist.map _)

theorem GoMap.nodup_del {m : GoMap V} (h : (m.map (·.1)).Nodup) (k : String) : ((m.del k).map (·.1)).Nodup :=
  h.sublist (List.filter_sublist.map _)

theorem GoMap.nodup_make (l : List (String × V)) : ∀ {m : GoMap V}, (m.map (·.1)).Nodup →
    ((l.foldl (fun h p => GoMap.put h p.1 p.2) m).map (·.1)).Nodup := by
  induction l with
  | nil => exact fun h => h
  | cons p l ih => exact fun h => ih (GoMap.nodup_put h _ _)

/-- Variables and contents agree. -/
structure MapInv (st : MapState V) (p : PrivateMaps V) : Prop where
  mapsLen : st.maps.length = p.maps.length
  objsLen : st.objs.length = p.objs.length
  /-- the maps that may still be used -/
  free : ∀ (m : Nat) (h : GoMap V), p.maps[m]? = some (some h) → st.maps[m]? = some h ∧ (h.map (·.1)).Nodup
  /-- the map of a `NativeMap` is not one of them -/
  given : ∀ (o : Nat) (q : Nat × List String), st.objs[o]? = some q → p.maps[q.1]? = some none
  view : ∀ (o : Nat) (nm : NativeMap V), p.objs[o]? = some nm → st.view o = some nm ∧ nm.Consistent
  /-- nor that of another -/
  sep : ∀ (o o' : Nat) (q q' : Nat × List String), st.objs[o]? = some q → st.objs[o']? = some q' → q.1 = q'.1 → o = o'

theorem MapInv.init : MapInv (V := V) ⟨[], []⟩ ⟨[], []⟩ :=
  ⟨rfl, rfl, fun _ _ h => by simp at h, fun _ _ h => by simp at h, fun _ _ h => by simp at h, fun _ _ _ _ h => by simp at h⟩

theorem join_some {β : Type} {x : Option (Option β)} {b : β} (h : x.join = some b) : x = some (some b) := by
  rcases x with _ | _ | x
  · cases h
  · cases h
  · cases h; rfl

theorem view_congr {st st' : MapState V} {o : Nat} (h1 : st'.objs[o]? = st.objs[o]?)
    (h2 : ∀ q, st.objs[o]? = some q → st'.maps[q.1]? = st.maps[q.1]?) : st'.view o = st.view o := by
  unfold MapState.view
  rw [h1]
  cases hq : st.objs[o]? with
  | none => rfl
  | some q =>
    rw [Option.bind_some, Option.bind_some, h2 q hq]

theorem MapInv.obj {st : MapState V} {p : PrivateMaps V} (h : MapInv st p) {o : Nat} {nm : NativeMap V} (hn : p.objs[o]? = some nm) :
    ∃ a, st.objs[o]? = some (a, nm.keys) ∧ st.maps[a]? = some nm.vals := by
  have := (h.view o nm hn).1
  unfold MapState.view at this
  rw [Option.bind_eq_some_iff] at this
  obtain ⟨⟨a, ks⟩, h1, h2⟩ := this
  rw [Option.map_eq_some_iff] at h2
  obtain ⟨g, h3, rfl⟩ := h2
  exact ⟨a, h1, h3⟩

/-- The user changes a map that is still theirs. -/
theorem MapInv.change {st : MapState V} {p : PrivateMaps V} (h : MapInv st p) {m : Nat} {g : GoMap V} (hg : p.maps[m]? = some (some g)) {g' : GoMap V}
    (hn : (g'.map (·.1)).Nodup) : MapInv { st with maps := st.maps.set m g' } { p with maps := p.maps.set m (some g') } := by
  have hm : m < p.maps.length := (List.getElem?_eq_some_iff.mp hg).1
  have hm' : m < st.maps.length := by rw [h.mapsLen]; exact hm
  refine ⟨by simp [h.mapsLen], h.objsLen, ?_, ?_, ?_, h.sep⟩
  · intro m' x hx
    dsimp only at hx ⊢
    by_cases e : m = m'
    · subst e
      rw [List.getElem?_set_self hm] at hx
      cases hx
      exact ⟨List.getElem?_set_self hm', hn⟩
    · rw [List.getElem?_set_ne e] at hx ⊢
      exact h.free m' x hx
  · intro o q hq
    dsimp only at hq ⊢
    have := h.given o q hq
    rw [List.getElem?_set_ne (by rintro rfl; rw [hg] at this; cases this)]
    exact this
  · intro o nm ho
    refine ⟨?_, (h.view o nm ho).2⟩
    rw [← (h.view o nm ho).1]
    refine view_congr rfl fun q hq => ?_
    have := h.given o q hq
    exact List.getElem?_set_ne (by rintro rfl; rw [hg] at this; cases this)

theorem MapInv.step {st : MapState V} {p p' : PrivateMaps V} (h : MapInv st p) {op : MapOp V} (hp : p.step op = some p') :
    ∃ st', st.step op = some st' ∧ MapInv st' p' := by
  cases op with
  | make l =>
    cases hp
    refine ⟨_, rfl, by simp [h.mapsLen], h.objsLen, ?_, ?_, ?_, h.sep⟩
    · intro m x hx
      dsimp only at hx ⊢
      rw [List.getElem?_append] at hx ⊢
      rw [h.mapsLen]
      split at hx
      · rename_i hl
        rw [if_pos hl]
        exact h.free m x hx
      · rename_i hl
        rw [if_neg hl]
        cases e : m - p.maps.length with
        | zero =>
          rw [e] at hx
          cases hx
          exact ⟨rfl, GoMap.nodup_make l (m := []) List.nodup_nil⟩
        | succ i => rw [e] at hx; cases hx
    · intro o q hq
      dsimp only at hq ⊢
      have := h.given o q hq
      rw [List.getElem?_append_left (List.getElem?_eq_some_iff.mp this).1]
      exact this
    · intro o nm ho
      refine ⟨?_, (h.view o nm ho).2⟩
      rw [← (h.view o nm ho).1]
      refine view_congr rfl fun q hq => ?_
      have := (List.getElem?_eq_some_iff.mp (h.given o q hq)).1
      exact List.getElem?_append_left (by rw [h.mapsLen]; exact this)
  | put m k v =>
    simp only [PrivateMaps.step, Option.map_eq_some_iff] at hp
    obtain ⟨g, hg, rfl⟩ := hp
    have hg := join_some hg
    obtain ⟨f1, f2⟩ := h.free m g hg
    exact ⟨_, by rw [MapState.step, f1]; rfl, h.change hg (GoMap.nodup_put f2 k v)⟩
  | delete m k =>
    simp only [PrivateMaps.step, Option.map_eq_some_iff] at hp
    obtain ⟨g, hg, rfl⟩ := hp
    have hg := join_some hg
    obtain ⟨f1, f2⟩ := h.free m g hg
    exact ⟨_, by rw [MapState.step, f1]; rfl, h.change hg (GoMap.nodup_del f2 k)⟩
  | wrap m =>
    simp only [PrivateMaps.step, Option.map_eq_some_iff] at hp
    obtain ⟨g, hg, rfl⟩ := hp
    have hg := join_some hg
    have hm : m < p.maps.length := (List.getElem?_eq_some_iff.mp hg).1
    obtain ⟨f1, f2⟩ := h.free m g hg
    refine ⟨_, by rw [MapState.step, f1]; rfl, by simp [h.mapsLen], by simp [h.objsLen], ?_, ?_, ?_, ?_⟩
    · intro m' x hx
      dsimp only at hx ⊢
      by_cases e : m = m'
      · subst e
        rw [List.getElem?_set_self hm] at hx
        cases hx
      · rw [List.getElem?_set_ne e] at hx
        exact h.free m' x hx
    · intro o q hq
      dsimp only at hq ⊢
      rw [List.getElem?_append] at hq
      split at hq
      · have := h.given o q hq
        rw [List.getElem?_set_ne (by rintro rfl; rw [hg] at this; cases this)]
        exact this
      · cases e : o - st.objs.length with
        | zero => rw [e] at hq; cases hq; exact List.getElem?_set_self hm
        | succ i => rw [e] at hq; cases hq
    · intro o nm ho
      dsimp only at ho
      rw [List.getElem?_append] at ho
      split at ho
      · rename_i hl
        refine ⟨?_, (h.view o nm ho).2⟩
        rw [← (h.view o nm ho).1]
        exact view_congr (List.getElem?_append_left (by rw [h.objsLen]; exact hl)) fun _ _ => rfl
      · rename_i hl
        cases e : o - p.objs.length with
        | zero =>
          rw [e] at ho
          cases ho
          refine ⟨?_, NativeMap.Consistent.new f2⟩
          have ho : o = st.objs.length := by rw [h.objsLen]; omega
          unfold MapState.view
          dsimp only
          rw [ho, List.getElem?_concat_length, Option.bind_some]
          dsimp only
          rw [f1]
          rfl
        | succ i => rw [e] at ho; cases ho
    · intro o o' q q' hq hq' he
      dsimp only at hq hq'
      rw [List.getElem?_append] at hq hq'
      have hold : ∀ (o : Nat) (q : Nat × List String), st.objs[o]? = some q → q.1 ≠ m := by
        intro o q hq e
        have := h.given o q hq
        rw [e, hg] at this
        cases this
      split at hq
      · split at hq'
        · exact h.sep o o' q q' hq hq' he
        · cases e : o' - st.objs.length with
          | zero => rw [e] at hq'; cases hq'; exact absurd he (hold o q hq)
          | succ i => rw [e] at hq'; cases hq'
      · split at hq'
        · cases e : o - st.objs.length with
          | zero => rw [e] at hq; cases hq; exact absurd he.symm (hold o' q' hq')
          | succ i => rw [e] at hq; cases hq
        · cases e : o - st.objs.length with
          | zero =>
            cases e' : o' - st.objs.length with
            | zero => omega
            | succ i => rw [e'] at hq'; cases hq'
          | succ i => rw [e] at hq; cases hq
  | set o k v =>
    simp only [PrivateMaps.step, Option.map_eq_some_iff] at hp
    obtain ⟨nm, ho, rfl⟩ := hp
    obtain ⟨a, h1, h2⟩ := h.obj ho
    have hlo : o < st.objs.length := (List.getElem?_eq_some_iff.mp h1).1
    have hla : a < st.maps.length := (List.getElem?_eq_some_iff.mp h2).1
    have ha := h.given o _ h1
    dsimp only at ha
    refine ⟨_, by rw [MapState.step, h1, Option.bind_some, h2]; rfl, by simp [h.mapsLen], by simp [h.objsLen], ?_, ?_, ?_, ?_⟩
    · intro m x hx
      have := h.free m x hx
      refine ⟨?_, this.2⟩
      dsimp only at hx ⊢
      rw [List.getElem?_set_ne (by rintro rfl; rw [ha] at hx; cases hx)]
      exact this.1
    · intro o' q hq
      dsimp only at hq ⊢
      by_cases e : o = o'
      · subst e
        rw [List.getElem?_set_self hlo] at hq
        cases hq
        exact ha
      · rw [List.getElem?_set_ne e] at hq
        exact h.given o' q hq
    · intro o' nm' ho'
      dsimp only at ho'
      by_cases e : o = o'
      · subst e
        rw [List.getElem?_set_self (by rw [← h.objsLen]; exact hlo)] at ho'
        cases ho'
        refine ⟨?_, ((h.view o nm ho).2.set k v).1⟩
        unfold MapState.view
        dsimp only
        rw [List.getElem?_set_self hlo, Option.bind_some]
        dsimp only
        rw [List.getElem?_set_self hla]
        rfl
      · rw [List.getElem?_set_ne e] at ho'
        refine ⟨?_, (h.view o' nm' ho').2⟩
        rw [← (h.view o' nm' ho').1]
        refine view_congr (List.getElem?_set_ne e) fun q hq => ?_
        exact List.getElem?_set_ne (fun e' => e (h.sep o o' _ q h1 hq e'))
    · intro o1 o2 q1 q2 hq1 hq2 he
      dsimp only at hq1 hq2
      by_cases e1 : o = o1 <;> by_cases e2 : o = o2
      · omega
      · subst e1
        rw [List.getElem?_set_self hlo] at hq1
        rw [List.getElem?_set_ne e2] at hq2
        cases hq1
        exact h.sep _ _ _ _ h1 hq2 he
      · subst e2
        rw [List.getElem?_set_self hlo] at hq2
        rw [List.getElem?_set_ne e1] at hq1
        cases hq2
        exact h.sep _ _ _ _ hq1 h1 he
      · rw [List.getElem?_set_ne e1] at hq1
        rw [List.getElem?_set_ne e2] at hq2
        exact h.sep _ _ _ _ hq1 hq2 he

theorem MapInv.run : ∀ {prog : List (MapOp V)} {st : MapState V} {p p' : PrivateMaps V}, MapInv st p → p.run prog = some p' →
    ∃ st', st.run prog = some st' ∧ MapInv st' p'
  | [], st, p, p', h, hp => by cases hp; exact ⟨st, rfl, h⟩
  | op :: l, st, p, p', h, hp => by
    simp only [PrivateMaps.run, Option.bind_eq_some_iff] at hp
    obtain ⟨p1, h1, h2⟩ := hp
    obtain ⟨st1, a1, a2⟩ := h.step h1
    obtain ⟨st', c1, c2⟩ := MapInv.run a2 h2
    exact ⟨st', by rw [MapState.run, a1]; exact c1, c2⟩

theorem stringLoop_ok (str : V → Bytes) (m : NativeMap V) : ∀ (ks : List String) (first : Bool),
    (∃ t, m.stringLoop str first ks = .ok t) ↔ ∀ k ∈ ks, m.exist k = true
  | [], first => by simp [NativeMap.stringLoop]
  | k :: ks, first => by
    have ih := stringLoop_ok str m ks false
    rw [NativeMap.stringLoop, List.forall_mem_cons]
    unfold NativeMap.getOrPanic NativeMap.exist
    cases hk : m.vals.get k with
    | none => simp [bind, Except.bind]
    | some v =>
      simp only [bind, Except.bind, pure, Except.pure, Option.isSome_some, true_and]
      cases hr : m.stringLoop str false ks with
      | error e =>
        rw [hr] at ih
        simp only [reduceCtorEq, exists_false, false_iff] at ih ⊢
        exact ih
      | ok t =>
        rw [hr] at ih
        simp only [Except.ok.injEq, exists_eq', true_iff] at ih ⊢
        exact ih

theorem stringLoop_congr (str : V → Bytes) {m m' : NativeMap V} : ∀ (ks : List String) (first : Bool), (∀ k ∈ ks, m.vals.get k = m'.vals.get k) →
    m.stringLoop str first ks = m'.stringLoop str first ks
  | [], _, _ => rfl
  | k :: ks, first, h => by
    rw [NativeMap.stringLoop, NativeMap.stringLoop, stringLoop_congr str ks false fun x hx => h x (List.mem_cons_of_mem _ hx)]
    unfold NativeMap.getOrPanic
    rw [h k (List.mem_cons_self ..)]

end Joeson
