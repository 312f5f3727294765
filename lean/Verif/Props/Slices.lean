import Verif.Proofs.Slices
/-!
# C92: who sees an append
-/

namespace Joeson
open Spec

variable {α : Type}

/-- C92: in a careful program every array, and every slice got from one, is a list of its own: it contains what was put in it at first and what was
appended to it since, whatever is done to other variables, and whatever capacities the runtime chooses.
What is missing: statements that are not careful, for which it is false, see below. -/
theorem C92_lists_partial (m : SliceMem α) (prog : List (SliceOp α)) (p : Lists α) (h : Lists.run [] prog = some p) :
    ∃ st, (SliceState.init m).run prog = some st ∧ ∀ v, st.get v = (p[v]?).map Prod.fst := by
  obtain ⟨st, h1, h2⟩ := (SliceInv.init m).run h
  refine ⟨st, h1, fun v => ?_⟩
  unfold SliceState.get
  cases hs : st.vars[v]? with
  | none =>
    have := List.getElem?_eq_none_iff.mp hs
    rw [List.getElem?_eq_none (by rw [← h2.length]; exact this)]; rfl
  | some s =>
    have hv : v < p.length := h2.length ▸ (List.getElem?_eq_some_iff.mp hs).1
    have hq : p[v]? = some p[v] := List.getElem?_eq_getElem hv
    rw [hq]
    exact congrArg some (h2.var v s _ hs hq).2.2.2

/-- Two programs that are the same but for the capacities chosen by the runtime. -/
inductive SameStatements : List (SliceOp α) → List (SliceOp α) → Prop
  | nil : SameStatements [] []
  | same (op) {l l'} : SameStatements l l' → SameStatements (op :: l) (op :: l')
  | append (v x n n') {l l'} : SameStatements l l' → SameStatements (.append v x n :: l) (.append v x n' :: l')

/-- C92: what a careful program computes does not depend on the runtime. -/
theorem C92_growth (m m' : SliceMem α) {prog prog' : List (SliceOp α)} (hs : SameStatements prog prog') {p : Lists α} (h : Lists.run [] prog = some p) :
    ∃ st st', (SliceState.init m).run prog = some st ∧ (SliceState.init m').run prog' = some st' ∧ ∀ v, st.get v = st'.get v := by
  have key : ∀ {a b : List (SliceOp α)}, SameStatements a b → ∀ p : Lists α, p.run a = p.run b := by
    intro a b hab
    induction hab with
    | nil => intro p; rfl
    | same op _ ih => intro p; simp only [Lists.run, ih]
    | append v x n n' _ ih => intro p; simp only [Lists.run, ih]; rfl
  obtain ⟨st, a1, a2⟩ := C92_lists_partial m prog p h
  obtain ⟨st', b1, b2⟩ := C92_lists_partial m' prog' p (key hs [] ▸ h)
  exact ⟨st, st', a1, b1, fun v => (a2 v).trans (b2 v).symm⟩

/-- An array, a snapshot of it before more is appended, and an array made of a clipped part, longer by one element. -/
def Sample.carefulProg (n : Nat) : List (SliceOp Nat) :=
  [.newFrom [], .append 0 1 n, .append 0 2 n, .array 0, .append 0 3 n, .clip 1, .append 2 9 n, .wrap 2, .append 3 10 n, .sub 0 1 3]

example : (Lists.run [] (Sample.carefulProg 0)).map (List.map Prod.fst) = some [[1, 2, 3], [1, 2], [1, 2, 9], [1, 2, 9, 10], [2, 3]] ∧
    SameStatements (Sample.carefulProg 0) (Sample.carefulProg 5) :=
  ⟨by decide, .same _ (.append _ _ _ _ (.append _ _ _ _ (.same _ (.append _ _ _ _ (.same _ (.append _ _ _ _ (.same _ (.append _ _ _ _
    (.same _ .nil)))))))))⟩

theorem get_of {st : SliceState α} {v : Nat} {s : GoSlice} (h : st.vars[v]? = some s) : st.get v = some (st.mem.read s) := by
  unfold SliceState.get; rw [h]; rfl

/-- C92: `w := NewNativeArray(v.Array())`, then an element is appended to `v` and another to `w`. If there was room in `v`, then it loses
its new element and gets that of `w`. If there was none, then both are what they should be. -/
theorem C92_two_arrays (st : SliceState α) (v : Nat) (s : GoSlice) (hs : st.vars[v]? = some s) (hb : s.block < st.mem.next) (x y : α) (n n' : Nat) :
    ∃ st', st.run [.wrap v, .append v x n, .append st.vars.length y n'] = some st' ∧
      st'.get st.vars.length = some (st.mem.read s ++ [y]) ∧
      (s.len < s.cap → st'.get v = some (st.mem.read s ++ [y])) ∧ (¬ s.len < s.cap → st'.get v = some (st.mem.read s ++ [x])) := by
  have hv : v < st.vars.length := (List.getElem?_eq_some_iff.mp hs).1
  have h1 : (st.vars ++ [s])[v]? = some s := by rw [List.getElem?_append_left hv]; exact hs
  have h2 : ((st.vars ++ [s]).set v (st.mem.append s x n).1)[st.vars.length]? = some s := by
    rw [List.getElem?_set_ne (by omega)]; simp
  have hrun : st.run [.wrap v, .append v x n, .append st.vars.length y n'] =
      some ⟨((st.mem.append s x n).2.append s y n').2,
        ((st.vars ++ [s]).set v (st.mem.append s x n).1).set st.vars.length ((st.mem.append s x n).2.append s y n').1⟩ := by
    simp only [SliceState.run, SliceState.step, hs, Option.map_some, Option.bind_some, h1, h2]
  have g1 : (((st.vars ++ [s]).set v (st.mem.append s x n).1).set st.vars.length ((st.mem.append s x n).2.append s y n').1)[st.vars.length]? =
      some ((st.mem.append s x n).2.append s y n').1 := List.getElem?_set_self (by simp)
  have g2 : (((st.vars ++ [s]).set v (st.mem.append s x n).1).set st.vars.length ((st.mem.append s x n).2.append s y n').1)[v]? =
      some (st.mem.append s x n).1 := by
    rw [List.getElem?_set_ne (by omega), List.getElem?_set_self (by simp; omega)]
  refine ⟨_, hrun, ?_, ?_, ?_⟩
  · rw [get_of g1, SliceMem.read_append]
    refine congrArg (fun l => some (l ++ [y])) ?_
    unfold SliceMem.append
    split
    · exact SliceMem.read_put_outside _ _ fun _ => .inr (Nat.le_refl _)
    · exact SliceMem.read_fill_old _ _ hb
  · intro hc
    rw [get_of g2]
    refine congrArg some ?_
    have e : ∀ (m : SliceMem α) (z : α) (k : Nat), m.append s z k = (⟨s.block, s.off, s.len + 1, s.cap⟩, m.put s.block (s.off + s.len) z) := by
      intro m z k; unfold SliceMem.append; rw [if_pos hc]
    have := SliceMem.read_append (st.mem.append s x n).2 s y n'
    rw [e] at this ⊢
    rw [e] at this ⊢
    dsimp only at this ⊢
    rw [this, SliceMem.read_put_outside _ _ fun _ => .inr (Nat.le_refl _)]
  · intro hc
    rw [get_of g2]
    refine congrArg some ?_
    rw [← SliceMem.read_append st.mem s x n]
    have e : ∀ (m : SliceMem α) (z : α) (k : Nat), (m.append s z k) = (⟨m.next, 0, s.len + 1, s.len + 1 + k⟩, m.fill (m.read s ++ [z])) := by
      intro m z k; unfold SliceMem.append; rw [if_neg hc]
    rw [e (st.mem.append s x n).2]
    refine SliceMem.read_fill_old _ _ ?_
    rw [e]
    exact Nat.lt_succ_self _

/-- C92: `append(v.Array()[:k], x)` writes to the array: its element `k` is replaced. -/
theorem C92_cut_and_append (st : SliceState α) (v : Nat) (s : GoSlice) (hs : st.vars[v]? = some s) (hc : s.len ≤ s.cap) (k : Nat) (hk : k < s.len)
    (x : α) (n : Nat) :
    ∃ st', st.run [.array v, .sub st.vars.length 0 k, .append (st.vars.length + 1) x n] = some st' ∧
      st'.get v = some ((st.mem.read s).set k x) ∧ st'.get (st.vars.length + 1) = some ((st.mem.read s).take k ++ [x]) := by
  have hv : v < st.vars.length := (List.getElem?_eq_some_iff.mp hs).1
  have h1 : (st.vars ++ [s])[st.vars.length]? = some s := by simp
  have h2 : (st.vars ++ [s] ++ [⟨s.block, s.off + 0, k - 0, s.cap - 0⟩])[st.vars.length + 1]? = some ⟨s.block, s.off + 0, k - 0, s.cap - 0⟩ := by
    simp
  have ha : st.mem.append ⟨s.block, s.off + 0, k - 0, s.cap - 0⟩ x n = (⟨s.block, s.off, k + 1, s.cap⟩, st.mem.put s.block (s.off + k) x) := by
    unfold SliceMem.append
    rw [if_pos (by dsimp only; omega)]; rfl
  have hrun : st.run [.array v, .sub st.vars.length 0 k, .append (st.vars.length + 1) x n] =
      some ⟨st.mem.put s.block (s.off + k) x,
        (st.vars ++ [s] ++ [(⟨s.block, s.off + 0, k - 0, s.cap - 0⟩ : GoSlice)]).set (st.vars.length + 1) ⟨s.block, s.off, k + 1, s.cap⟩⟩ := by
    simp only [SliceState.run, SliceState.step, hs, Option.map_some, Option.bind_some, h1]
    rw [if_pos ⟨Nat.zero_le _, Nat.le_of_lt hk⟩]
    simp only [Option.bind_some, h2, Option.map_some, ha]
  refine ⟨_, hrun, ?_, ?_⟩
  · rw [get_of (s := s) (by
      rw [List.getElem?_set_ne (by omega), List.append_assoc, List.getElem?_append_left hv]; exact hs)]
    exact congrArg some (SliceMem.read_put_inside _ _)
  · have : st.mem.read ⟨s.block, s.off + 0, k - 0, s.cap - 0⟩ = (st.mem.read s).take k := by
      rw [read_sub _ _ _ _ _ (Nat.zero_le _) (Nat.le_of_lt hk)]; rfl
    rw [get_of (s := ⟨s.block, s.off, k + 1, s.cap⟩) (List.getElem?_set_self (by simp)), ← this]
    have r := SliceMem.read_append st.mem ⟨s.block, s.off + 0, k - 0, s.cap - 0⟩ x n
    rw [ha] at r
    exact congrArg some r

/-- C92: writing to an element of `v.Array()` writes to the array. -/
theorem C92_write_through (st : SliceState α) (v : Nat) (s : GoSlice) (hs : st.vars[v]? = some s) (i : Nat) (hi : i < s.len) (x : α) :
    ∃ st', st.run [.array v, .write st.vars.length i x] = some st' ∧ st'.get v = some ((st.mem.read s).set i x) := by
  have hv : v < st.vars.length := (List.getElem?_eq_some_iff.mp hs).1
  have h1 : (st.vars ++ [s])[st.vars.length]? = some s := by simp
  have hrun : st.run [.array v, .write st.vars.length i x] = some ⟨st.mem.put s.block (s.off + i) x, st.vars ++ [s]⟩ := by
    simp only [SliceState.run, SliceState.step, hs, Option.map_some, Option.bind_some, h1]
    rw [if_pos hi]
    rfl
  refine ⟨_, hrun, ?_⟩
  rw [get_of (s := s) (by rw [List.getElem?_append_left hv]; exact hs)]
  exact congrArg some (SliceMem.read_put_inside _ _)

/-- The array `[1, 2, 3]`, with room for one more. -/
def Sample.roomy : SliceState Nat := ⟨⟨1, fun _ i => i + 1⟩, [⟨0, 0, 3, 4⟩]⟩

example : (Sample.roomy.run [.wrap 0, .append 0 7 0, .append 1 8 0]).bind (·.get 0) = some [1, 2, 3, 8] ∧
    (Sample.roomy.run [.array 0, .sub 1 0 1, .append 2 9 0]).bind (·.get 0) = some [1, 9, 3] ∧
    (Sample.roomy.run [.array 0, .write 1 0 9]).bind (·.get 0) = some [9, 2, 3] ∧
    Sample.roomy.vars[0]? = some ⟨0, 0, 3, 4⟩ ∧ 0 < Sample.roomy.mem.next := by
  decide

/-- C92, counterexample: the same statements, with the capacities that the runtime might choose and with others, leave different elements in the
same array. -/
theorem C92_depends_on_growth : ∃ prog prog' : List (SliceOp Nat), SameStatements prog prog' ∧ ∀ m,
    ((SliceState.init m).run prog).bind (·.get 0) = some [1, 2, 3] ∧ ((SliceState.init m).run prog').bind (·.get 0) = some [9, 2, 3] := by
  refine ⟨[.newFrom [1], .append 0 2 0, .array 0, .append 0 3 0, .write 1 0 9], [.newFrom [1], .append 0 2 1, .array 0, .append 0 3 0, .write 1 0 9],
    .same _ (.append _ _ _ _ (.same _ (.same _ (.same _ .nil)))), fun m => ⟨?_, ?_⟩⟩ <;>
  simp [SliceState.init, SliceState.run, SliceState.step, SliceState.get, SliceMem.append, SliceMem.fill, SliceMem.put, SliceMem.read, List.range,
    List.range.loop]

end Joeson
