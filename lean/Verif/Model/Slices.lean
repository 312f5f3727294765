/-!
# Arrays and slices as memory

`NativeArray` is a Go slice (native_array.go:25): a window on memory that other slices may share. `NewNativeArray` keeps the slice of the caller,
`Array` hands out its own, `Append` writes into spare capacity if there is some. This file models memory, so that it can be asked who sees what.
The elements are of any type: `Ast` for `NativeArray`, `string` for the keys of a `NativeMap` (native_map.go:19).
-/

namespace Joeson

/-- A Go slice: a block of memory, where the window starts in it, its length and its capacity. -/
structure GoSlice where
  block : Nat
  off : Nat
  len : Nat
  cap : Nat
deriving DecidableEq

/-- Memory: blocks from `next` on are not in use. Cells that nobody wrote to contain anything. -/
structure SliceMem (α : Type) where
  next : Nat
  cells : Nat → Nat → α

namespace SliceMem
variable {α : Type}

/-- Assignment to a cell. -/
def put (m : SliceMem α) (b i : Nat) (x : α) : SliceMem α :=
  ⟨m.next, fun b' i' => if b' = b ∧ i' = i then x else m.cells b' i'⟩

/-- A new block that begins with the elements of `l`. -/
def fill (m : SliceMem α) (l : List α) : SliceMem α :=
  ⟨m.next + 1, fun b i => if b = m.next then (l[i]?).getD (m.cells b i) else m.cells b i⟩

/-- What a reader of the slice sees: native_array.go:37-52 `Get`, `Length`, `String`. -/
def read (m : SliceMem α) (s : GoSlice) : List α :=
  (List.range s.len).map fun i => m.cells s.block (s.off + i)

/-- Go's `append(s, x)`: in place if there is capacity left, else on a new block with a capacity chosen by the runtime, `spare` more than needed. -/
def append (m : SliceMem α) (s : GoSlice) (x : α) (spare : Nat) : GoSlice × SliceMem α :=
  if s.len < s.cap then (⟨s.block, s.off, s.len + 1, s.cap⟩, m.put s.block (s.off + s.len) x)
  else (⟨m.next, 0, s.len + 1, s.len + 1 + spare⟩, m.fill (m.read s ++ [x]))

end SliceMem

/-- The variables of a program, by number: arrays (`*NativeArray`, a pointer to a slice that nobody else points to) and slices. -/
structure SliceState (α : Type) where
  mem : SliceMem α
  vars : List GoSlice

/-- Statements of a program that uses arrays. Those that make a new variable add it at the end. -/
inductive SliceOp (α : Type) where
  /-- `NewNativeArray([]Ast{…})`, native_array.go:27-30; for the empty list `NewEmptyNativeArray()`, lines 32-35; or just `[]Ast{…}` -/
  | newFrom (l : List α)
  /-- `v.Append(x)`, native_array.go:55-57; for a slice `v = append(v, x)` -/
  | append (v : Nat) (x : α) (spare : Nat)
  /-- `s := v.Array()`, native_array.go:54; for the keys of a map `Keys()`, native_map.go:74-76 -/
  | array (v : Nat)
  /-- `NewNativeArray(v)`, native_array.go:27-30 -/
  | wrap (v : Nat)
  /-- `s := v[i:j]` with `j` at most the length -/
  | sub (v i j : Nat)
  /-- `s := v[:len(v):len(v)]` -/
  | clip (v : Nat)
  /-- `v[i] = x` -/
  | write (v i : Nat) (x : α)

/-- One statement; `none` if it names no variable, or panics (index out of range). -/
def SliceState.step {α : Type} (st : SliceState α) : SliceOp α → Option (SliceState α)
  | .newFrom l => some ⟨st.mem.fill l, st.vars ++ [⟨st.mem.next, 0, l.length, l.length⟩]⟩
  | .append v x spare => (st.vars[v]?).map fun s => ⟨(st.mem.append s x spare).2, st.vars.set v (st.mem.append s x spare).1⟩
  | .array v => (st.vars[v]?).map fun s => ⟨st.mem, st.vars ++ [s]⟩
  | .wrap v => (st.vars[v]?).map fun s => ⟨st.mem, st.vars ++ [s]⟩
  | .sub v i j => (st.vars[v]?).bind fun s =>
    if i ≤ j ∧ j ≤ s.len then some ⟨st.mem, st.vars ++ [⟨s.block, s.off + i, j - i, s.cap - i⟩]⟩ else none
  | .clip v => (st.vars[v]?).map fun s => ⟨st.mem, st.vars ++ [⟨s.block, s.off, s.len, s.len⟩]⟩
  | .write v i x => (st.vars[v]?).bind fun s => if i < s.len then some ⟨st.mem.put s.block (s.off + i) x, st.vars⟩ else none

/-- A program, statement by statement. -/
def SliceState.run {α : Type} (st : SliceState α) : List (SliceOp α) → Option (SliceState α)
  | [] => some st
  | op :: l => (st.step op).bind fun st' => st'.run l

/-- The start: no variables. -/
def SliceState.init {α : Type} (m : SliceMem α) : SliceState α := ⟨m, []⟩

/-- What the variable contains: `Get`, `Length`, native_array.go:37-38. -/
def SliceState.get {α : Type} (st : SliceState α) (v : Nat) : Option (List α) := (st.vars[v]?).map st.mem.read

end Joeson
