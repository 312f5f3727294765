import Verif.Model.Engine
/-!
# Values (Native* types) without sharing, and the code streams as seen by the engine

`Ast` is a tree: it forgets that a `*NativeMap` is a pointer. The sharing model is in `Heap.lean`.
-/

namespace Joeson

/-- ast.go, native_*.go: what a parse produces. `user` stands for values made by callbacks of the
application (any other type implementing `Ast`), `error` for `ParseError` (parseerror.go:8-13). -/
inductive Ast where
  /-- native_undefined.go:9-12 -/
  | undef
  /-- native_string.go:8 -/
  | str (s : Bytes)
  /-- native_int.go:8 -/
  | int (n : Int)
  /-- native_array.go:25 -/
  | arr (l : List Ast)
  /-- native_map.go:16-20: keys in the order of `keys` -/
  | map (kvs : List (String × Ast))
  /-- a user type -/
  | user (tag : Nat) (l : List Ast)
  /-- parseerror.go:8-13 -/
  | error (msg : Bytes)
  deriving Repr

mutual
/-- Equality of trees is decidable (used only to check concrete cases). -/
def Ast.decEq : (a b : Ast) → Decidable (a = b)
  | .undef, b => by cases b <;> first | exact isTrue rfl | exact isFalse (by simp)
  | .str s, b => by
    cases b with
    | str t => exact if h : s = t then isTrue (by rw [h]) else isFalse (by simp [h])
    | _ => exact isFalse (by simp)
  | .int s, b => by
    cases b with
    | int t => exact if h : s = t then isTrue (by rw [h]) else isFalse (by simp [h])
    | _ => exact isFalse (by simp)
  | .error s, b => by
    cases b with
    | error t => exact if h : s = t then isTrue (by rw [h]) else isFalse (by simp [h])
    | _ => exact isFalse (by simp)
  | .arr l, b => match b with
    | .arr l' => match Ast.decEqList l l' with
      | isTrue h => isTrue (by rw [h])
      | isFalse h => isFalse (by simp [h])
    | .undef | .str _ | .int _ | .map _ | .user _ _ | .error _ => isFalse (by simp)
  | .map l, b => match b with
    | .map l' => match Ast.decEqKvs l l' with
      | isTrue h => isTrue (by rw [h])
      | isFalse h => isFalse (by simp [h])
    | .undef | .str _ | .int _ | .arr _ | .user _ _ | .error _ => isFalse (by simp)
  | .user n l, b => match b with
    | .user n' l' => match Ast.decEqList l l' with
      | isTrue h => if h' : n = n' then isTrue (by rw [h, h']) else isFalse (by simp [h'])
      | isFalse h => isFalse (by simp [h])
    | .undef | .str _ | .int _ | .arr _ | .map _ | .error _ => isFalse (by simp)
/-- Equality of lists of trees. -/
def Ast.decEqList : (a b : List Ast) → Decidable (a = b)
  | [], [] => isTrue rfl
  | [], _ :: _ => isFalse (by simp)
  | _ :: _, [] => isFalse (by simp)
  | x :: l, y :: l' => match Ast.decEq x y, Ast.decEqList l l' with
    | isTrue h, isTrue h' => isTrue (by rw [h, h'])
    | isFalse h, _ => isFalse (by simp [h])
    | _, isFalse h => isFalse (by simp [h])
/-- Equality of key value lists. -/
def Ast.decEqKvs : (a b : List (String × Ast)) → Decidable (a = b)
  | [], [] => isTrue rfl
  | [], _ :: _ => isFalse (by simp)
  | _ :: _, [] => isFalse (by simp)
  | (k, x) :: l, (k', y) :: l' => match Ast.decEq x y, Ast.decEqKvs l l' with
    | isTrue h, isTrue h' => if hk : k = k' then isTrue (by rw [h, h', hk]) else isFalse (by simp [hk])
    | isFalse h, _ => isFalse (by simp [h])
    | _, isFalse h => isFalse (by simp [h])
end

instance : DecidableEq Ast := Ast.decEq

/-- native_map.go:172-181 `Set` on the ordered pairs. -/
def kvSet {α : Type} (k : String) (v : α) : List (String × α) → List (String × α)
  | [] => [(k, v)]
  | (k', v') :: rest => if k' = k then (k', v) :: rest else (k', v') :: kvSet k v rest

/-- The assertion `value.(NativeString)`, parser_sequence.go:232. -/
def Ast.isStr : Ast → Bool
  | .str _ => true
  | _ => false

/-- parser_sequence.go:209-251 `merge` on non nil values which are not parsers, `NativeUndefined`
excepted (it is a `Parser`, native_undefined.go:9-25: extending it with a map panics unless the map
has only the key "label", with a string; the label of an undefined value is not modelled: nothing reads it). -/
def Ast.merge (toExtend newcomer : Ast) : Except Panic Ast :=
  match newcomer with
  | .undef => .ok toExtend
  | .map kvs => match toExtend with
    | .map kvs' => .ok (.map (kvs.foldl (fun m p => kvSet p.1 p.2 m) kvs'))
    | .undef => if kvs.all (fun p => p.1 == "label" && p.2.isStr) then .ok .undef else .error .assertion
    | _ => .error .assertion
  | _ => .error .assertion

/-- The operations on trees; the callbacks are given. -/
def treeOps {H : Type} (cb : Nat → Ast → Nat → H → Except Panic (Option Ast × H)) : Ops Ast H where
  str b := .str b
  undef := .undef
  isUndef v := match v with | .undef => true | _ => false
  arr l h := (.arr l, h)
  newMap k v h := (.map [(k, v)], h)
  -- parser_sequence.go:181-185
  mapSet r k v h := match r with
    | .map kvs => .ok (.map (kvSet k v kvs), h)
    | _ => .error .assertion
  merge a b h := match a.merge b with
    | .ok x => .ok (x, h)
    | .error e => .error e
  cb := cb
  origin v _ h := (v, h)

/-- A rune stream positioned at `p` (codestream_rune.go:27-44). -/
def runeAt (text : Bytes) (p : Nat) : RuneStream := { RuneStream.new text with pos := p }

/-- The intermediate results of parsectx.go:62-75 `ParseContext.String` on a rune stream: only its
panics matter. -/
def renderRune (text : Bytes) (p : Nat) : Except Panic Unit := do
  let c := runeAt text p
  let _ ← c.col
  let a ← c.peekRunes (-5)
  let e := escape a
  let _ ← sliceString e ((e.length : Int) - 5) e.length
  let b ← c.peekRunes 20
  let _ ← sliceString (escape b) 0 20
  return ()

/-- `RuneStream` as the engine's code stream. -/
def Stream.ofText (text : Bytes) : Stream where
  len := text.length
  matchString p b := do
    let (r, c) ← (runeAt text p).matchString b
    return (r, c.pos)
  matchRegexp p re := do
    let (r, c) ← (runeAt text p).matchRegexp re
    return (r, c.pos)
  line p := (runeAt text p).line
  render p := renderRune text p

end Joeson
