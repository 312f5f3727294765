import Verif.Model.Values
/-!
# Values that remember where they come from

attr.go:9-14 `Attr` is a pointer embedded in `*NativeMap` (native_map.go:16-20), in `ParseError` (parseerror.go:8-13) and, by
convention, in the types of the application (attr.go:3-8): `SetOrigin` writes through it (attr.go:35-40). Strings, integers and
arrays do not remember anything (native_string.go:16, native_int.go:59, native_array.go:82). A `NativeUndefined` has an `Attr`
too (native_undefined.go:9-12), its origin is not modelled. Maps are copied here when an entry is added, keeping their `Attr`;
that they are shared is the subject of Heap.lean.
-/

namespace Joeson

/-- ast.go, native_*.go: a value; `a` is the address of the `Attr`. -/
inductive OVal where
  /-- native_undefined.go:9-12 -/
  | undef
  /-- native_string.go:8 -/
  | str (s : Bytes)
  /-- native_int.go:8 -/
  | int (n : Int)
  /-- native_array.go:25 -/
  | arr (l : List OVal)
  /-- native_map.go:16-20 -/
  | map (a : Nat) (kvs : List (String × OVal))
  /-- a user type with an embedded `*Attr` -/
  | user (a : Nat) (tag : Nat) (l : List OVal)
  /-- parseerror.go:8-13 -/
  | error (a : Nat) (msg : Bytes)
  deriving Repr

/-- attr.go:9-14: the fields that `SetOrigin` writes, but for `Code`, which is always the whole text. The name of the rule is
not stored (attr.go:35-40). -/
structure Span where
  start : Nat
  stop : Nat
  line : Int
  deriving Repr, DecidableEq

/-- The `Attr`s allocated so far, and what was written to them. -/
structure Attrs where
  next : Nat
  at_ : Nat → Option Span

/-- No `Attr` yet. -/
def Attrs.empty : Attrs := ⟨0, fun _ => none⟩

/-- attr.go:16-18 `NewAttr`. -/
def Attrs.new (h : Attrs) : Nat × Attrs := (h.next, { h with next := h.next + 1 })

/-- attr.go:35-40 `SetOrigin`. -/
def Attrs.set (h : Attrs) (a : Nat) (o : Origin) : Attrs :=
  { h with at_ := fun b => if b = a then some ⟨o.start, o.stop, o.line⟩ else h.at_ b }

/-- The `Attr` of a value, if it has one. -/
def OVal.attr : OVal → Option Nat
  | .map a _ | .user a _ _ | .error a _ => some a
  | _ => none

/-- attr.go:42-49 `GetOrigin`: `none` if it was never set, or is not remembered. -/
def OVal.getOrigin (v : OVal) (h : Attrs) : Option Span :=
  match v.attr with
  | some a => h.at_ a
  | none => none

/-- native_string.go:16, native_int.go:59, native_array.go:82, attr.go:35-40 `SetOrigin`. -/
def OVal.setOrigin (v : OVal) (o : Origin) (h : Attrs) : Attrs :=
  match v.attr with
  | some a => h.set a o
  | none => h

/-- The assertion `value.(NativeString)`, parser_sequence.go:232. -/
def OVal.isStr : OVal → Bool
  | .str _ => true
  | _ => false

/-- parser_sequence.go:209-251 `merge`, as `Ast.merge`. -/
def OVal.merge (toExtend newcomer : OVal) : Except Panic OVal :=
  match newcomer with
  | .undef => .ok toExtend
  | .map _ kvs => match toExtend with
    | .map a kvs' => .ok (.map a (kvs.foldl (fun m p => kvSet p.1 p.2 m) kvs'))
    | .undef => if kvs.all (fun p => p.1 == "label" && p.2.isStr) then .ok .undef else .error .assertion
    | _ => .error .assertion
  | _ => .error .assertion

/-- The operations, with origins; the callbacks are given. -/
def originOps (cb : Nat → OVal → Nat → Attrs → Except Panic (Option OVal × Attrs)) : Ops OVal Attrs where
  str b := .str b
  undef := .undef
  isUndef v := match v with | .undef => true | _ => false
  arr l h := (.arr l, h)
  newMap k v h := (.map h.new.1 [(k, v)], h.new.2)
  mapSet r k v h := match r with
    | .map a kvs => .ok (.map a (kvSet k v kvs), h)
    | _ => .error .assertion
  merge a b h := match a.merge b with
    | .ok x => .ok (x, h)
    | .error e => .error e
  cb := cb
  -- packrat.go:276-286
  origin v o h := (v, v.setOrigin o h)

end Joeson
