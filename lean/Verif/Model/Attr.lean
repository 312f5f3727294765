import Verif.Model.Native
import Verif.Spec.Peg
/-!
# What a node can be given: line, origin and attributes

attr.go and the methods of native_string.go:14-20, native_int.go:57-63, native_array.go:80-86 that do nothing.
-/

namespace Joeson

/-- ast.go:38-44 `Origin` -/
structure FullOrigin where
  code : Bytes := []
  line : Int := 0
  start : Int := 0
  stop : Int := 0
  ruleName : Bytes := []
deriving Repr, DecidableEq

/-- attr.go:9-14 `Attr` -/
structure Attr where
  code : Bytes := []
  start : Int := 0
  stop : Int := 0
  line : Int := 0
deriving Repr, DecidableEq

/-- What the methods of ast.go:29-36 are called on. -/
inductive Holder where
  /-- a `NativeString`, `NativeInt` or `*NativeArray` -/
  | native
  /-- a node with an embedded `*Attr`, `none` if it is nil -/
  | node (a : Option Attr)
deriving Repr, DecidableEq

/-- attr.go:25-29 `SetLine`; native_string.go:14. Writing through a nil pointer panics. -/
def Holder.setLine (n : Int) : Holder → Except Panic Holder
  | .native => .ok .native
  | .node none => .error .nilDeref
  | .node (some a) => .ok (.node (some { a with line := n, start := 0, stop := 0 }))

/-- attr.go:31-33 `GetLine`; native_string.go:15 -/
def Holder.getLine : Holder → Except Panic Int
  | .native => .ok 1
  | .node none => .error .nilDeref
  | .node (some a) => .ok a.line

/-- attr.go:35-40 `SetOrigin`; native_string.go:16 -/
def Holder.setOrigin (o : FullOrigin) : Holder → Except Panic Holder
  | .native => .ok .native
  | .node none => .error .nilDeref
  | .node (some _) => .ok (.node (some { code := o.code, start := o.start, stop := o.stop, line := o.line }))

/-- attr.go:42-49 `GetOrigin`; native_string.go:17 -/
def Holder.getOrigin : Holder → Except Panic FullOrigin
  | .native => .ok {}
  | .node none => .error .nilDeref
  | .node (some a) => .ok { code := a.code, line := a.line, start := a.start, stop := a.stop }

/-- attr.go:51-53 `HasAttribute`; native_string.go:18 -/
def Holder.hasAttribute (_key : Bytes) : Holder → Bool
  | .native => false
  | .node _ => false

/-- What `GetAttribute` returns: an `interface{}`. -/
inductive Found (α : Type) where
  | nil
  | bool (b : Bool)
  | attribute (x : α)
deriving Repr, DecidableEq

/-- attr.go:55-57 `GetAttribute`; native_string.go:19 -/
def Holder.getAttribute {α : Type} (_key : Bytes) : Holder → Found α
  | .native => .nil
  | .node _ => .bool false

/-- attr.go:59-61 `SetAttribute`; native_string.go:20 -/
def Holder.setAttribute {α : Type} (_key : Bytes) (_x : α) : Holder → Except Panic Holder
  | .native => .error .assertion
  | .node _ => .error .assertion

/-- packrat.go:271-286: the value of a callback is given its origin before anything else is done with it, so if its `*Attr` is nil
the parse panics. -/
def PureOps.needAttr {V : Type} (P : PureOps V) (attr : V → Holder) : PureOps V where
  str := P.str
  undef := P.undef
  isUndef := P.isUndef
  arr := P.arr
  newMap := P.newMap
  mapSet := P.mapSet
  merge := P.merge
  origin := P.origin
  cb c v n := match P.cb c v n with
    | .ok (some w) => match (attr w).setOrigin {} with
      | .ok _ => .ok (some w)
      | .error e => .error e
    | r => r

end Joeson
