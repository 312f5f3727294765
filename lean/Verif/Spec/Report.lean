import Verif.Spec.CodePoints
/-!
# Specification for C70: pieces of a text

Independent of the streams: a text is a list of bytes, an offset counts bytes.
-/

namespace Joeson.Spec

/-- The bytes of `t` from offset `a` up to offset `b`. -/
def between (t : Bytes) (a b : Nat) : Bytes := (t.drop a).take (b - a)

/-- Lines number `i` to `j` of `t` (counted from 0; lines that do not exist are left out), joined. -/
def lineRange (t : Bytes) (i j : Nat) : Bytes := joinLines (((lines t).drop i).take (j + 1 - i))

/-- The number of the line on which offset `p` is. -/
def lineAt (t : Bytes) (p : Nat) : Nat := newlines (t.take p)

end Joeson.Spec
