import Verif.Model.Utf8
/-!
# helpers/*.go
-/

namespace Joeson

/-- `sort.Search(n, f)` of the Go standard library (called at helpers/bisect.go:13 and 34): the
loop `for i < j { h := (i+j)/2; if !f(h) { i = h+1 } else { j = h } }; return i`. -/
def sortSearchLoop (f : Nat → Bool) (i j : Nat) : Nat :=
  if h : i < j then
    let m := (i + j) / 2
    if !f m then sortSearchLoop f (m + 1) j else sortSearchLoop f i m
  else i
termination_by j - i
decreasing_by all_goals omega

/-- `sort.Search(n, f)`. -/
def sortSearch (n : Nat) (f : Nat → Bool) : Nat := sortSearchLoop f 0 n

/-- helpers/bisect.go:7-16 `BisectLeft` (with `_bisectLeft(a, n, 0, len(a))` inlined). -/
def bisectLeft (a : List Int) (n : Int) : Nat :=
  sortSearch a.length (fun i => match a[i]? with | some x => x ≥ n | none => false)

/-- helpers/bisect.go:28-37 `BisectRight` (with `_bisectRight(a, n, 0, len(a))` inlined). -/
def bisectRight (a : List Int) (n : Int) : Nat :=
  sortSearch a.length (fun i => match a[i]? with | some x => x > n | none => false)

/-- helpers/bisect.go:57-62 `insert`: append a slot, shift `a[at:]` right by one, store `val`. -/
def insertAt (a : List Int) (at_ : Nat) (val : Int) : List Int :=
  a.take at_ ++ val :: a.drop at_

/-- helpers/bisect.go:47-49 `InsortRight`. -/
def insortRight (a : List Int) (x : Int) : List Int := insertAt a (bisectRight a x) x

/-- helpers/bisect.go:51-53 `InsortLeft`. -/
def insortLeft (a : List Int) (x : Int) : List Int := insertAt a (bisectLeft a x) x

/-- helpers/helpers.go:82-87 `Min`. -/
def goMin (a b : Int) : Int := if a < b then a else b

/-- helpers/helpers.go:89-94 `Max`. -/
def goMax (a b : Int) : Int := if a > b then a else b

/-- helpers/helpers.go:101-126 `SliceString`. The final slice expression is the Go one, so a
panic would be visible. -/
def sliceString (s : Bytes) (indexStart indexEnd : Int) : Except Panic Bytes :=
  if indexStart ≥ (s.length : Int) then .ok []
  else
    let indexStart := if indexStart < 0 then goMax (indexStart + s.length) 0 else indexStart
    let indexEnd := if indexEnd < 0 then goMax (indexEnd + s.length) 0 else indexEnd
    if indexEnd ≤ indexStart then .ok []
    else
      let indexEnd := if indexEnd > (s.length : Int) then (s.length : Int) else indexEnd
      goSlice s indexStart indexEnd

/-- helpers/helpers.go:16-25 `escaper`: replacement of one byte.  All the old strings of the
replacer are single bytes, hence `strings.Replacer` rewrites byte by byte. -/
def escapeByte (b : UInt8) : Bytes :=
  if b = 0x0A then [0x5C, 0x6E]        -- \n
  else if b = 0x0D then [0x5C, 0x72]   -- \r
  else if b = 0x09 then [0x5C, 0x74]   -- \t
  else if b = 0x5C then [0x5C, 0x5C]   -- \\
  else if b = 0x07 then [0x5C, 0x61]   -- \a
  else if b = 0x0C then [0x5C, 0x66]   -- \f
  else if b = 0x08 then [0x5C, 0x62]   -- \b
  else if b = 0x0B then [0x5C, 0x76]   -- \v
  else [b]

/-- helpers/helpers.go:12-14, 27-49, 56-58 `Escape` (`ToAscii` is the identity). -/
def escape (s : Bytes) : Bytes := s.flatMap escapeByte

/-- helpers/helpers.go:64-71 `PadLeft` (pads on the right hand side). -/
def padLeft (s : Bytes) (n : Int) : Bytes :=
  if n > (s.length : Int) then s ++ List.replicate (n - s.length).toNat 0x20 else s

/-- helpers/helpers.go:73-80 `PadRight` (pads on the left hand side). -/
def padRight (s : Bytes) (n : Int) : Bytes :=
  if n > (s.length : Int) then List.replicate (n - s.length).toNat 0x20 ++ s else s

/-- helpers/helpers.go:51-53 `Indent`: `strings.Join(make([]string, c+1), "  ")`; `make` panics on a
negative length. Joining `k` empty strings gives `k-1` separators. -/
def indent (c : Int) : Except Panic Bytes :=
  if c + 1 < 0 then .error .indexOutOfRange
  else .ok ((List.replicate ((c + 1).toNat - 1) [0x20, 0x20]).flatten)

/-- helpers/helpers.go:128-134 `BoolToString`. -/
def boolToString (b : Bool) : Bytes := if b then asc "y" else asc "n"

/-- Loop of helpers/helpers.go:142-153: returns the total size in bytes of the last `nTake` runes of
`slice`. -/
def lastNRunesLoop : Nat → Bytes → Except Panic Nat
  | 0, _ => .ok 0
  | n + 1, slice =>
    if slice.length = 0 then .ok 0
    else
      let (c, csize) := decodeLastRune slice
      if c = runeError then .error .runeError
      else do
        let t ← lastNRunesLoop n (slice.take (slice.length - csize))
        return csize + t

/-- helpers/helpers.go:139-155 `LastNRunes`. -/
def lastNRunes (abc : Bytes) (nTake : Int) : Except Panic Bytes := do
  let totalSize ← lastNRunesLoop nTake.toNat abc
  return abc.drop (abc.length - totalSize)

/-- Loop of helpers/helpers.go:165-172: `k` iterations. -/
def lastNRunesReversedLoop : Nat → Bytes → Bytes
  | 0, _ => []
  | k + 1, slice =>
    let (r, size) := decodeLastRune slice
    if r = runeError then []
    else encodeRune r ++ lastNRunesReversedLoop k (slice.take (slice.length - size))

/-- helpers/helpers.go:158-174 `LastNRunesReversed`.  The loop runs for
`i = len-sizeinit, ..., len-sizeinit-nTake+1`, that is `nTake` times. -/
def lastNRunesReversed (abc : Bytes) (nTake : Int) : Bytes :=
  if nTake < 0 then [] else lastNRunesReversedLoop nTake.toNat abc

/-! ## helpers/lazy.go -/

/-- helpers/lazy.go:7-10 `Lazy[T]`.  The evaluator is a function of the number of times it has
been called before, which makes impure evaluators expressible; `calls` counts its invocations. -/
structure Lazy (α : Type) where
  /-- cached value (`nil` = not set) -/
  val : Option α
  /-- evaluator -/
  f : Option (Nat → α)
  /-- how many times an evaluator was run on this object -/
  calls : Nat

namespace Lazy
variable {α : Type}

/-- helpers/lazy.go:12 `NewLazy`. -/
def new : Lazy α := ⟨none, none, 0⟩
/-- helpers/lazy.go:17 `Set`. -/
def set (k : Lazy α) (t : α) : Lazy α := { k with val := some t }
/-- helpers/lazy.go:13 `LazyFromValue`. -/
def fromValue (t : α) : Lazy α := (new : Lazy α).set t
/-- helpers/lazy.go:14 `LazyFromFunc`. -/
def fromFunc (f : Nat → α) : Lazy α := ⟨none, some f, 0⟩
/-- helpers/lazy.go:16 `IsSet`. -/
def isSet (k : Lazy α) : Bool := k.val.isSome
/-- helpers/lazy.go:18 `Clear`. -/
def clear (k : Lazy α) : Lazy α := { k with val := none, f := none }
/-- helpers/lazy.go:29 `SetLazy`. -/
def setLazy (k : Lazy α) (f : Nat → α) : Lazy α := { k with f := some f }
/-- helpers/lazy.go:19-27 `Get`: evaluates when unset and an evaluator exists, otherwise
dereferences `val` (nil dereference panics). -/
def get (k : Lazy α) : Except Panic (α × Lazy α) :=
  match k.val, k.f with
  | none, some f =>
    let v := f k.calls
    .ok (v, { k with val := some v, calls := k.calls + 1 })
  | some v, _ => .ok (v, k)
  | none, none => .error .nilDeref

end Lazy

end Joeson
