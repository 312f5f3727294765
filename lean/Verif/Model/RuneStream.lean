import Verif.Model.Helpers
/-!
# codestream_rune.go
-/

namespace Joeson

/-- Leftmost match reported by `regexp.Regexp.FindStringIndex`: `[start, end)` with
`start <= end <= len`.  The regular expression engine itself is not modelled. -/
structure Regex where
  find : Bytes → Option (Nat × Nat)
  bounds : ∀ s a b, find s = some (a, b) → a ≤ b ∧ b ≤ s.length

/-- Positions of line starts as computed at codestream_rune.go:28-33 and codestream_token.go:71-76. -/
def lineStartsOf (text : Bytes) : List Int :=
  0 :: ((rangeRunes text).filter (fun p => p.2 == 0x0A)).map (fun p => (p.1 : Int) + 1)

/-- codestream_rune.go:14-25 `RuneStream`. `pos` is never negative (see `setPos`). -/
structure RuneStream where
  text : Bytes
  pos : Nat
  lineStarts : List Int

/-- `strings.Index(s, sub)`: offset of the first occurrence (`none` for `-1`). -/
def stringsIndex (sub : Bytes) : Bytes → Option Nat
  | [] => if sub.isPrefixOf [] then some 0 else none
  | b :: s =>
    if sub.isPrefixOf (b :: s) then some 0
    else (stringsIndex sub s).map (· + 1)

namespace RuneStream

/-- codestream_rune.go:27-35 `NewRuneStream`. -/
def new (text : Bytes) : RuneStream := ⟨text, 0, lineStartsOf text⟩

/-- codestream_rune.go:38-44 `SetPos`. -/
def setPos (c : RuneStream) (n : Int) : Except Panic RuneStream :=
  if n < 0 ∨ n > (c.text.length : Int) then .error .outOfBound
  else .ok { c with pos := n.toNat }

/-- codestream_rune.go:46 `PosToLine`. -/
def posToLine (c : RuneStream) (pos : Int) : Int := (bisectRight c.lineStarts pos : Int) - 1

/-- codestream_rune.go:47 `PosToCol`. -/
def posToCol (c : RuneStream) (pos : Int) : Except Panic Int := do
  let ls ← goIndex c.lineStarts (c.posToLine pos)
  return pos - ls

/-- codestream_rune.go:49 `Line`. -/
def line (c : RuneStream) : Int := c.posToLine c.pos

/-- codestream_rune.go:50 `Col`. -/
def col (c : RuneStream) : Except Panic Int := c.posToCol c.pos

/-- codestream_rune.go:57-68 `GetUntil`. -/
def getUntil (c : RuneStream) (e : Bytes) : Except Panic (Bytes × RuneStream) := do
  let rest ← goSlice c.text c.pos c.text.length
  let offset : Nat := match stringsIndex e rest with
    | none => c.text.length
    | some o => o + c.pos + e.length
  let s ← goSlice c.text c.pos offset
  return (s, { c with pos := offset })

/-- codestream_rune.go:76-84: the runes written to the builder. -/
def peekForward (rest : Bytes) (n : Nat) : Bytes :=
  ((rangeRunes rest).take n).flatMap (fun p => encodeRune p.2)

/-- codestream_rune.go:71-86 `PeekRunes`. -/
def peekRunes (c : RuneStream) (n : Int) : Except Panic Bytes := do
  if n ≤ 0 then
    let before ← goSlice c.text 0 c.pos
    lastNRunes before (-n)
  else
    let rest ← goSlice c.text c.pos c.text.length
    return peekForward rest n.toNat

/-- codestream_rune.go:93-118 `PeekLines` and codestream_token.go:168-193 share this computation
once the current line `cur` and the text are known; `n0` is the first argument and `ns` the
remaining ones. -/
def peekLinesCore (text : Bytes) (lineStarts : List Int) (cur : Int) (n0 : Int) (ns : List Int) :
    Except Panic Bytes := do
  let mn := ns.foldl (fun m n => if n < m then n else m) n0
  let mx := ns.foldl (fun m n => if n > m then n else m) n0
  let start ← goIndex lineStarts (goMax 0 (cur + mn))
  let last : Int := (lineStarts.length : Int) - 1
  let endLine := goMin last (cur + mx)
  let e ← if endLine < last then do
      let x ← goIndex lineStarts (endLine + 1)
      pure (x - 1)
    else pure (text.length : Int)
  sliceString text start e

/-- codestream_rune.go:93-118 `PeekLines`. -/
def peekLines (c : RuneStream) (n : List Int) : Except Panic Bytes :=
  match n with
  | [] => .ok []
  | [a] => peekLinesCore c.text c.lineStarts c.line a [0]
  | a :: rest => peekLinesCore c.text c.lineStarts c.line a rest

/-- codestream_rune.go:123-129 `MatchString`. -/
def matchString (c : RuneStream) (s : Bytes) : Except Panic (Option Bytes × RuneStream) := do
  let piece ← goSlice c.text c.pos (goMin (c.pos + s.length) c.text.length)
  if s ≠ piece then return (none, c)
  else return (some s, { c with pos := c.pos + s.length })

/-- codestream_rune.go:134-148 `MatchRegexp`. -/
def matchRegexp (c : RuneStream) (re : Regex) : Except Panic (Option Bytes × RuneStream) := do
  let rest ← goSlice c.text c.pos c.text.length
  match re.find rest with
  | none => return (none, c)
  | some (a, b) =>
    if a ≠ 0 then return (none, c)
    else do
      let s ← goSlice c.text (c.pos + a) (goMin (c.pos + b) c.text.length)
      return (some s, { c with pos := c.pos + b })

/-- codestream_rune.go:153-179 `MatchRune`.  The `for range` loop looks at the first rune and, if it
matched, at the offset of the second one. -/
def matchRune (c : RuneStream) (f : Nat → Bool) : Except Panic (Option Nat × RuneStream) := do
  if c.pos ≥ c.text.length then return (none, c)
  else
    let rest ← goSlice c.text c.pos c.text.length
    match rangeRunes rest with
    | [] => do
      -- loop body never entered: newPos == code.pos
      let c' ← c.setPos c.text.length
      return (some 0, c')
    | (_, r) :: more =>
      if !f r then return (none, c)
      else
        let newPos : Nat := match more with
          | [] => c.pos
          | (offset, _) :: _ => c.pos + offset
        if newPos = c.pos then do
          let c' ← c.setPos c.text.length
          return (some r, c')
        else do
          let c' ← c.setPos newPos
          return (some r, c')

/-- codestream_rune.go:184-186 the two slices printed by `Print`. -/
def printSlices (c : RuneStream) : Except Panic (Bytes × Bytes) := do
  let a ← sliceString c.text (goMax 0 ((c.pos : Int) - 20)) c.pos
  let b ← sliceString c.text c.pos ((c.pos : Int) + 40)
  return (a, b)

end RuneStream
end Joeson
