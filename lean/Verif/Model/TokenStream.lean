import Verif.Model.GrammarParse
/-!
# codestream_token.go
-/

namespace Joeson

/-- codestream_token.go:43-48 `Token`. Offsets are Go ints and nothing checks them; overflow is not
modelled. -/
structure Token where
  repr : Bytes
  orig : Int
  work : Int

/-- codestream_token.go:36-42 `TokenStream`. `workOffset` is never negative (see `setPos`). -/
structure TokenStream where
  tokens : List Token
  original : Bytes
  work : Bytes
  workOffset : Nat
  lineStarts : List Int

/-- codestream_token.go:49-55 `coord`, the fields that are used. -/
structure Coord where
  nToken : Nat
  offsetInToken : Int
  originalOffset : Int

/-- codestream_token.go:310-319, the loop of `coords` over the remaining tokens: the value left in the
variable `token` (`prev` on entry, the zero Token at first), the token at the index `nToken`, and
`nToken` itself. On the last token the loop stops before `token` is assigned (line 311). -/
def coordsLoop (w : Int) : Token → Nat → List Token → Option (Token × Token × Nat)
  | _, _, [] => none
  | prev, n, [t] => some (prev, t, n)
  | _, n, t :: t' :: rest =>
    if w < t.work + t.repr.length then some (t, t, n) else coordsLoop w t (n + 1) (t' :: rest)

namespace TokenStream

/-- codestream_token.go:70-82 `NewTokenStream`. -/
def new (text : Bytes) (tokens : List Token) : TokenStream :=
  ⟨tokens, text, tokens.flatMap (·.repr), 0, lineStartsOf text⟩

/-- codestream_token.go:92-97 `SetPos`. -/
def setPos (c : TokenStream) (n : Int) : Except Panic TokenStream :=
  if n < 0 ∨ n > (c.work.length : Int) then .error .outOfBound
  else .ok { c with workOffset := n.toNat }

/-- codestream_token.go:301-332 `coords`. The check of lines 320-323 never fires: `nToken` stops at the last
token. -/
def coords (c : TokenStream) (w : Int) : Coord :=
  match coordsLoop w ⟨[], 0, 0⟩ 0 c.tokens with
  | none => ⟨0, 0, 0⟩
  | some (token, atN, n) => ⟨n, w - token.work, atN.orig + (w - token.work)⟩

/-- codestream_token.go:107-112 `PosToLine`. -/
def posToLine (c : TokenStream) (w : Int) : Int :=
  (bisectRight c.lineStarts (c.coords w).originalOffset : Int) - 1

/-- codestream_token.go:116-119 `PosToCol`. -/
def posToCol (c : TokenStream) (w : Int) : Except Panic Int := do
  let ls ← goIndex c.lineStarts (c.posToLine w)
  return (c.coords w).originalOffset - ls

/-- codestream_token.go:100 `Line`. -/
def line (c : TokenStream) : Int := c.posToLine c.workOffset

/-- codestream_token.go:103 `Col`. -/
def col (c : TokenStream) : Except Panic Int := c.posToCol c.workOffset

/-- codestream_token.go:131-142 `GetUntil`. -/
def getUntil (c : TokenStream) (needle : Bytes) : Except Panic (Bytes × TokenStream) := do
  let rest ← goSlice c.work c.workOffset c.work.length
  let offset : Nat := match stringsIndex needle rest with
    | none => c.work.length
    | some o => o + c.workOffset + needle.length
  let s ← goSlice c.work c.workOffset offset
  return (s, { c with workOffset := offset })

/-- codestream_token.go:147-162 `PeekRunes`. -/
def peekRunes (c : TokenStream) (n : Int) : Except Panic Bytes := do
  if n ≤ 0 then
    let before ← goSlice c.work 0 c.workOffset
    lastNRunes before (-n)
  else
    let rest ← goSlice c.work c.workOffset c.work.length
    return RuneStream.peekForward rest n.toNat

/-- codestream_token.go:168-193 `PeekLines`: lines of the original text. -/
def peekLines (c : TokenStream) (n : List Int) : Except Panic Bytes :=
  match n with
  | [] => RuneStream.peekLinesCore c.original c.lineStarts c.line 0 []
  | [a] => RuneStream.peekLinesCore c.original c.lineStarts c.line a [0]
  | a :: rest => RuneStream.peekLinesCore c.original c.lineStarts c.line a rest

/-- codestream_token.go:198-224 `MatchRune`. -/
def matchRune (c : TokenStream) (f : Nat → Bool) : Except Panic (Option Nat × TokenStream) := do
  if c.workOffset ≥ c.work.length then return (none, c)
  else
    let rest ← goSlice c.work c.workOffset c.work.length
    match rangeRunes rest with
    | [] => do
      let c' ← c.setPos c.work.length
      return (some 0, c')
    | (_, r) :: more =>
      if !f r then return (none, c)
      else
        let newPos : Nat := match more with
          | [] => c.workOffset
          | (offset, _) :: _ => c.workOffset + offset
        if newPos = c.workOffset then do
          let c' ← c.setPos c.work.length
          return (some r, c')
        else do
          let c' ← c.setPos newPos
          return (some r, c')

/-- codestream_token.go:229-236 `MatchString`. -/
def matchString (c : TokenStream) (s : Bytes) : Except Panic (Option Bytes × TokenStream) := do
  let piece ← goSlice c.work c.workOffset (goMin (c.workOffset + s.length) c.work.length)
  if s ≠ piece then return (none, c)
  else return (some s, { c with workOffset := c.workOffset + s.length })

/-- codestream_token.go:241-255 `MatchRegexp`. -/
def matchRegexp (c : TokenStream) (re : Regex) : Except Panic (Option Bytes × TokenStream) := do
  let rest ← goSlice c.work c.workOffset c.work.length
  match re.find rest with
  | none => return (none, c)
  | some (a, b) =>
    if a ≠ 0 then return (none, c)
    else do
      let s ← goSlice c.work (c.workOffset + a) (goMin (c.workOffset + b) c.work.length)
      return (some s, { c with workOffset := c.workOffset + b })

/-- codestream_token.go:258-270 the two slices printed by `Print`. -/
def printSlices (c : TokenStream) : Except Panic (Bytes × Bytes) := do
  let o := (c.coords c.workOffset).originalOffset
  let a ← sliceString c.original (goMax 0 (o - 20)) o
  let b ← sliceString c.original o (o + 40)
  return (a, b)

/-- The stream with another position. -/
def withPos (c : TokenStream) (p : Nat) : TokenStream := { c with workOffset := p }

/-- parsectx.go:62-75 `ParseContext.String` on a token stream: only its panics matter. -/
def render (c : TokenStream) : Except Panic Unit := do
  let _ ← c.col
  let a ← c.peekRunes (-5)
  let e := escape a
  let _ ← sliceString e ((e.length : Int) - 5) e.length
  let b ← c.peekRunes 20
  let _ ← sliceString (escape b) 0 20
  return ()

/-- grammar.go:138-151 on a token stream: the calls building the message when the cursor is at `pos`. -/
def report (c : TokenStream) (pos maxSuccess maxAttempt : Nat) : Except Panic Report := do
  let c := c.withPos pos
  let col ← c.posToCol maxSuccess
  let printed ← c.printSlices
  let ok ← c.peekLines [-2]
  let parsing ← c.peekRunes ((maxSuccess : Int) - (pos : Int))
  let c ← c.setPos maxSuccess
  let suspect ← c.peekRunes ((maxAttempt : Int) - (c.workOffset : Int))
  let c ← c.setPos maxAttempt
  let unknown ← c.peekLines [2]
  return { char := maxSuccess, line := c.posToLine maxSuccess, col := col, printed := printed,
           ok := ok, parsing := parsing, suspect := suspect, unknown := unknown }

end TokenStream

/-- `TokenStream` as the engine's code stream. -/
def Stream.ofTokens (c : TokenStream) : Stream where
  len := c.work.length
  matchString p b := do
    let (r, c) ← (c.withPos p).matchString b
    return (r, c.workOffset)
  matchRegexp p re := do
    let (r, c) ← (c.withPos p).matchRegexp re
    return (r, c.workOffset)
  line p := (c.withPos p).line
  render p := (c.withPos p).render

section
variable {V H : Type}

/-- grammar.go:94-104 `ParseTokens`: the parse starts at the stream's current position. -/
def parseTokens (ops : Ops V H) (g : Grammar) (trace : Trace) (opts : List ParseOption) (fuel : Nat)
    (h : H) (c : TokenStream) : Out (Outcome V × St V H) × Trace :=
  grammarParse ops (Stream.ofTokens c) c.report g trace (opts.foldl CtxOptions.apply {}) fuel h c.workOffset

/-- The caller's stream after a `ParseTokens` that returned with final state `s`: the parse leaves its cursor
where it stopped, and building an error message moves it on to `maxAttempt` (grammar.go:122-151). -/
def tokensAfter (g : Grammar) (c : TokenStream) (s : St V H) : TokenStream :=
  c.withPos (if s.pos ≠ c.work.length then
    (scanRows s g.numRules s.pos (c.work.length + 1 - s.pos) (s.pos, s.pos)).1 else s.pos)

end

/-! ## TokenStreamFromGoCode -/

/-- What one call of the Go scanner returns, as far as it is used (codestream_token.go:367-389): the offset in
the source (`int(pos) - 1`), `tok.String()`, the literal, and whether it is a comma. EOF ends the list. -/
structure ScanTok where
  offset : Int
  tokStr : Bytes
  lit : Bytes
  isComma : Bool

/-- The regular expression `[a-zA-Z0-9_=]$` (codestream_token.go:365). -/
def needsSpaceAfter (prev : Bytes) : Bool :=
  match prev.getLast? with
  | none => false
  | some b => (0x61 ≤ b && b ≤ 0x7A) || (0x41 ≤ b && b ≤ 0x5A) || (0x30 ≤ b && b ≤ 0x39) || b == 0x5F || b == 0x3D

/-- codestream_token.go:372-389: the text of a token. -/
def goTokenText (prev : Bytes) (t : ScanTok) : Bytes :=
  if t.tokStr = asc ";" ∧ t.lit = asc "\n" then asc ";\n"
  else if t.lit ≠ [] then (if needsSpaceAfter prev then asc " " ++ t.lit else t.lit)
  else if needsSpaceAfter prev && t.isComma then asc " " ++ t.tokStr else t.tokStr

/-- codestream_token.go:367-393: the scan loop. -/
def goTokensLoop : Int → Bytes → List ScanTok → List Token
  | _, _, [] => []
  | workOffset, prev, t :: rest =>
    let s := goTokenText prev t
    let workOffset := workOffset + prev.length
    ⟨s, t.offset, workOffset⟩ :: goTokensLoop workOffset s rest

/-- An error reported by the Go scanner (codestream_token.go:397-400 `scannerError`). -/
structure ScanError where
  pos : Nat
  msg : String
  deriving DecidableEq

/-- How the Go scanner (not modelled) behaves on a source: the errors it reports while `Init` reads the first
character, the tokens it returns, and the errors it reports while scanning. -/
structure Scanner where
  initErrors : List ScanError
  toks : List ScanTok
  scanErrors : List ScanError

/-- What `TokenStreamFromGoCode` gives. -/
inductive GoResult where
  | stream (c : TokenStream)
  | errors (l : List ScanError)
  | panic (p : Panic)

/-- codestream_token.go:344-395 `TokenStreamFromGoCode`, with the package variable `scanErrors` (334-339)
before and after. -/
def tokenStreamFromGoCode (scan : Bytes → Scanner) (source : Bytes) (scanErrors : List ScanError) :
    GoResult × List ScanError :=
  let sc := scan source
  let errs := scanErrors ++ sc.initErrors
  if sc.initErrors.length > 0 then
    if sc.initErrors.length ≠ errs.length then (.panic .assertion, errs)
    else (.errors errs, errs)
  else (.stream (TokenStream.new source (goTokensLoop 0 [] sc.toks)), errs ++ sc.scanErrors)

end Joeson
