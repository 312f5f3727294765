import Verif.Model.TokenStream
import Verif.Model.Colors
import Verif.Model.Native
import Verif.Model.Print
/-!
# What code streams print: codestream_rune.go:182-192, codestream_token.go:258-296
-/

namespace Joeson

/-- codestream_rune.go:183-187, codestream_token.go:261-268 and 275-278: the text put together from the two slices -/
def placeText (pos : Int) (total : Nat) (slices : Bytes × Bytes) : Bytes :=
  asc "Code at offset " ++ boldYellow (itoa pos) ++ asc "/" ++ boldYellow (itoa total) ++ asc ": '" ++ cyan slices.1 ++ boldCyan (asc "|") ++
    boldWhite slices.2 ++ asc "'"

/-- codestream_rune.go:182-188 `Print` -/
def RuneStream.print (c : RuneStream) : Except Panic Bytes := do
  return placeText c.pos c.text.length (← c.printSlices)

/-- codestream_rune.go:190-192 `PrintDebug` -/
def RuneStream.printDebug (c : RuneStream) : Except Panic Bytes := c.print

/-- codestream_token.go:258-270 `Print` -/
def TokenStream.print (c : TokenStream) : Except Panic Bytes := do
  return placeText (c.coords c.workOffset).originalOffset c.original.length (← c.printSlices)

/-- codestream_token.go:283: the replacer, byte by byte -/
def debugByte (b : UInt8) : Bytes :=
  if b = 0x0A then asc "<CR>\n" else if b = 0x09 then asc "<TAB>" else if b = 0x20 then asc "_" else [b]

/-- codestream_token.go:294-296 `PrintWorkText` -/
def TokenStream.printWorkText (c : TokenStream) : Bytes := asc "Work text (tokenized):\n" ++ c.work ++ asc "\n"

/-- codestream_token.go:287-290: one token -/
def Token.debug (t : Token) : Bytes := boldBlack (asc "[o=" ++ itoa t.orig ++ asc ", w=" ++ itoa t.work ++ asc "]") ++ t.repr

/-- codestream_token.go:273-292 `PrintDebug`. The first row is about the position in the tokens joined, but its slices are of the original text.
`%v` prints numbers between brackets with blanks. -/
def TokenStream.printDebug (c : TokenStream) : Except Panic Bytes := do
  let pos : Int := c.workOffset
  let a ← sliceString c.original (goMax 0 (pos - 20)) pos
  let b ← sliceString c.original pos (pos + 40)
  return placeText pos c.original.length (a, b) ++ asc "\n" ++
    asc "lineStarts:\n" ++ (asc "[" ++ joinWith (asc " ") (c.lineStarts.map itoa) ++ asc "]\n") ++
    asc "Original text:\n" ++ c.original.flatMap debugByte ++ asc "\n\n" ++ c.printWorkText ++ asc "\n" ++ asc "Tokens:\n" ++ c.tokens.flatMap Token.debug

end Joeson
