import Verif.Model.Go
/-!
# Go's UTF-8 decoding (package unicode/utf8) and `strings.Builder.WriteRune`

These standard library functions are what `for range` over a string
(codestream_rune.go:29, 77, 160; codestream_token.go:72, 153, 205) and
`helpers.LastNRunes` (helpers/helpers.go:139-174) rely on.  Runes are natural numbers.
-/

namespace Joeson

/-- `utf8.RuneError`, used at helpers/helpers.go:147, 167. -/
def runeError : Nat := 0xFFFD

/-- `utf8.RuneStart(b)`: not a continuation byte (used by `DecodeLastRuneInString`). -/
def runeStart (b : UInt8) : Bool := !(0x80 ≤ b.toNat && b.toNat < 0xC0)

/-- Is `b` a byte in the interval `[lo, hi]`? -/
def inRange (b : UInt8) (lo hi : Nat) : Bool := lo ≤ b.toNat && b.toNat ≤ hi

/-- Width in bytes announced by a leading byte together with the accepted range of the second byte
(tables `first` and `acceptRanges` of unicode/utf8).  `none` for bytes that can not start a
multi byte sequence. -/
def leadInfo (b : UInt8) : Option (Nat × Nat × Nat) :=
  let n := b.toNat
  if 0xC2 ≤ n && n ≤ 0xDF then some (2, 0x80, 0xBF)
  else if n == 0xE0 then some (3, 0xA0, 0xBF)
  else if n == 0xED then some (3, 0x80, 0x9F)
  else if 0xE1 ≤ n && n ≤ 0xEF then some (3, 0x80, 0xBF)
  else if n == 0xF0 then some (4, 0x90, 0xBF)
  else if n == 0xF4 then some (4, 0x80, 0x8F)
  else if 0xF1 ≤ n && n ≤ 0xF3 then some (4, 0x80, 0xBF)
  else none

/-- `utf8.DecodeRuneInString`: first rune and its width.  Malformed input gives `(RuneError, 1)`,
empty input `(RuneError, 0)`. -/
def decodeRune : Bytes → Nat × Nat
  | [] => (runeError, 0)
  | b0 :: rest =>
    if b0.toNat < 0x80 then (b0.toNat, 1)
    else match leadInfo b0 with
      | none => (runeError, 1)
      | some (w, lo, hi) =>
        match rest with
        | [] => (runeError, 1)
        | b1 :: rest1 =>
          if !inRange b1 lo hi then (runeError, 1)
          else if w == 2 then ((b0.toNat - 0xC0) * 64 + (b1.toNat - 0x80), 2)
          else match rest1 with
            | [] => (runeError, 1)
            | b2 :: rest2 =>
              if !inRange b2 0x80 0xBF then (runeError, 1)
              else if w == 3 then
                ((b0.toNat - 0xE0) * 4096 + (b1.toNat - 0x80) * 64 + (b2.toNat - 0x80), 3)
              else match rest2 with
                | [] => (runeError, 1)
                | b3 :: _ =>
                  if !inRange b3 0x80 0xBF then (runeError, 1)
                  else ((b0.toNat - 0xF0) * 262144 + (b1.toNat - 0x80) * 4096
                        + (b2.toNat - 0x80) * 64 + (b3.toNat - 0x80), 4)

/-- The backwards search of `utf8.DecodeLastRuneInString`: starting at index `start - 1`, go down
to `lim` while the byte is a continuation byte.  `fuel` is the number of steps still allowed
(at most 3). Returns the start index (`0` when it would become negative). -/
def lastStart (s : Bytes) (lim : Nat) : Nat → Nat → Nat
  | 0, start => start
  | _ + 1, 0 => 0
  | fuel + 1, start + 1 =>
    if start < lim then start
    else match s[start]? with
      | some b => if runeStart b then start else lastStart s lim fuel start
      | none => start

/-- `utf8.DecodeLastRuneInString`: last rune and its width. -/
def decodeLastRune (s : Bytes) : Nat × Nat :=
  match s.getLast? with
  | none => (runeError, 0)
  | some b =>
    if b.toNat < 0x80 then (b.toNat, 1)
    else
      let e := s.length
      let lim := e - 4
      let start := lastStart s lim 4 (e - 1)
      let (r, size) := decodeRune (s.drop start)
      if start + size == e then (r, size) else (runeError, 1)

/-- `utf8.AppendRune` / `strings.Builder.WriteRune`: invalid runes are written as U+FFFD. -/
def encodeRune (r : Nat) : Bytes :=
  if r < 0x80 then [UInt8.ofNat r]
  else if r < 0x800 then [UInt8.ofNat (0xC0 + r / 64), UInt8.ofNat (0x80 + r % 64)]
  else if r > 0x10FFFF || (0xD800 ≤ r && r ≤ 0xDFFF) then [0xEF, 0xBF, 0xBD]
  else if r < 0x10000 then
    [UInt8.ofNat (0xE0 + r / 4096), UInt8.ofNat (0x80 + r / 64 % 64), UInt8.ofNat (0x80 + r % 64)]
  else
    [UInt8.ofNat (0xF0 + r / 262144), UInt8.ofNat (0x80 + r / 4096 % 64),
     UInt8.ofNat (0x80 + r / 64 % 64), UInt8.ofNat (0x80 + r % 64)]

/-- Go's `for offset, rune := range s`: the list of (offset, rune) pairs.  `off` is the offset of
the head of `s`; `fuel` bounds the number of iterations (each consumes at least one byte, so
`s.length` is enough). -/
def rangeRunesAux : Nat → Nat → Bytes → List (Nat × Nat)
  | 0, _, _ => []
  | _ + 1, _, [] => []
  | fuel + 1, off, b :: s =>
    let (r, w) := decodeRune (b :: s)
    (off, r) :: rangeRunesAux fuel (off + w) ((b :: s).drop w)

/-- Go's `for offset, rune := range s`. -/
def rangeRunes (s : Bytes) : List (Nat × Nat) := rangeRunesAux s.length 0 s

end Joeson
