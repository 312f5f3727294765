import Verif.Model.Go
/-!
# colors.go, helpers/stripansi.go

The regular expression of `StripAnsi` is matched by trying the possibilities in the order of preference of Go's `regexp`
(leftmost match, greedy repetitions, alternatives from left to right). It is matched on bytes: apart from `\u009B`
everything in it is ASCII, and `\u009B` is the bytes C2 9B, which are that character wherever they are next to each
other.
-/

namespace Joeson

/-- colors.go:4 `Esc` -/
def escCode : Bytes := [0x1B]
/-- colors.go:5 `Reset` -/
def resetCode : Bytes := escCode ++ asc "[0m"

/-- colors.go:8-25: all of these functions have this form -/
def paint (code : String) (s : Bytes) : Bytes := escCode ++ asc code ++ s ++ resetCode

/-- colors.go:8 -/
def black : Bytes → Bytes := paint "[30m"
/-- colors.go:9 -/
def red : Bytes → Bytes := paint "[31m"
/-- colors.go:10 -/
def green : Bytes → Bytes := paint "[32m"
/-- colors.go:11 -/
def yellow : Bytes → Bytes := paint "[33m"
/-- colors.go:12 -/
def blue : Bytes → Bytes := paint "[34m"
/-- colors.go:13 -/
def magenta : Bytes → Bytes := paint "[35m"
/-- colors.go:14 -/
def cyan : Bytes → Bytes := paint "[36m"
/-- colors.go:15 -/
def white : Bytes → Bytes := paint "[37m"
/-- colors.go:16 -/
def boldBlack : Bytes → Bytes := paint "[1;30m"
/-- colors.go:17 -/
def boldRed : Bytes → Bytes := paint "[1;31m"
/-- colors.go:18 -/
def boldGreen : Bytes → Bytes := paint "[1;32m"
/-- colors.go:19 -/
def boldYellow : Bytes → Bytes := paint "[1;33m"
/-- colors.go:20 -/
def boldBlue : Bytes → Bytes := paint "[1;34m"
/-- colors.go:21 -/
def boldMagenta : Bytes → Bytes := paint "[1;35m"
/-- colors.go:22 -/
def boldCyan : Bytes → Bytes := paint "[1;36m"
/-- colors.go:23 -/
def boldWhite : Bytes → Bytes := paint "[1;37m"
/-- colors.go:25 -/
def bold : Bytes → Bytes := paint "[1m"

/-! ## Regular expressions -/

/-- The regular expressions used here: a byte of a class, one after the other, either, any number of times, optional. -/
inductive Re where
  | cls (f : UInt8 → Bool)
  | seq (a b : Re)
  | alt (a b : Re)
  | star (a : Re)
  | opt (a : Re)

/-- What is left after `a` matched some number of times, preferred possibilities first. A repetition that consumes
nothing is not tried again. The first argument bounds the number of repetitions. -/
def Re.stars (a : Bytes → List Bytes) : Nat → Bytes → List Bytes
  | 0, s => [s]
  | k + 1, s => ((a s).filter fun r => r.length < s.length).flatMap (Re.stars a k) ++ [s]

/-- What is left of the text after a match at its beginning: all possibilities, preferred ones first. -/
def Re.run : Re → Bytes → List Bytes
  | .cls f, s => match s with
    | [] => []
    | b :: r => if f b then [r] else []
  | .seq a b, s => (a.run s).flatMap b.run
  | .alt a b, s => a.run s ++ b.run s
  | .star a, s => Re.stars a.run s.length s
  | .opt a, s => a.run s ++ [s]

/-- One of the given bytes. -/
def oneOf (s : String) : Re := .cls fun b => (asc s).contains b
/-- This byte. -/
def byte (b : UInt8) : Re := .cls fun x => x == b
/-- `[a-zA-Z\d]` -/
def alnum : Re := .cls fun b =>
  (0x61 ≤ b.toNat && b.toNat ≤ 0x7A) || (0x41 ≤ b.toNat && b.toNat ≤ 0x5A) || (0x30 ≤ b.toNat && b.toNat ≤ 0x39)
/-- `\d` -/
def digit : Re := .cls fun b => 0x30 ≤ b.toNat && b.toNat ≤ 0x39
/-- `[\dA-PRZcf-ntqry=><~]` -/
def finalByte : Re := .cls fun b =>
  (0x30 ≤ b.toNat && b.toNat ≤ 0x39) || (0x41 ≤ b.toNat && b.toNat ≤ 0x50) || (0x66 ≤ b.toNat && b.toNat ≤ 0x6E) ||
    (asc "RZctqry=><~").contains b

/-- `\d{0,4}`; `a{0,n}` is `(a(a...)?)?` -/
def digits04 : Re := .opt (.seq digit (.opt (.seq digit (.opt (.seq digit (.opt digit))))))
/-- `\d{1,4}` -/
def digits14 : Re := .seq digit (.opt (.seq digit (.opt (.seq digit (.opt digit)))))

/-- helpers/stripansi.go:11 `ansi`, with `[\u001B\u009B]` as bytes -/
def ansi : Re :=
  .seq (.alt (byte 0x1B) (.seq (byte 0xC2) (byte 0x9B)))
    (.seq (.star (oneOf "[]()#;?"))
      (.alt
        (.seq (.opt (.seq (.star alnum) (.star (.seq (byte 0x3B) (.star alnum))))) (byte 0x07))
        (.seq (.opt (.seq digits14 (.star (.seq (byte 0x3B) digits04)))) finalByte)))

/-- `ReplaceAllString(s, "")` for a regular expression that does not match the empty text. The first argument bounds the
length. -/
def removeAll (re : Re) : Nat → Bytes → Bytes
  | 0, s => s
  | _ + 1, [] => []
  | k + 1, b :: s => match re.run (b :: s) with
    | r :: _ => removeAll re k r
    | [] => b :: removeAll re k s

/-- helpers/stripansi.go:15-17 `StripAnsi` -/
def stripAnsi (s : Bytes) : Bytes := removeAll ansi s.length s

end Joeson
