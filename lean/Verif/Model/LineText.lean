import Verif.Model.Build
import Verif.Model.Print
/-!
# How lines are printed in the messages about a wrong grammar: `stringIndent` of line_*.go, parser_rank.go:41

The levels of indentation are natural numbers: they start at 0 (parser_rank.go:41, line.go:61) or above (line.go:92) and are only
increased (line_a.go:21). Names are ASCII. Left out: `summarizeRule` (line.go:76-104), after which the program exits.
-/

namespace Joeson

/-- `helpers.Indent` where it cannot panic. -/
def indentOk (n : Nat) : Bytes :=
  match indent n with
  | .ok s => s
  | .error _ => []

/-- line_s.go:15-17: `strings.Replace(s, "\n", "\\n", -1)` -/
def replaceNewlines : Bytes → Bytes
  | [] => []
  | b :: s => if b = 0x0A then 0x5C :: 0x6E :: replaceNewlines s else b :: replaceNewlines s

/-- line_o.go:26-27, line_i.go:28-29: what matches `^ *o *` is replaced with `o ` (without the flag `m`, `^` matches at the beginning of the
text only). -/
def replaceO (s : Bytes) : Bytes :=
  match s.dropWhile (· == 0x20) with
  | 0x6F :: r => asc "o " ++ r.dropWhile (· == 0x20)
  | _ => s

/-- line_o.go:28-30, line_i.go:30-32; the letter is U+1D627. -/
def cbMark (o : RuleOpts) : Bytes := if o.cb.isSome then asc " " ++ yellow [0xF0, 0x9D, 0x98, 0xA7] else []

mutual
/-- `stringIndent`: line_o.go:22-32, line_i.go:24-34, line_a.go:17-27, line_s.go:15-17, line_c.go:11-13. -/
def Line.stringIndent (src : Regex → Bytes) (nm : Nat → String) (n : Nat) : Line → Bytes
  | .o name content opts =>
    indentOk n ++ asc "o" ++ (asc " " ++ asc name ++ asc " ") ++ replaceO (Line.stringIndent src nm n content) ++ cbMark opts
  | .i name content opts =>
    indentOk n ++ asc "i" ++ (asc " " ++ asc name ++ asc " ") ++ replaceO (Line.stringIndent src nm n content) ++ cbMark opts
  | .a ls => boldBlue (asc "[\n") ++ Line.stringArray src nm (n + 1) ls ++ indentOk n ++ boldBlue (asc "]")
  | .s t => replaceNewlines t
  | .c _ p => p.string src nm
/-- Loop of line_a.go:20-23. -/
def Line.stringArray (src : Regex → Bytes) (nm : Nat → String) (n : Nat) : List Line → Bytes
  | [] => []
  | l :: ls => Line.stringIndent src nm n l ++ asc "\n" ++ Line.stringArray src nm n ls
end

/-- parser_rank.go:34-43: what the panic says at the first line that is neither `O` nor `I`. -/
def unknownLine (src : Regex → Bytes) (nm : Nat → String) : Line → Option Bytes
  | .o _ _ _ => none
  | .i _ _ _ => none
  | l => some (asc "Unknown type line, expected 'o' or 'i' line, got '" ++ Line.stringIndent src nm 0 l ++ asc "' (" ++
      (match l with | .a _ => asc "joeson.ALine" | .s _ => asc "joeson.sLine" | _ => asc "joeson.cLine") ++ asc ")")

end Joeson
