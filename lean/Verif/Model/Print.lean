import Verif.Model.Colors
import Verif.Model.Helpers
import Verif.Model.Native
import Verif.Model.Joeson
/-!
# `String()` of parsers

`src` gives the text of a regular expression (`regexp.Regexp.String()`), `nm` the names of rules.
-/

namespace Joeson

/-- parser.go:34-42 `prefix`, for a parser that is not a rule -/
def labelPrefix (i : Info) : Bytes := if i.label ≠ "" then cyan (asc i.label ++ asc ":") else []

/-- parser_regex.go:31: the replacer, byte by byte -/
def escapeRegexByte (b : UInt8) : Bytes :=
  if b = 0x0D then [0x5C, 0x72] else if b = 0x0A then [0x5C, 0x6E] else if b = 0x09 then [0x5C, 0x74] else [b]

/-- The rules of a rank. Only the alternatives of a rank are rules: the alternatives of a choice are part of the rule text
the choice is written in. -/
def ruleIds : List Node → Option (List Nat)
  | [] => some []
  | .rule id :: l => (ruleIds l).map (id :: ·)
  | _ => none

/-- With a separator in between (the loops of parser_choice.go:71-77, parser_rank.go:67-73, parser_sequence.go:88-94). -/
def joinWith (sep : Bytes) : List Bytes → Bytes
  | [] => []
  | [x] => x
  | x :: l => x ++ sep ++ joinWith sep l

/-- parser_pattern.go:137-151: what is printed for the bounds -/
def printBounds (mn mx : Int) : Bytes :=
  if mn < 0 ∧ mx < 0 then cyan []
  else cyan (asc "{" ++ (if mn > -1 then itoa mn else []) ++ asc "," ++ (if mx > -1 then itoa mx else []) ++ asc "}")

mutual
/-- `x.String()`: parser_str.go:30-32, parser_regex.go:30-32, parser_choice.go:67-80, parser_rank.go:63-76,
parser_sequence.go:85-96, parser_existential.go:48-50, parser_lookahead.go:30-32, parser_not.go:42-44,
parser_pattern.go:130-152, parser_ref.go:79 -/
def Node.body (src : Regex → Bytes) (nm : Nat → String) : Node → Bytes
  | .str _ s => green (asc "'" ++ escape s ++ asc "'")
  | .regex _ re => magenta (asc "/" ++ (src re).flatMap escapeRegexByte ++ asc "/g")
  | .choice _ alts => match ruleIds alts with
    | some ids => blue (asc "Rank(") ++ joinWith (blue (asc ",")) (ids.map fun id => red (asc (nm id))) ++ blue (asc ")")
    | none => blue (asc "(") ++ joinWith (blue (asc " | ")) (Node.strings src nm alts) ++ blue (asc ")")
  | .seq _ _ items => blue (asc "(") ++ joinWith (asc " ") (Node.strings src nm items) ++ blue (asc ")")
  | .exist _ it => labelPrefix it.info ++ it.body src nm ++ blue (asc "?")
  | .look _ expr => blue (asc "(?") ++ (labelPrefix expr.info ++ expr.body src nm) ++ blue (asc ")")
  | .not _ it => yellow (asc "!") ++ (labelPrefix it.info ++ it.body src nm)
  | .pattern _ value join mn mx =>
    labelPrefix value.info ++ value.body src nm ++ cyan (asc "*") ++ Node.joinString src nm join ++ printBounds mn mx
  | .ref _ name => red (asc name)
  | .rule id => red (asc (nm id))
/-- `String(x)` of each, ast.go:70-77 -/
def Node.strings (src : Regex → Bytes) (nm : Nat → String) : List Node → List Bytes
  | [] => []
  | n :: l => (labelPrefix n.info ++ n.body src nm) :: Node.strings src nm l
/-- parser_pattern.go:134-136 -/
def Node.joinString (src : Regex → Bytes) (nm : Nat → String) : Option Node → Bytes
  | none => []
  | some n => labelPrefix n.info ++ n.body src nm
end

/-- ast.go:70-77 `String`, for a parser that is not a rule -/
def Node.string (src : Regex → Bytes) (nm : Nat → String) (n : Node) : Bytes := labelPrefix n.info ++ n.body src nm

/-- The name of a rule. -/
def Grammar.nameOfRule (g : Grammar) (id : Nat) : String := (g.info (.rule id)).name

/-- ast.go:70-77 `String` with parser.go:34-42, for a rule -/
def Grammar.ruleString (src : Regex → Bytes) (g : Grammar) (id : Nat) : Bytes :=
  match g.rules[id]? with
  | some n => red (asc n.info.name ++ asc ": ") ++ n.body src g.nameOfRule
  | none => []

/-- grammar.go:190-196 `Grammar.String`. The rank at the top is not a rule, and has no label. -/
def Grammar.string (src : Regex → Bytes) (g : Grammar) : Bytes :=
  magenta (asc "GRAMMAR{") ++ g.root.string src g.nameOfRule ++ magenta (asc "}")

end Joeson
