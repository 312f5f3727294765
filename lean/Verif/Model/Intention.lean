import Verif.Model.Joeson
/-!
# The grammar of rule texts, written as rule texts

joeson_intention.go. Callbacks have the numbers of `joesonLines`, since they are the same functions.
-/

namespace Joeson

namespace Joe
/-- line.go: `o("text", ...)` -/
def tx (text : String) : LineFirst := .plain (.text (asc text))
/-- joeson_handcompiled.go:58-60 `named` with a text -/
def nt (name : String) (text : String) : LineFirst := .named name (.text (asc text))
end Joe

open Joe in
/-- joeson_intention.go:7-57 `IntentionRules` -/
def intentionLines : Except Panic (List Line) := do
  return [
    ← lineO (nm "EXPR" [
      ← lineO (tx "CHOICE _") [],
      ← lineO (nm "CHOICE" [
        ← lineO (tx "_PIPE* SEQUENCE*_PIPE{2,} _PIPE*") [.cb 0],
        ← lineO (nm "SEQUENCE" [
          ← lineO (tx "UNIT{2,}") [.cb 1],
          ← lineO (nm "UNIT" [
            ← lineO (tx "_ LABELED") [],
            ← lineO (nm "LABELED" [
              ← lineO (tx "(label:LABEL ':')? &:(DECORATED|PRIMARY)") [],
              ← lineO (nm "DECORATED" [
                ← lineO (tx "PRIMARY '?'") [.cb 2],
                ← lineO (tx "value:PRIMARY '*' join:(!__ PRIMARY)? @:RANGE?") [.cb 3],
                ← lineO (tx "value:PRIMARY '+' join:(!__ PRIMARY)?") [.cb 4],
                ← lineO (tx "value:PRIMARY @:RANGE") [.cb 3],
                ← lineO (tx "'!' PRIMARY") [.cb 5],
                ← lineO (tx "'(?' expr:EXPR ')' | '?' expr:EXPR") [.cb 6],
                ← lineI (nt "RANGE" "'{' _ min:INT? _ ',' _ max:INT? _ '}'") []
              ]) [],
              ← lineO (nm "PRIMARY" [
                ← lineO (tx "WORD '(' EXPR ')'") [.cb 7],
                ← lineO (tx "WORD") [.cb 7],
                ← lineO (tx "'(' inlineLabel:(WORD ': ')? expr:EXPR ')' ( _ '->' _ code:CODE )?") [.cb 8],
                ← lineI (nt "CODE" "'{' (!'}' (ESC1 | .))* '}'") [.cb 8],
                ← lineO (tx "'\\'' (!'\\'' (ESC1 | .))* '\\''") [.cb 9],
                ← lineO (tx "'/' (!'/' (ESC2 | .))* '/'") [.cb 10],
                ← lineO (tx "'[' (!']' (ESC2 | .))* ']'") [.cb 11]
              ]) []
            ]) []
          ]) []
        ]) []
      ]) []
    ]) [],
    ← lineI (nt "LABEL" "'&' | '@' | WORD") [],
    ← lineI (nt "WORD" "/[a-zA-Z\\._][a-zA-Z\\._0-9]*/") [],
    ← lineI (nt "INT" "/[0-9]+/") [.cb 12],
    ← lineI (nt "_PIPE" "_ '|'") [],
    ← lineI (nt "_" "(' ' | '\n')*") [],
    ← lineI (nt "__" "(' ' | '\n')+") [],
    ← lineI (nt "." "/[\\s\\S]/") [],
    ← lineI (nt "ESC1" "'\\\\' .") [],
    ← lineI (nt "ESC2" "'\\\\' .") [.cb 13]
  ]

/-- The grammar built from these lines, their texts being compiled by the grammar `g` of rule texts (grammar.go:59-70
`GrammarWithOptionsFromLines` with the option `LazyGrammar`, as in joeson_test.go:11-33). -/
def intentionMade (rx : Bytes → Option Regex) (g : Grammar) (tr : Trace) (fuel : Nat) (name : String) : Except Panic Made := do
  grammarFromLines (compileRule rx g tr fuel) name (← intentionLines)

end Joeson
