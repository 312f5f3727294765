import Verif.Model.Build
import Verif.Model.Print
/-!
# The table of rules

What a grammar prints about its rules, if it is built with the trace option `Grammar` (`TRACE=grammar`).
-/

namespace Joeson

mutual
/-- `labels_.Get()`: rule.go:43-49, parser_sequence.go:54-60, parser_existential.go:28-46 (after `prepare`),
parser_ref.go:47-60. `follow` answers for a reference labelled `@`. -/
def Node.labelList (follow : String → Except Panic (List String)) : Node → Except Panic (List String)
  | .seq _ _ l => Node.labelLists follow l
  | .exist i n => if i.label ≠ "" ∧ i.label ≠ "@" ∧ i.label ≠ "&" then .ok [i.label] else n.labelList follow
  | .ref i nm => if i.label = "@" then follow nm else .ok (if i.label = "" then [] else [i.label])
  | .str i _ | .regex i _ | .choice i _ | .look i _ | .not i _ | .pattern i _ _ _ _ => .ok (if i.label = "" then [] else [i.label])
  | .rule _ => .ok []
/-- parser_sequence.go:54-60 `calculateLabels` -/
def Node.labelLists (follow : String → Except Panic (List String)) : List Node → Except Panic (List String)
  | [] => .ok []
  | n :: l => do
    let a ← n.labelList follow
    let b ← Node.labelLists follow l
    return a ++ b
end

/-- parser_ref.go:48-54: the labels of a rule, found by name. At most as many references are followed as there are rules. -/
def followList (lookup : String → Option Nat) (rules : List Node) : Nat → String → Except Panic (List String)
  | k, nm => match lookup nm with
    | none => .error (.undefinedRef nm)
    | some id => match k, rules[id]? with
      | k + 1, some n => n.labelList (followList lookup rules k)
      | _, _ => .error .notModelled

/-- helpers/helpers.go:60-62 `TypeOfToString` (`fmt.Sprintf("%T", t)`) of a parser. As in `Node.body`, the alternatives of a rank are
rules, those of a choice are not. `str` is not a pointer (parser_str.go:20-25). -/
def Node.goType : Node → Bytes
  | .str _ _ => asc "joeson.str"
  | .regex _ _ => asc "*joeson.regex"
  | .choice _ alts => match ruleIds alts with
    | some _ => asc "*joeson.rank"
    | none => asc "*joeson.choice"
  | .seq _ _ _ => asc "*joeson.sequence"
  | .exist _ _ => asc "*joeson.existential"
  | .look _ _ => asc "*joeson.lookahead"
  | .not _ _ => asc "*joeson.not"
  | .pattern _ _ _ _ _ => asc "*joeson.pattern"
  | .ref _ _ => asc "*joeson.ref"
  | .rule _ => []

/-- What `rule.parent` of a rule is, as far as the table tells. -/
inductive ParentOf where
  /-- nil -/
  | none
  /-- a rank with this name, and whether its parent is the grammar -/
  | rank (name : String) (top : Bool)
  /-- anything else -/
  | other

/-- grammar.go:339-358: `sParentName` of a rule with the name `own` -/
def parentColumn (own : String) : ParentOf → String
  | .none => "-"
  | .rank name top => if top then "__grammar__" else name
  | .other => own

/-- A row of the table. -/
structure Row where
  name : Bytes
  id : Nat
  type : Bytes
  capture : Bool
  label : Bytes
  labels : List String
  parent : Bytes
  content : Bytes

/-- grammar.go:359-369. `fmt.Println` writes blanks between its arguments, and a newline. -/
def Row.print (r : Row) : Bytes :=
  joinWith (asc " ") [asc "|  ", padLeft r.name 14, padLeft (itoa r.id) 3, padLeft r.type 20, padLeft (boolToString r.capture) 3,
    padLeft r.label 7, padLeft (joinWith (asc ",") (r.labels.map asc)) 21, padLeft r.parent 16, padLeft r.content 30] ++ asc "\n"

/-- grammar.go:336-369: the row of rule `id`. The labels may panic. -/
def ruleRow (src : Regex → Bytes) (parent : Nat → ParentOf) (lookup : String → Option Nat) (rules : List Node) (id : Nat) (n : Node) :
    Except Panic Row := do
  let labels ← n.labelList (followList lookup rules rules.length)
  let names := fun id => ((rules[id]?).map fun n => n.info.name).getD ""
  return { name := asc n.info.name, id, type := n.goType, capture := n.info.capture, label := asc n.info.label, labels,
           parent := asc (parentColumn n.info.name (parent id)), content := n.body src names }

/-- grammar.go:336-370: the loop. What is printed before a panic is not kept. -/
def ruleRows (src : Regex → Bytes) (parent : Nat → ParentOf) (lookup : String → Option Nat) (rules : List Node) :
    Nat → List Node → Except Panic (List Row)
  | _, [] => .ok []
  | id, n :: l => do
    let r ← ruleRow src parent lookup rules id n
    let rs ← ruleRows src parent lookup rules (id + 1) l
    return r :: rs

/-- grammar.go:323-335: the head of the columns -/
def rowsHead : Bytes :=
  joinWith (asc " ") [asc "| ", padLeft (asc "key/name") 14, padLeft (asc "id") 3, padLeft (asc "type") 20, padLeft (asc "cap") 3,
    padLeft (asc "label") 7, padLeft (asc "labels()") 21, padLeft (asc "parent.name") 16, padLeft (asc "contentString") 30] ++ asc "\n" ++
  asc "|   -------------------------------------------------------------------------------------\n"

/-- grammar.go:319-372 `PrintRules` of a grammar with the name `name` that is printed as `self`. -/
def printRules (src : Regex → Bytes) (parent : Nat → ParentOf) (lookup : String → Option Nat) (rules : List Node) (name : String) (self : Bytes) :
    Except Panic Bytes := do
  let head := asc "+--------------- Grammar.Debug() ----------------------------------\n" ++
    asc "| name         : " ++ bold (asc name) ++ asc "\n" ++ asc "| contentString: " ++ self ++ asc "\n" ++
    asc "| rules        : " ++ itoa rules.length ++ asc "\n" ++ asc "| \n"
  if rules.length = 0 then return head
  let rows ← ruleRows src parent lookup rules 0 rules
  return head ++ rowsHead ++ rows.flatMap Row.print ++ asc "| \n"

/-- grammar.go:211-317 `postinit` with the trace option `Grammar`: the same, and the table is printed at the end. -/
def postinitPrinting (src : Regex → Bytes) (parent : Nat → ParentOf) (name : String) (self : Bytes) (rank : Rules) :
    Except Panic (Made × Bytes) := do
  let m ← postinit rank
  let (_, s) ← connect "" {} (walkMonoGrammar rank)
  let rules ← prepAll s.lookup (s.id2rule.map (·.2.2)) []
  let out ← printRules src parent s.lookup rules name self
  return (m, out)

/-- grammar.go:60-71 `GrammarWithOptionsFromLines` with the trace option `Grammar` -/
def grammarFromLinesPrinting (src : Regex → Bytes) (parent : Nat → ParentOf) (self : Bytes) (compile : Bytes → Except Panic Node) (name : String)
    (lines : List Line) : Except Panic (Made × Bytes) := do
  postinitPrinting src parent name self (← rankFromLines compile name lines)

end Joeson
