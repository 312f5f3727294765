import Verif.Model.Build
/-!
# Arrays of rules as they are written, and the rows that should show them
-/

namespace Joeson.Spec
open Joeson

/-- A rule of a grammar as it is written: `O` or `I`, a name or `""`, a rule text or an array of rules, and other arguments. -/
inductive Written where
  | text (incl : Bool) (name : String) (t : Bytes) (opts : List LineOpt)
  | group (incl : Bool) (name : String) (rules : List Written) (opts : List LineOpt)

/-- `Named(name, x)`, or only `x` -/
def firstArg (name : String) (x : LineArg) : LineFirst := if name = "" then .plain x else .named name x

mutual
/-- What `O(...)` or `I(...)` gives. -/
def Written.line : Written → Except Panic Line
  | .text incl name t opts => (if incl then lineI else lineO) (firstArg name (.text t)) opts
  | .group incl name rules opts => do
    let ls ← Written.lines rules
    (if incl then lineI else lineO) (firstArg name (.line (.a ls))) opts
/-- The array. -/
def Written.lines : List Written → Except Panic (List Line)
  | [] => .ok []
  | w :: ws => do
    let l ← w.line
    let ls ← Written.lines ws
    return l :: ls
end

/-- A callback is among the arguments. -/
def hasCallback (opts : List LineOpt) : Bool := opts.any fun | .cb _ => true | _ => false

/-- ` 𝘧` -/
def markOf (opts : List LineOpt) : Bytes := if hasCallback opts then [0x20, 0xF0, 0x9D, 0x98, 0xA7] else []

/-- Two blanks for each level. -/
def blanks (n : Nat) : Bytes := List.replicate (2 * n) 0x20

/-- `O` or `I`, and the name -/
def headOf (incl : Bool) (name : String) : Bytes := (if incl then asc "i " else asc "o ") ++ asc name ++ asc " "

/-- A newline is written `\n`. -/
def onOneLine (t : Bytes) : Bytes := t.flatMap fun b => if b = 0x0A then asc "\\n" else [b]

mutual
/-- The rows for a rule: one with its text, or those of its rules between brackets. The text of a named rule has an `o` before it. -/
def Written.rows (n : Nat) : Written → List Bytes
  | .text incl name t opts => [blanks n ++ headOf incl name ++ (if name = "" then [] else asc "o ") ++ onOneLine t ++ markOf opts]
  | .group incl name rules opts =>
    [blanks n ++ headOf incl name ++ asc "["] ++ Written.rowsAll (n + 1) rules ++ [blanks n ++ asc "]" ++ markOf opts]
def Written.rowsAll (n : Nat) : List Written → List Bytes
  | [] => []
  | w :: ws => Written.rows n w ++ Written.rowsAll n ws
end

/-- Rows one below the other. -/
def unlines (rows : List Bytes) : Bytes := rows.flatMap (· ++ [0x0A])

mutual
/-- No rule text begins with a blank or the letter `o`. -/
def Written.Legible : Written → Prop
  | .text _ _ t _ => t.head? ≠ some 0x20 ∧ t.head? ≠ some 0x6F
  | .group _ _ rules _ => Written.AllLegible rules
def Written.AllLegible : List Written → Prop
  | [] => True
  | w :: ws => w.Legible ∧ Written.AllLegible ws
end

mutual
/-- Names have no blank and no newline; a rule text has no newline, is not a bracket alone, and does not end with ` 𝘧`. -/
def Written.Clean : Written → Prop
  | .text _ name t _ => 0x20 ∉ asc name ∧ 0x0A ∉ asc name ∧ 0x0A ∉ t ∧ t ≠ asc "[" ∧ ¬ [0x20, 0xF0, 0x9D, 0x98, 0xA7] <:+ t
  | .group _ name rules _ => 0x20 ∉ asc name ∧ 0x0A ∉ asc name ∧ Written.AllClean rules
def Written.AllClean : List Written → Prop
  | [] => True
  | w :: ws => w.Clean ∧ Written.AllClean ws
end

mutual
/-- The same rules, but for what the callbacks and options are. -/
inductive Written.Same : Written → Written → Prop
  | text {incl : Bool} {name name' : String} {t : Bytes} {opts opts' : List LineOpt} : asc name = asc name' → hasCallback opts = hasCallback opts' →
      Written.Same (.text incl name t opts) (.text incl name' t opts')
  | group {incl : Bool} {name name' : String} {rules rules' : List Written} {opts opts' : List LineOpt} : asc name = asc name' →
      hasCallback opts = hasCallback opts' → Written.AllSame rules rules' → Written.Same (.group incl name rules opts) (.group incl name' rules' opts')
inductive Written.AllSame : List Written → List Written → Prop
  | nil : Written.AllSame [] []
  | cons {w w' : Written} {ws ws' : List Written} : Written.Same w w' → Written.AllSame ws ws' → Written.AllSame (w :: ws) (w' :: ws')
end

end Joeson.Spec
