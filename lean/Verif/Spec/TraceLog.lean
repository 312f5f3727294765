import Verif.Model.TraceLog
import Verif.Spec.Report
/-!
# How a trace is read

An opening line (`*`) begins an attempt at a rule. A closing line ends the attempt that began last and has not ended. What
is between is one column further to the right.
-/

namespace Joeson

/-- An attempt that has begun and not ended. -/
structure OpenAttempt where
  rule : Nat
  start : Nat
  depth : Nat
  deriving DecidableEq, Repr

/-- The line ends an attempt. -/
def Msg.closes : Msg → Bool
  | .enter _ | .iteration => false
  | _ => true

/-- The line ends an attempt that was answered without moving. -/
def Msg.atStart : Msg → Bool
  | .hit _ | .base _ => true
  | _ => false

/-- The value that the line shows (nothing for nil). -/
def Msg.shows : Msg → Option Bytes
  | .result x | .hit x | .set x | .done x | .base x => x
  | _ => none

/-- Reading the lines with the given attempts open, the innermost first; what is open in the end. `ok` says whether an
attempt may begin at a depth. -/
def readLines (ok : List OpenAttempt → Nat → Bool) : List OpenAttempt → List LogLine → Option (List OpenAttempt)
  | o, [] => some o
  | o, l :: ls =>
    match l.msg with
    | .enter _ => if ok o l.depth then readLines ok (⟨l.rule, l.pos, l.depth⟩ :: o) ls else none
    | m =>
      match o with
      | [] => none
      | t :: o' =>
        if l.rule = t.rule ∧ l.depth = t.depth ∧ (m.atStart = true → l.pos = t.start) then
          readLines ok (if m.closes then o' else t :: o') ls
        else none

/-- All attempts are there: each is one column to the right of what it is part of. -/
def everyDepth (o : List OpenAttempt) (d : Nat) : Bool := decide (d = o.length + 1)

/-- Some attempts may be missing: each is further to the right than what it is part of. -/
def deeper (o : List OpenAttempt) (d : Nat) : Bool := o.all fun t => decide (t.depth < d)

/-- A complete trace. -/
def WholeTrace (l : List LogLine) : Prop := readLines everyDepth [] l = some []

/-- A trace from which whole attempts may be missing. -/
def NestedTrace (l : List LogLine) : Prop := readLines deeper [] l = some []

instance (l : List LogLine) : Decidable (WholeTrace l) := inferInstanceAs (Decidable (_ = _))
instance (l : List LogLine) : Decidable (NestedTrace l) := inferInstanceAs (Decidable (_ = _))

/-- `Debug` as given last to the call. -/
def callDebug (opts : List ParseOption) : Bool :=
  (opts.reverse.findSome? fun | .debug b => some b | _ => none).getD false

/-- `SkipLog` as given last to the call. -/
def callSkipLog (opts : List ParseOption) : Bool :=
  (opts.reverse.findSome? fun | .skipLog b => some b | _ => none).getD false

/-- The rule is shown: everything is, or the rule has `Debug`. -/
def ruleShown (g : Grammar) (tr : Trace) (opts : List ParseOption) (rule : Nat) : Bool :=
  tr.stack || callDebug opts || ((g.rules[rule]?).map fun n => n.info.debug).getD false

/-- The line is shown: its rule is, `SkipLog` is not given, and the cursor is on the line of `FilterLine`, if that is set.
`lineOf` gives the line of a cursor. -/
def lineShownBy (lineOf : Nat → Int) (g : Grammar) (tr : Trace) (opts : List ParseOption) (l : LogLine) : Bool :=
  ruleShown g tr opts l.rule && !callSkipLog opts && (tr.filterLine == -1 || lineOf l.pos == tr.filterLine)

/-- For a text: lines are counted by newlines before the cursor. -/
def lineShown (g : Grammar) (tr : Trace) (opts : List ParseOption) (text : Bytes) (l : LogLine) : Bool :=
  lineShownBy (fun p => Spec.lineAt text p) g tr opts l

end Joeson
