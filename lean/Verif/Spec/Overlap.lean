import Verif.Model.Overlap
/-!
# Spec for C90: calls of one Grammar that overlap
-/

namespace Joeson.Spec

/-- Calls that begin and end one inside the other, each with a number of its own while it runs: a callback that parses
returns before the call that runs it does. -/
inductive Nested : List StackStep → Prop where
  | nil : Nested []
  | call {id : Nat} {debug : Bool} {inner rest : List StackStep} (hi : Nested inner) (hr : Nested rest)
      (own : ∀ d, StackStep.enter id d ∉ inner) : Nested (.enter id debug :: (inner ++ .leave id :: rest))

/-- Every call has the option `Debug{true}` off. -/
def NoDebug (l : List StackStep) : Prop := ∀ id, StackStep.enter id true ∉ l

/-- `TraceOptions.Stack` is `b` and no call is running. -/
def idle (b : Bool) : StackState := { flag := b, old := fun _ => none }

end Joeson.Spec
