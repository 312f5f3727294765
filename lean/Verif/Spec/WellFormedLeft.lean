import Verif.Spec.WellFormed
import Verif.Spec.LeftText
/-!
# Grammars with left recursion that give an answer to every text

As Spec/WellFormed.lean, for the meaning with left recursion of Spec/LeftText.lean: before something has been matched, a rule may
also come back to itself, directly or through alternatives that are part of it (those that no text mentions), but not through
another rule.
-/

namespace Joeson.RuleText

/-- The rule can be called: it has a name that some text mentions. -/
def Callable (L : List GLine) (nm : String) : Prop := nm ≠ "" ∧ nm ∈ mentionsIn L

/-- It can be called, and there is a rule of this name. -/
def CallKnown (L : List GLine) (nm : String) : Prop := Callable L nm ∧ Known L nm

mutual
/-- The body of a rule: before something has been matched, only rules of `low` and of `self`, the rule it is part of, are looked
up. -/
def Body.WfL (L : List GLine) (e known low self : String → Prop) : Body → Prop
  | .text x => x.vp.Wf e known fun n => low n ∨ self n
  | .rank ls => linesWfL L e known low self ls
/-- A line. -/
def GLine.WfL (L : List GLine) (e known low self : String → Prop) : GLine → Prop
  | .alt nm _ b => (Callable L nm → b.WfL L e known low (· = nm)) ∧ (¬ Callable L nm → b.WfL L e known low self)
  | .incl _ _ _ => True
/-- The alternatives. -/
def linesWfL (L : List GLine) (e known low self : String → Prop) : List GLine → Prop
  | [] => True
  | l :: ls => l.WfL L e known low self ∧ linesWfL L e known low self ls
end

/-- The grammar is well formed but for left recursion: `e` holds for the rules that can match nothing, `rank` decreases from a
rule to the other rules looked up before something has been matched. -/
structure WellFormedL (L : List GLine) (e : String → Prop) (rank : String → Nat) : Prop where
  eps : ∀ nm cb b, (nm, cb, b) ∈ rulesOf L → b.Eps e → e nm
  rules : ∀ nm cb b, (nm, cb, b) ∈ rulesOf L → Callable L nm →
    b.WfL L e (CallKnown L) (fun n => CallKnown L n ∧ rank n < rank nm) (· = nm)
  top : linesWfL L e (CallKnown L) (CallKnown L) (fun _ => False) L

end Joeson.RuleText
