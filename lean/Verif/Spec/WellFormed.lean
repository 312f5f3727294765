import Verif.Spec.Values
/-!
# Grammars that give an answer to every text

Which expressions can match nothing; which rules can be looked up before anything has been matched. A grammar is well formed if
what it repeats cannot match nothing and no rule comes back to itself before something has been matched. (Ford's "well-formed
grammars", on rule texts.)
-/

namespace Joeson.RuleText

mutual
/-- Can it match nothing? `e`: the rules that can. -/
def VP.Eps (e : String → Prop) : VP → Prop
  | .lit _ b => b = []
  | .re _ r => ∃ s, r.find s = some (0, 0)
  | .name _ nm _ => e nm
  | .seq _ l => VP.EpsAll e l
  | .alt _ l => VP.EpsAny e l
  | .opt _ _ | .not _ _ | .look _ _ => True
  | .rep _ v _ mn _ => mn = 0 ∨ v.Eps e
/-- Can all of them? -/
def VP.EpsAll (e : String → Prop) : List VP → Prop
  | [] => True
  | p :: l => p.Eps e ∧ VP.EpsAll e l
/-- Can one of them? -/
def VP.EpsAny (e : String → Prop) : List VP → Prop
  | [] => False
  | p :: l => p.Eps e ∨ VP.EpsAny e l
end

mutual
/-- Can the body of a rule match nothing? -/
def Body.Eps (e : String → Prop) : Body → Prop
  | .text x => x.vp.Eps e
  | .rank ls => linesEps e ls
/-- Can one of the alternatives? -/
def GLine.Eps (e : String → Prop) : GLine → Prop
  | .alt _ _ b => b.Eps e
  | .incl _ _ _ => False
/-- Can one of the alternatives? -/
def linesEps (e : String → Prop) : List GLine → Prop
  | [] => False
  | l :: ls => l.Eps e ∨ linesEps e ls
end

mutual
/-- Only rules of `left` are looked up before something has been matched, only rules of `known` at all, and nothing repeated can
match nothing. -/
def VP.Wf (e known left : String → Prop) : VP → Prop
  | .lit _ _ | .re _ _ => True
  | .name _ nm _ => left nm
  | .seq _ l => VP.WfSeq e known left l
  | .alt _ l => VP.WfAll e known left l
  | .opt _ p | .not _ p | .look _ p => p.Wf e known left
  | .rep _ v none _ _ => v.Wf e known left ∧ ¬ v.Eps e
  | .rep _ v (some p) _ _ => v.Wf e known left ∧ ¬ v.Eps e ∧ p.Wf e known known
/-- One after the other. -/
def VP.WfSeq (e known left : String → Prop) : List VP → Prop
  | [] => True
  | p :: l => p.Wf e known left ∧ (p.Eps e → VP.WfSeq e known left l) ∧ VP.WfSeq e known known l
/-- Each of them. -/
def VP.WfAll (e known left : String → Prop) : List VP → Prop
  | [] => True
  | p :: l => p.Wf e known left ∧ VP.WfAll e known left l
end

mutual
/-- The body of a rule. -/
def Body.Wf (e known left : String → Prop) : Body → Prop
  | .text x => x.vp.Wf e known left
  | .rank ls => linesWf e known left ls
/-- A line. -/
def GLine.Wf (e known left : String → Prop) : GLine → Prop
  | .alt _ _ b => b.Wf e known left
  | .incl _ _ _ => True
/-- The alternatives. -/
def linesWf (e known left : String → Prop) : List GLine → Prop
  | [] => True
  | l :: ls => l.Wf e known left ∧ linesWf e known left ls
end

/-- There is a rule of this name. -/
def Known (L : List GLine) (nm : String) : Prop := ∃ cb b, (nm, cb, b) ∈ rulesOf L

/-- The grammar is well formed: `e` holds for the rules that can match nothing, `rank` decreases from a rule to those looked up
before something has been matched. -/
structure WellFormed (L : List GLine) (e : String → Prop) (rank : String → Nat) : Prop where
  eps : ∀ nm cb b, (nm, cb, b) ∈ rulesOf L → b.Eps e → e nm
  rules : ∀ nm cb b, (nm, cb, b) ∈ rulesOf L → b.Wf e (Known L) fun n => Known L n ∧ rank n < rank nm
  top : linesWf e (Known L) (Known L) L

mutual
/-- All rules looked up need at most `k` levels. -/
def VP.Within (ht : String → Nat) (k : Nat) : VP → Prop
  | .lit _ _ | .re _ _ => True
  | .name _ nm _ => ht nm ≤ k
  | .seq _ l | .alt _ l => VP.WithinAll ht k l
  | .opt _ p | .not _ p | .look _ p => p.Within ht k
  | .rep _ v none _ _ => v.Within ht k
  | .rep _ v (some p) _ _ => v.Within ht k ∧ p.Within ht k
/-- All of them. -/
def VP.WithinAll (ht : String → Nat) (k : Nat) : List VP → Prop
  | [] => True
  | p :: l => p.Within ht k ∧ VP.WithinAll ht k l
end

mutual
/-- The body needs at most `k` levels. -/
def Body.Within (ht : String → Nat) (k : Nat) : Body → Prop
  | .text x => ∃ k', k = k' + 1 ∧ x.vp.Within ht k'
  | .rank ls => ∃ k', k = k' + 1 ∧ linesWithin ht k' ls
/-- A line. -/
def GLine.Within (ht : String → Nat) (k : Nat) : GLine → Prop
  | .alt _ _ b => b.Within ht k
  | .incl _ _ _ => True
/-- The alternatives. -/
def linesWithin (ht : String → Nat) (k : Nat) : List GLine → Prop
  | [] => True
  | l :: ls => l.Within ht k ∧ linesWithin ht k ls
end

/-- Rules do not come back to themselves at all; at most `k` of them are nested. -/
structure Flat (L : List GLine) (ht : String → Nat) (k : Nat) : Prop where
  rules : ∀ nm cb b, (nm, cb, b) ∈ rulesOf L → b.Within ht (ht nm)
  top : linesWithin ht k L

end Joeson.RuleText
