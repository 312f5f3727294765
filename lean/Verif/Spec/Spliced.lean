import Verif.Spec.Values
/-!
# References labelled `@`

`@:name` in a rule text merges the value of the rule into the object of the sequence (parser_sequence.go:162-176), and what
labels it contributes is what the text of the rule says (parser_ref.go:47-54).
-/

namespace Joeson.RuleText

mutual
/-- The names of the references labelled `@`. -/
def VP.spliced : VP → List String
  | .name lab nm _ => if lab = "@" then [nm] else []
  | .lit _ _ | .re _ _ => []
  | .seq _ l | .alt _ l => splicedIn l
  | .opt _ p | .not _ p | .look _ p => p.spliced
  | .rep _ v s _ _ => v.spliced ++ splicedInO s
/-- In all. -/
def splicedIn : List VP → List String
  | [] => []
  | p :: l => p.spliced ++ splicedIn l
/-- If there is one. -/
def splicedInO : Option VP → List String
  | none => []
  | some p => p.spliced
end

mutual
/-- Those inside something optional. -/
def VP.optSpliced : VP → List String
  | .name _ _ _ | .lit _ _ | .re _ _ => []
  | .seq _ l | .alt _ l => optSplicedIn l
  | .opt _ p => p.spliced
  | .not _ p | .look _ p => p.optSpliced
  | .rep _ v s _ _ => v.optSpliced ++ optSplicedInO s
/-- In all. -/
def optSplicedIn : List VP → List String
  | [] => []
  | p :: l => p.optSpliced ++ optSplicedIn l
/-- If there is one. -/
def optSplicedInO : Option VP → List String
  | none => []
  | some p => p.optSpliced
end

/-- The rule of that name is a text with labels. -/
def Labelled (L : List GLine) (nm : String) : Prop := ∃ cb e, (nm, cb, Body.text e) ∈ rulesOf L ∧ e.vp.hasLabels = true

/-- The rule of that name is a text with labels, and so are the rules that it merges, and those that they merge, ...; it does
not come back to itself. -/
inductive Spliceable (L : List GLine) : String → Prop
  | intro {nm cb e} : (nm, cb, Body.text e) ∈ rulesOf L → e.vp.hasLabels = true → (∀ nm' ∈ e.vp.spliced, Spliceable L nm') → Spliceable L nm

theorem Spliceable.labelled {L : List GLine} {nm : String} (h : Spliceable L nm) : Labelled L nm := by
  cases h with
  | intro h1 h2 _ => exact ⟨_, _, h1, h2⟩

/-- What the text merges with `@:name` are rules that are texts with labels, and none of it is optional. -/
def Expr.Merges (L : List GLine) (e : Expr) : Prop := (∀ nm ∈ e.vp.spliced, Spliceable L nm) ∧ e.vp.optSpliced = []

end Joeson.RuleText
