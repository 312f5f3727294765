import Verif.Spec.LeftText
/-!
# Two ways to write the same grammar

"This is totally equivalent to the previous grammar, but expressed in a more realistic way (large grammars would choose to
separate choices in several O lines rather than one very long, also allowing callbacks for each alternation)"
(examples/precedence/precedence_test.go:190-195). The alternatives of a text may be written as lines of a rank; rules may be
included anywhere; the callback of a rule may be given to each of the alternatives if it never rejects.
-/

namespace Joeson.RuleText

/-- The alternatives `ps` as lines with the callback `cb`; other rules may be included between them. The lines have no name,
or none that is used (`M`: the names used). -/
inductive SplitLines (M : List String) (cb : Option Nat) : List VP → List GLine → Prop
  | nil : SplitLines M cb [] []
  | incl {nm c b ps ls} : SplitLines M cb ps ls → SplitLines M cb ps (.incl nm c b :: ls)
  | alt {nm e ps ls} : nm = "" ∨ nm ∉ M → SplitLines M cb ps ls → SplitLines M cb (e.vp :: ps) (.alt nm cb (.text e) :: ls)

/-- The same name, or names that are not used. -/
def SameName (M : List String) (nm nm' : String) : Prop := nm = nm' ∨ (nm = "" ∨ nm ∉ M) ∧ (nm' = "" ∨ nm' ∉ M)

mutual
/-- The same rule, with its callback. `Q`: callbacks that never reject. -/
inductive SameRule (M : List String) (Q : Nat → Prop) : Option Nat → Body → Option Nat → Body → Prop
  /-- texts that stand for the same expression: blanks, parentheses, `p+` for `p*{1,}` do not matter -/
  | text {cb e e'} : e.vp = e'.vp → SameRule M Q cb (.text e) cb (.text e')
  | rank {cb ls ls'} : SameLines M Q ls ls' → SameRule M Q cb (.rank ls) cb (.rank ls')
  /-- the alternatives as lines -/
  | split {cb e ps ls} : e.vp = .alt "" ps → SplitLines M none ps ls → SameRule M Q cb (.text e) cb (.rank ls)
  /-- the callback on each of the lines -/
  | splitCb {c e ps ls} : Q c → e.vp = .alt "" ps → SplitLines M (some c) ps ls → SameRule M Q (some c) (.text e) none (.rank ls)
/-- The same alternatives; the included rules do not matter. -/
inductive SameLines (M : List String) (Q : Nat → Prop) : List GLine → List GLine → Prop
  | nil : SameLines M Q [] []
  | left {nm cb b ls ls'} : SameLines M Q ls ls' → SameLines M Q (.incl nm cb b :: ls) ls'
  | right {nm cb b ls ls'} : SameLines M Q ls ls' → SameLines M Q ls (.incl nm cb b :: ls')
  | alt {nm cb b nm' cb' b' ls ls'} : SameName M nm nm' → SameRule M Q cb b cb' b' → SameLines M Q ls ls' →
      SameLines M Q (.alt nm cb b :: ls) (.alt nm' cb' b' :: ls')
end

/-- The same lines of a grammar: the rule of an alternative may also be included, and the alternative be its name. `L`: the
lines of the first grammar. -/
inductive SameTop (L : List GLine) (Q : Nat → Prop) : List GLine → List GLine → Prop
  | nil : SameTop L Q [] []
  | left {nm cb b ls ls'} : SameTop L Q ls ls' → SameTop L Q (.incl nm cb b :: ls) ls'
  | right {nm cb b ls ls'} : SameTop L Q ls ls' → SameTop L Q ls (.incl nm cb b :: ls')
  | alt {nm cb b nm' cb' b' ls ls'} : SameName (mentionsIn L) nm nm' → SameRule (mentionsIn L) Q cb b cb' b' → SameTop L Q ls ls' →
      SameTop L Q (.alt nm cb b :: ls) (.alt nm' cb' b' :: ls')
  | call {e nm q cb' b' ls ls'} : e.vp = .name "" nm q → nm ∈ mentionsIn L → (∃ cb b, (nm, cb, b) ∈ rulesOf L) →
      (∀ cb b, (nm, cb, b) ∈ rulesOf L → SameRule (mentionsIn L) Q cb b cb' b') → SameTop L Q ls ls' →
      SameTop L Q (.alt "" none (.text e) :: ls) (.alt nm cb' b' :: ls')

/-- The same grammar. -/
structure SameGrammar (Q : Nat → Prop) (L L' : List GLine) : Prop where
  lines : SameTop L Q L L'
  /-- the same names are used -/
  mentions : ∀ nm, nm ∈ mentionsIn L ↔ nm ∈ mentionsIn L'
  /-- they stand for the same rules -/
  rules : ∀ nm cb b, (nm, cb, b) ∈ rulesOf L → nm ∈ mentionsIn L →
    ∃ cb' b', (nm, cb', b') ∈ rulesOf L' ∧ SameRule (mentionsIn L) Q cb b cb' b'
  rules' : ∀ nm cb' b', (nm, cb', b') ∈ rulesOf L' → nm ∈ mentionsIn L →
    ∃ cb b, (nm, cb, b) ∈ rulesOf L ∧ SameRule (mentionsIn L) Q cb b cb' b'

mutual
/-- Other names for the alternatives. -/
def GLine.rename (f : String → String) : GLine → GLine
  | .alt nm cb b => .alt (f nm) cb (b.rename f)
  | .incl nm cb b => .incl nm cb (b.rename f)
/-- Other names for the alternatives. -/
def Body.rename (f : String → String) : Body → Body
  | .text e => .text e
  | .rank ls => .rank (renameLines f ls)
/-- Other names for the alternatives. -/
def renameLines (f : String → String) : List GLine → List GLine
  | [] => []
  | l :: ls => l.rename f :: renameLines f ls
end

/-- Names that are used stay, the others are not used afterwards either. `M`: the names used. -/
def KeepsUsed (M : List String) (f : String → String) : Prop :=
  (∀ nm, nm ≠ "" → nm ∈ M → f nm = nm) ∧ ∀ nm, nm = "" ∨ nm ∉ M → f nm = "" ∨ f nm ∉ M

/-- Is it an alternative? -/
def GLine.isAlt : GLine → Bool
  | .alt _ _ _ => true
  | .incl _ _ _ => false

mutual
/-- The texts written in another way. -/
def GLine.rewrite (f : Expr → Expr) : GLine → GLine
  | .alt nm cb b => .alt nm cb (b.rewrite f)
  | .incl nm cb b => .incl nm cb (b.rewrite f)
/-- The texts written in another way. -/
def Body.rewrite (f : Expr → Expr) : Body → Body
  | .text e => .text (f e)
  | .rank ls => .rank (rewriteLines f ls)
/-- The texts written in another way. -/
def rewriteLines (f : Expr → Expr) : List GLine → List GLine
  | [] => []
  | l :: ls => l.rewrite f :: rewriteLines f ls
end

end Joeson.RuleText
