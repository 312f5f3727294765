import Verif.Spec.TokenStream
import Verif.Spec.Report
/-!
# Specification for C81: places in tokenised code
-/

namespace Joeson.Spec

/-- Offset `w` of the joined tokens is inside a token, at offset `o` of the text the tokens were found in. -/
def PlaceOf (tokens : List Token) (w o : Nat) : Prop :=
  ∃ pre t post n, tokens = pre ++ t :: post ∧ n < t.repr.length ∧ w = (joined pre).length + n ∧ (o : Int) = t.orig + n

/-- The place that the library shows for offset `w`: that place; but in the last token of several, and after it, as far behind that place
as the token before it is long. -/
inductive ShownPlace (tokens : List Token) (w o : Nat) : Prop
  | inside {pre : List Token} {t : Token} {post : List Token} {n : Nat} : tokens = pre ++ t :: post → post ≠ [] → n < t.repr.length →
      w = (joined pre).length + n → (o : Int) = t.orig + n → ShownPlace tokens w o
  | only {t : Token} : tokens = [t] → (o : Int) = t.orig + w → ShownPlace tokens w o
  | last {pre : List Token} {p t : Token} {n : Nat} : tokens = pre ++ [p, t] → w = (joined (pre ++ [p])).length + n →
      (o : Int) = t.orig + n + p.repr.length → ShownPlace tokens w o

end Joeson.Spec
