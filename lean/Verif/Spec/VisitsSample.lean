import Verif.Model.Samples
/-!
# A grammar that needs more work than its length
-/

namespace Joeson.Sample

/-- `S: ('a'* 'b' | 'a')*` -/
def ahead : Grammar where
  rules := [.pattern (ri "S") (.choice { parent := some false } [
    .seq { parent := some false } .single [.pattern { parent := some false } (lit "a") none (-1) (-1), lit "b"],
    lit "a"]) none (-1) (-1)]
  lookup := lookupIn [("S", 0)]
  root := .choice {} [.rule 0]

/-- `S: (x:'a'* 'b' | 'a')*`, where the label is on the letter. -/
def aheadLabel : Grammar where
  rules := [.pattern (ri "S") (.choice { parent := some false } [
    .seq { parent := some false } .single [.pattern { parent := some false } (.str { parent := some false, label := "x" } (asc "a")) none (-1) (-1), lit "b"],
    lit "a"]) none (-1) (-1)]
  lookup := lookupIn [("S", 0)]
  root := .choice {} [.rule 0]

end Joeson.Sample
