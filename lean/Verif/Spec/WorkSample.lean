import Verif.Model.Samples
/-! # A left recursive rule whose failures are not remembered (not part of /repo) -/

namespace Joeson.Sample

/-- `E: E '+' | 'a' E 'b' | 'a' E 'c' | 'x'`. -/
def twice : Grammar where
  rules := [.choice (ri "E") [
    .seq { parent := some false } .array [ref "E", lit "+"],
    .seq { parent := some false } .array [lit "a", ref "E", lit "b"],
    .seq { parent := some false } .array [lit "a", ref "E", lit "c"],
    .str {} (asc "x")]]
  lookup := lookupIn [("E", 0)]
  root := .choice {} [.rule 0]

end Joeson.Sample
