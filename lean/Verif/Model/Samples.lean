import Verif.Model.GrammarParse
/-! # Sample grammars, only used to show that hypotheses can be met (not part of /repo) -/

namespace Joeson.Sample
open Joeson

/-- Names resolve through a list of pairs. -/
def lookupIn (l : List (String × Nat)) (n : String) : Option Nat := (l.find? fun p => p.1 == n).map (·.2)

/-- No callbacks. -/
def noCb : Nat → Ast → Nat → Unit → Except Panic (Option Ast × Unit) := fun _ v _ h => .ok (some v, h)

/-- Operations without callbacks. -/
def ops : Ops Ast Unit := treeOps noCb

/-- A reference. -/
def ref (n : String) : Node := .ref { parent := some false } n
/-- A string literal inside a sequence: not captured (parser_str.go:20-22). -/
def lit (s : String) : Node := .str { capture := false, parent := some true } (asc s)
/-- A rule's own attributes. -/
def ri (n : String) : Info := { name := n, parent := some false, ruleName := n }

/-- `E: E '-' N | N` and `N: '1' | '2'`. -/
def minus : Grammar where
  rules := [
    .choice (ri "E") [.seq { parent := some false } .array [ref "E", lit "-", ref "N"], ref "N"],
    .choice (ri "N") [.str {} (asc "1"), .str {} (asc "2")]]
  lookup := lookupIn [("E", 0), ("N", 1)]
  root := .choice {} [.rule 0]

/-- `S: 'a'* 'b'{1,3}` with a repetition of a rule. -/
def rep : Grammar where
  rules := [
    .seq (ri "S") .array [.pattern { parent := some true } (ref "A") none (-1) (-1),
      .pattern { parent := some true } (.str {} (asc "b")) none 1 3],
    .str (ri "A") (asc "a")]
  lookup := lookupIn [("S", 0), ("A", 1)]
  root := .choice {} [.rule 0]

/-- `S: ''*`: repetition of something that matches nothing. -/
def nullRep : Grammar where
  rules := [.pattern (ri "S") (.str {} []) none (-1) (-1)]
  lookup := lookupIn [("S", 0)]
  root := .choice {} [.rule 0]

/-- `S: A 'x' | A 'y' | Missing` and `A: 'a'` with a callback: `A` is tried twice at 0, and a text
that does not begin with `a` reaches the reference to an undefined rule. -/
def backtrack : Grammar where
  rules := [
    .choice (ri "S") [.seq { parent := some false } .single [ref "A", lit "x"],
      .seq { parent := some false } .single [ref "A", lit "y"], ref "Missing"],
    .str { ri "A" with cb := some 0 } (asc "a")]
  lookup := lookupIn [("S", 0), ("A", 1)]
  root := .choice {} [.rule 0]

/-- The value, if the parse returned one. -/
def valueOf {H : Type} (x : Out (Outcome Ast × St Ast H) × Trace) : Option Ast :=
  match x.1 with
  | .ok (.value v, _) => some v
  | _ => none

/-- The panic, if any. -/
def panicOf {α : Type} (x : Out α × Trace) : Option Panic :=
  match x.1 with
  | .panic e => some e
  | _ => none

/-- The reported error position, if the parse returned a `ParseError`. -/
def errorOf {V H : Type} (x : Out (Outcome V × St V H) × Trace) : Option Nat :=
  match x.1 with
  | .ok (.error r, _) => some r.char
  | _ => none

end Joeson.Sample
