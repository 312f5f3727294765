import Verif.Spec.Peg
/-!
# The meaning of a grammar as an inductive relation

The usual big-step rules of parsing expression grammars, with values. `Means E d q t p r`: parsing the
task `t` at position `p`, inside a rule that started at `q`, gives `r`, nesting rules at most `d`
deep. `r` is a failure (`ok none`), a value with its end position, or a panic.
-/

namespace Joeson

/-- Outcomes. -/
abbrev Res (V : Type) := Except Panic (Option (V × Nat))

/-- What is being parsed. -/
inductive Task (V : Type) where
  /-- a parser -/
  | node (n : Node)
  /-- a parser, without its own label and callback -/
  | inner (n : Node)
  /-- the alternatives left to try -/
  | alts (l : List Node)
  /-- the rest of a sequence -/
  | items (repr : SeqRepr) (l : List Node) (acc : SeqVal V)
  /-- the separator of a repetition, if any -/
  | sep (join : Option Node)
  /-- what follows the matches `vs` of a repetition -/
  | more (value : Node) (join : Option Node) (mn mx : Int) (vs : List V)

/-- Run a callback, if there is one. -/
def PureOps.run {V : Type} (P : PureOps V) (cb : Option Nat) (v : V) (p : Nat) : Except Panic (Option V) :=
  match cb with
  | none => .ok (some v)
  | some c => P.cb c v p

/-- Label, callback and origin of an outcome. -/
def Res.finish {V : Type} (E : PegEnv V) (i : Info) (q : Nat) : Res V → Res V
  | .error e => .error e
  | .ok none => .ok none
  | .ok (some (v, p)) =>
    let v := if i.ownLabel then E.P.newMap i.label v else v
    match E.P.run i.cb v p with
    | .error e => .error e
    | .ok none => .ok none
    | .ok (some v) => .ok (some (E.P.origin v ⟨q, p, E.st.line p, i.ruleName⟩, p))

/-- A repetition that stops with `vs` at `p`. -/
def Res.stop {V : Type} (E : PegEnv V) (mn : Int) (vs : List V) (p : Nat) : Res V :=
  if mn > vs.length then .ok none else .ok (some (E.P.arr vs, p))

/-- Does the node wrap what it matches. -/
def Node.wraps (n : Node) : Bool := n.info.ownLabel || n.info.cb.isSome

/-- Is the node a rule of the grammar. -/
def Node.isRule : Node → Bool
  | .rule _ => true
  | _ => false

section
variable {V : Type}

/-- The meaning. -/
inductive Means (E : PegEnv V) : Nat → Nat → Task V → Nat → Res V → Prop
  -- rules: the body starts anew
  | rule {d q id p body r} : E.g.rules[id]? = some body → Means E d p (.inner body) p r →
      Means E (d + 1) q (.node (.rule id)) p (r.finish E body.info p)
  | noRule {d q id p} : E.g.rules[id]? = none →
      Means E d q (.node (.rule id)) p (.error .indexOutOfRange)
  -- other nodes
  | plain {d q n p r} : n.isRule = false → n.wraps = false → Means E d q (.inner n) p r →
      Means E d q (.node n) p r
  | wrapped {d q n p r} : n.isRule = false → n.wraps = true → Means E d q (.inner n) p r →
      Means E d q (.node n) p (r.finish E n.info q)
  | link {d q id p r} : Means E d q (.node (.rule id)) p r → Means E d q (.inner (.rule id)) p r
  -- terminals
  | str {d q i b p m e} : E.st.matchString p b = .ok (m, e) →
      Means E d q (.inner (.str i b)) p (.ok (m.map fun t => (E.P.str t, e)))
  | strPanic {d q i b p x} : E.st.matchString p b = .error x →
      Means E d q (.inner (.str i b)) p (.error x)
  | regex {d q i re p m e} : E.st.matchRegexp p re = .ok (m, e) →
      Means E d q (.inner (.regex i re)) p (.ok (m.map fun t => (E.P.str t, e)))
  | regexPanic {d q i re p x} : E.st.matchRegexp p re = .error x →
      Means E d q (.inner (.regex i re)) p (.error x)
  -- references
  | ref {d q i nm id p r} : E.g.lookup nm = some id → Means E d q (.node (.rule id)) p r →
      Means E d q (.inner (.ref i nm)) p r
  | undefinedRef {d q i nm p} : E.g.lookup nm = none →
      Means E d q (.inner (.ref i nm)) p (.error (.undefinedRef nm))
  -- ordered choice
  | choice {d q i l p r} : Means E d q (.alts l) p r → Means E d q (.inner (.choice i l)) p r
  | altsEnd {d q p} : Means E d q (.alts []) p (.ok none)
  | altsHit {d q c cs p x} : Means E d q (.node c) p (.ok (some x)) →
      Means E d q (.alts (c :: cs)) p (.ok (some x))
  | altsPanic {d q c cs p e} : Means E d q (.node c) p (.error e) → Means E d q (.alts (c :: cs)) p (.error e)
  | altsMiss {d q c cs p r} : Means E d q (.node c) p (.ok none) → Means E d q (.alts cs) p r →
      Means E d q (.alts (c :: cs)) p r
  -- sequence
  | seq {d q i repr l p r} : Means E d q (.items repr l .nothing) p r → Means E d q (.inner (.seq i repr l)) p r
  | itemsEnd {d q repr acc p} : Means E d q (.items repr [] acc) p (.ok (some (seqValue E.P repr acc, p)))
  | itemsMiss {d q repr c cs acc p} : Means E d q (.node c) p (.ok none) →
      Means E d q (.items repr (c :: cs) acc) p (.ok none)
  | itemsPanic {d q repr c cs acc p e} : Means E d q (.node c) p (.error e) →
      Means E d q (.items repr (c :: cs) acc) p (.error e)
  | itemsPut {d q repr c cs acc p v p' acc' r} : Means E d q (.node c) p (.ok (some (v, p'))) →
      seqPut E.P repr (E.g.info c) acc v = .ok acc' → Means E d q (.items repr cs acc') p' r →
      Means E d q (.items repr (c :: cs) acc) p r
  | itemsPutPanic {d q repr c cs acc p v p' e} : Means E d q (.node c) p (.ok (some (v, p'))) →
      seqPut E.P repr (E.g.info c) acc v = .error e → Means E d q (.items repr (c :: cs) acc) p (.error e)
  -- optional
  | existHit {d q i it p x} : Means E d q (.node it) p (.ok (some x)) →
      Means E d q (.inner (.exist i it)) p (.ok (some x))
  | existMiss {d q i it p} : Means E d q (.node it) p (.ok none) →
      Means E d q (.inner (.exist i it)) p (.ok (some (E.P.undef, p)))
  | existPanic {d q i it p e} : Means E d q (.node it) p (.error e) →
      Means E d q (.inner (.exist i it)) p (.error e)
  -- positive and negative lookahead
  | lookHit {d q i it p v p'} : Means E d q (.node it) p (.ok (some (v, p'))) →
      Means E d q (.inner (.look i it)) p (.ok (some (v, p)))
  | lookMiss {d q i it p} : Means E d q (.node it) p (.ok none) →
      Means E d q (.inner (.look i it)) p (.ok none)
  | lookPanic {d q i it p e} : Means E d q (.node it) p (.error e) →
      Means E d q (.inner (.look i it)) p (.error e)
  | notHit {d q i it p x} : Means E d q (.node it) p (.ok (some x)) →
      Means E d q (.inner (.not i it)) p (.ok none)
  | notMiss {d q i it p} : Means E d q (.node it) p (.ok none) →
      Means E d q (.inner (.not i it)) p (.ok (some (E.P.undef, p)))
  | notPanic {d q i it p e} : Means E d q (.node it) p (.error e) →
      Means E d q (.inner (.not i it)) p (.error e)
  -- repetition
  | patMiss {d q i value join mn mx p} : Means E d q (.node value) p (.ok none) →
      Means E d q (.inner (.pattern i value join mn mx)) p (Res.stop E mn [] p)
  | patPanic {d q i value join mn mx p e} : Means E d q (.node value) p (.error e) →
      Means E d q (.inner (.pattern i value join mn mx)) p (.error e)
  | patMore {d q i value join mn mx p v p' r} : Means E d q (.node value) p (.ok (some (v, p'))) →
      Means E d q (.more value join mn mx [v]) p' r → Means E d q (.inner (.pattern i value join mn mx)) p r
  | sepNone {d q p} : Means E d q (.sep none) p (.ok (some (E.P.undef, p)))
  | sepSome {d q j p r} : Means E d q (.node j) p r → Means E d q (.sep (some j)) p r
  | sepMiss {d q value join mn mx vs p} : Means E d q (.sep join) p (.ok none) →
      Means E d q (.more value join mn mx vs) p (Res.stop E mn vs p)
  | sepPanic {d q value join mn mx vs p e} : Means E d q (.sep join) p (.error e) →
      Means E d q (.more value join mn mx vs) p (.error e)
  | moreMiss {d q value join mn mx vs p w p'} : Means E d q (.sep join) p (.ok (some (w, p'))) →
      Means E d q (.node value) p' (.ok none) →
      Means E d q (.more value join mn mx vs) p (Res.stop E mn vs p)
  | morePanic {d q value join mn mx vs p w p' e} : Means E d q (.sep join) p (.ok (some (w, p'))) →
      Means E d q (.node value) p' (.error e) → Means E d q (.more value join mn mx vs) p (.error e)
  | moreFull {d q value join mn mx vs p w p' v e} : Means E d q (.sep join) p (.ok (some (w, p'))) →
      Means E d q (.node value) p' (.ok (some (v, e))) → 0 ≤ mx ∧ mx ≤ (vs.length : Int) + 1 →
      Means E d q (.more value join mn mx vs) p (Res.stop E mn (vs ++ [v]) e)
  | moreNext {d q value join mn mx vs p w p' v e r} : Means E d q (.sep join) p (.ok (some (w, p'))) →
      Means E d q (.node value) p' (.ok (some (v, e))) → ¬ (0 ≤ mx ∧ mx ≤ (vs.length : Int) + 1) →
      Means E d q (.more value join mn mx (vs ++ [v])) e r → Means E d q (.more value join mn mx vs) p r

end
end Joeson
