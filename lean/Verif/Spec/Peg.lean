import Verif.Model.Engine
/-!
# Parsing expression grammars, without memo table, stack or left recursion

A definitional interpreter: `peg` says what a parser means at a position. There is no state. Two
bounds make it total: `k` bounds the work and `d` the nesting of rules; where one of them is
exhausted there is no meaning (`oof`). A grammar has a meaning at a position when for some bounds the
answer is not `oof`; the answer then does not depend on the bounds (`peg_mono` in Proofs/Peg.lean).

Left recursion has no meaning here: whatever `d`, it is exhausted.
-/

namespace Joeson

/-- Operations on values without a store, and callbacks that only depend on their arguments. -/
structure PureOps (V : Type) where
  str : Bytes → V
  undef : V
  isUndef : V → Bool
  arr : List V → V
  newMap : String → V → V
  mapSet : V → String → V → Except Panic V
  merge : V → V → Except Panic V
  cb : Nat → V → Nat → Except Panic (Option V)
  origin : V → Origin → V

/-- As operations of the engine. The store is passed along untouched. -/
def PureOps.ops {V : Type} (P : PureOps V) (H : Type) : Ops V H where
  str := P.str
  undef := P.undef
  isUndef := P.isUndef
  arr l h := (P.arr l, h)
  newMap k v h := (P.newMap k v, h)
  mapSet r k v h := (P.mapSet r k v).map (·, h)
  merge a b h := (P.merge a b).map (·, h)
  cb c v p h := (P.cb c v p).map (·, h)
  origin v o h := (P.origin v o, h)

/-- What has a meaning: the grammar, the input and the operations. -/
structure PegEnv (V : Type) where
  P : PureOps V
  st : Stream
  g : Grammar

section
variable {V : Type}


/-- Ordered choice. -/
def pegChoice (ev : Node → Nat → Out (Option (V × Nat))) : List Node → Nat → Out (Option (V × Nat))
  | [], _ => .ok none
  | c :: cs, p => do
    match ← ev c p with
    | some x => .ok (some x)
    | none => pegChoice ev cs p

/-- The value of a sequence so far. -/
inductive SeqVal (V : Type) where
  | nothing
  | just (v : V)
  | list (l : List V)

/-- The value of an object so far, unless there is none or it is undefined. -/
def SeqVal.defined (P : PureOps V) : SeqVal V → Option V
  | .just r => if P.isUndef r then none else some r
  | _ => none

/-- Put one more matched element into the value of a sequence: arrays list the captured elements,
singles keep the captured one, objects collect labelled ones (`&` and `@` merge). -/
def seqPut (P : PureOps V) (repr : SeqRepr) (i : Info) (acc : SeqVal V) (v : V) : Except Panic (SeqVal V) :=
  match repr with
  | .single => .ok (if i.capture then .just v else acc)
  | .array => .ok (if i.capture then (match acc with | .list l => .list (l ++ [v]) | _ => .list [v]) else acc)
  | .object =>
    if i.label = "" then .ok acc
    else
      match acc.defined P with
      | none => .ok (.just (if i.label = "&" ∨ i.label = "@" then v else P.newMap i.label v))
      | some r =>
        if i.label = "&" then (P.merge v r).map .just
        else if i.label = "@" then (P.merge r v).map .just
        else (P.mapSet r i.label v).map .just

/-- The value of a whole sequence. -/
def seqValue (P : PureOps V) (repr : SeqRepr) (acc : SeqVal V) : V :=
  match repr, acc with
  | .array, .list l => P.arr l
  | .array, _ => P.arr []
  | _, .just v => v
  | _, _ => P.undef

/-- Sequence. -/
def pegSeq (E : PegEnv V) (ev : Node → Nat → Out (Option (V × Nat))) (repr : SeqRepr) : List Node → SeqVal V → Nat → Out (Option (V × Nat))
  | [], acc, p => .ok (some (seqValue E.P repr acc, p))
  | c :: cs, acc, p => do
    match ← ev c p with
    | none => .ok none
    | some (v, q) => do
      let acc ← Out.ofExcept (seqPut E.P repr (E.g.info c) acc v)
      pegSeq E ev repr cs acc q

/-- The matches of `join value` following at least one match, as many as possible, but stopping once
there are `mx` (if given). -/
def pegMore (ev : Node → Nat → Out (Option (V × Nat))) (value : Node) (join : Option Node) (mx : Int) :
    Nat → List V → Nat → Out (List V × Nat)
  | 0, _, _ => .oof
  | k + 1, vs, p => do
    let q ← (match join with
      | none => .ok (some p)
      | some j => do return (← ev j p).map (·.2))
    match q with
    | none => .ok (vs, p)
    | some q => do
      match ← ev value q with
      | none => .ok (vs, p)
      | some (v, q) =>
        if 0 ≤ mx ∧ mx ≤ (vs ++ [v]).length then .ok (vs ++ [v], q)
        else pegMore ev value join mx k (vs ++ [v]) q

/-- The meaning of a parser in terms of the meaning `ev` of its operands, leaving out its own label
and callback. -/
def pegKind (E : PegEnv V) (ev : Node → Nat → Out (Option (V × Nat))) (k : Nat) : Node → Nat → Out (Option (V × Nat))
  | .str _ b, p => do
    let (m, q) ← Out.ofExcept (E.st.matchString p b)
    .ok (m.map fun t => (E.P.str t, q))
  | .regex _ re, p => do
    let (m, q) ← Out.ofExcept (E.st.matchRegexp p re)
    .ok (m.map fun t => (E.P.str t, q))
  | .choice _ alts, p => pegChoice ev alts p
  | .seq _ repr items, p => pegSeq E ev repr items .nothing p
  | .exist _ it, p => do
    match ← ev it p with
    | none => .ok (some (E.P.undef, p))
    | some x => .ok (some x)
  | .look _ it, p => do
    match ← ev it p with
    | none => .ok none
    | some (v, _) => .ok (some (v, p))
  | .not _ it, p => do
    match ← ev it p with
    | none => .ok (some (E.P.undef, p))
    | some _ => .ok none
  | .pattern _ value join mn mx, p => do
    match ← ev value p with
    | none => if mn > 0 then .ok none else .ok (some (E.P.arr [], p))
    | some (v, q) => do
      let (vs, q) ← pegMore ev value join mx k [v] q
      if mn > vs.length then .ok none else .ok (some (E.P.arr vs, q))
  | .ref _ name, p =>
    match E.g.lookup name with
    | none => .panic (.undefinedRef name)
    | some id => ev (.rule id) p
  | .rule id, p => ev (.rule id) p

/-- Label, callback and origin of a matched node; `q` is where the enclosing rule starts. -/
def pegFinish (E : PegEnv V) (i : Info) (q : Nat) : Option (V × Nat) → Out (Option (V × Nat))
  | none => .ok none
  | some (v, p) => do
    let v := if i.ownLabel then E.P.newMap i.label v else v
    let r ← (match i.cb with
      | none => .ok (some v)
      | some c => Out.ofExcept (E.P.cb c v p))
    .ok (r.map fun v => (E.P.origin v ⟨q, p, E.st.line p, i.ruleName⟩, p))

/-- The meaning of a parser at position `p`, inside a rule that started at `q`. -/
def peg (E : PegEnv V) : Nat → Nat → Node → Nat → Nat → Out (Option (V × Nat))
  | 0, _, _, _, _ => .oof
  | k + 1, d, .rule id, _, p =>
    match E.g.rules[id]? with
    | none => .panic .indexOutOfRange
    | some body =>
      match d with
      | 0 => .oof
      | d + 1 => do pegFinish E body.info p (← pegKind E (fun n p' => peg E k d n p p') k body p)
  | k + 1, d, n, q, p =>
    if n.info.ownLabel || n.info.cb.isSome then do
      pegFinish E n.info q (← pegKind E (fun n p' => peg E k d n q p') k n p)
    else pegKind E (fun n p' => peg E k d n q p') k n p

end
end Joeson
