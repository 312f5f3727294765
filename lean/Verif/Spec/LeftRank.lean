import Verif.Spec.LeftRec
import Verif.Proofs.Invariant
/-!
# Left recursion through the alternatives of a rule

`gpeg` extends `lpeg` (Spec/LeftRec.lean). Some rules are *private*: they are only ever called by one rule, their owner,
at the position where the owner started; the unnamed alternatives of a rank are such rules. A private rule is part of
its owner: its body is parsed in the context of the owner, so that a left recursive call of the owner inside an
alternative gets the seed, as it would if the alternative were written into the body. Private rules are not grown.
Left recursion through any other rule still has no meaning.
-/

namespace Joeson

section
variable {V : Type}

/-- The meaning of a parser at position `p`, inside a rule that started at `q`; `pv` are the private rules. -/
def gpeg (pv : Nat → Bool) (E : PegEnv V) : Nat → Nat → Ctx V → Node → Nat → Nat → Out (Option (V × Nat))
  | 0, _, _, _, _, _ => .oof
  | k + 1, d, c, .rule id, q, p =>
    match E.g.rules[id]? with
    | none => .panic .indexOutOfRange
    | some body =>
      match d with
      | 0 => .oof
      | d + 1 =>
        if pv id then if q = p then ruleBody E (fun n p' => gpeg pv E k d c n p p') k body p else .oof
        else match lrSeed c q id p with
        | some .unknown => .oof
        | some (.known x) => .ok x
        | none =>
          if body.info.skipCache then ruleBody E (fun n p' => gpeg pv E k d none n p p') k body p
          else ruleGrow (fun x => ruleBody E (fun n p' => gpeg pv E k d (some (id, x)) n p p') k body p) k
  | k + 1, d, c, n, q, p =>
    if n.info.ownLabel || n.info.cb.isSome then do
      pegFinish E n.info q (← pegKind E (fun n p' => gpeg pv E k d c n q p') k n p)
    else pegKind E (fun n p' => gpeg pv E k d c n q p') k n p

end

/-- The private rules of a grammar: each has an owner, and the first owner that is not private. -/
structure Privacy where
  pv : Nat → Bool
  owner : Nat → Nat
  boss : Nat → Nat

/-- If this parser calls a private rule then one of rule `j`. -/
def Privacy.owned (X : Privacy) (g : Grammar) (j : Nat) : Node → Prop
  | .rule i => X.pv i = true → X.owner i = j
  | .ref _ nm => ∀ i, g.lookup nm = some i → X.pv i = true → X.owner i = j
  | _ => True

/-- Private rules are only called by their owners, and not by the top rank. -/
structure Privacy.Ok (X : Privacy) (g : Grammar) : Prop where
  boss : ∀ i, X.pv i = true → X.boss i = if X.pv (X.owner i) then X.boss (X.owner i) else X.owner i
  last : ∀ i, X.pv i = true → X.pv (X.boss i) = false
  rules : ∀ (j : Nat) (body : Node), g.rules[j]? = some body → body.All (X.owned g j)
  root : ∀ i l id, g.root = .choice i l → Node.rule id ∈ l → X.pv id = false

end Joeson
