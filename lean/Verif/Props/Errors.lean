import Verif.Proofs.Errors
import Verif.Props.Peg
/-!
# C41: parse errors returned by callbacks
-/

namespace Joeson
open Spec
variable {V H : Type}

/-- The engine's operations on trees allow all sequences. -/
theorem errorSim_all {H : Type} {tag : Nat} {cb cb' : Nat → Ast → Nat → H → Except Panic (Option Ast × H)}
    (hcb : Disguised tag cb cb') (g : Grammar) {N : Nat} {n : Node} (h : n.Below N) : n.All ((errorSim tag hcb).NodeOk g) := by
  have : ∀ n : Node, (errorSim tag hcb).NodeOk g n := by
    intro n
    cases n <;> first | exact trivial | skip
    rename_i i r l
    cases r <;> first | exact trivial | exact Or.inl trivial
  induction h with
  | str => exact .str (this _)
  | regex => exact .regex (this _)
  | choice _ ih => exact .choice (this _) ih
  | seq _ ih => exact .seq (this _) ih
  | exist _ ih => exact .exist (this _) ih
  | look _ ih => exact .look (this _) ih
  | not _ ih => exact .not (this _) ih
  | pattern _ _ ih ih' => exact .pattern (this _) ih ih'
  | ref => exact .ref (this _)
  | rule => exact .rule (this _)

/-- C41 is not what the engine does: a `ParseError` returned by a callback is a value like any other. If the callbacks
return a node of some other type instead of each `ParseError`, then `ParseString` does the same, step by step, and its
answer is the same except for that replacement. -/
theorem C41_just_a_value (tag : Nat) (cb cb' : Nat → Ast → Nat → H → Except Panic (Option Ast × H))
    (hcb : Disguised tag cb cb') (g : Grammar) (hg : g.Built) (tr : Trace) (opts : List ParseOption) (k : Nat) (h : H)
    (text : Bytes) :
    match (parseString (treeOps cb) g tr opts k h text).1, (parseString (treeOps cb') g tr opts k h text).1 with
    | .ok (o, s), .ok (o', s') => s'.pos = s.pos ∧ s'.calls = s.calls ∧ s'.h = s.h ∧ (match o, o' with
      | .value v, .value v' => v' = disguise tag v
      | .error r, .error r' => r = r'
      | .nil, .nil => True
      | _, _ => False)
    | .panic e, .panic e' => e = e'
    | .oof, .oof => True
    | _, _ => False := by
  have hroot : g.root.All ((errorSim tag hcb).NodeOk g) := by
    obtain ⟨i, l, hr, h1, h2, h3⟩ := hg.root
    rw [hr]
    refine .choice trivial fun c hc => ?_
    obtain ⟨id, rfl, -⟩ := h3 c hc
    exact .rule trivial
  have key := ((errorSim tag hcb).grammarParse_rel (Stream.ofText text) (runeReport text) g tr
    (opts.foldl CtxOptions.apply {}) (fun n hn => errorSim_all hcb g (hg.rules n hn)) hroot k
    (w := ()) (h := h) (h' := h) rfl 0).2
  change OutRel _ (parseString (treeOps cb) g tr opts k h text).1
    (parseString (treeOps cb') g tr opts k h text).1 at key
  revert key
  generalize (parseString (treeOps cb) g tr opts k h text).1 = x
  generalize (parseString (treeOps cb') g tr opts k h text).1 = y
  intro key
  cases x <;> cases y <;> first | exact key.elim | skip
  · rename_i a b
    obtain ⟨o, s⟩ := a
    obtain ⟨o', s'⟩ := b
    obtain ⟨h1, -, h⟩ := key
    dsimp only at *
    refine ⟨h1.pos, h1.calls, Eq.symm h1.inv, ?_⟩
    cases h with
    | nil => trivial
    | error r => rfl
    | value h => exact h
  · exact key
  · trivial

/-- C41 for the rules at the top: if all the start rules have callbacks that return nothing but `ParseError`s, then a
value returned by `ParseString` is a `ParseError`. What is missing: callbacks of other rules, for which the claim is
false (`C41_error_dropped`, `C41_error_inside`), and texts without a meaning, because of left recursion. -/
theorem C41_start_rules_partial (P : PureOps V) (isError : V → Prop) (g : Grammar) (hg : g.Built) (tr : Trace)
    (opts : List ParseOption) (hn : NoTrace g tr opts) (h : H) (text : Bytes) (d : Nat) (r : Res V)
    (hm : TextMeans P g text d r)
    (hcb : ∀ i l, g.root = .choice i l → ∀ id, Node.rule id ∈ l → ∃ n c, g.rules[id]? = some n ∧ n.info.cb = some c ∧
      ∀ v p x o, P.cb c v p = .ok (some x) → isError (P.origin x o)) :
    ∃ k, ∀ k', k ≤ k' → ∀ v s, (parseString (P.ops H) g tr opts k' h text).1 = .ok (.value v, s) → isError v := by
  obtain ⟨k, hk⟩ := C22_peg_or_stack_overflow P g hg tr opts hn h text d r hm
  refine ⟨k, fun k' hk' v s hv => ?_⟩
  have := (hk k' hk').resolve_right (by rw [hv]; intro h; cases h)
  rw [hv] at this
  obtain ⟨i, l, hr, h1, h2, h3⟩ := hg.root
  have hcb := hcb i l hr
  have main : ∀ x e, r = .ok (some (x, e)) → isError x := by
    rintro x e rfl
    unfold TextMeans at hm
    rw [hr] at hm
    have hw : (Node.choice i l).wraps = false := by simp [Node.wraps, Node.info, h2, Info.ownLabel, h1]
    generalize ho : (Except.ok (some (x, e)) : Res V) = r at hm
    cases hm with
    | wrapped _ hw' => rw [hw] at hw'; cases hw'
    | plain _ _ hm =>
    cases hm with
    | choice hm =>
    subst ho
    clear hr this hk
    induction l with
    | nil => cases hm
    | cons c cs ih =>
      obtain ⟨id, rfl, -⟩ := h3 c (by simp)
      cases hm with
      | altsMiss _ hm => exact ih (fun c hc => h3 c (by simp [hc])) (fun id hid => hcb id (by simp [hid])) hw rfl hw hm
      | altsHit hm =>
        obtain ⟨n, c, hb, hc, hx⟩ := hcb id (by simp)
        generalize hr : (Except.ok (some (x, e)) : Res V) = r at hm
        cases hm with
        | plain h => cases h
        | wrapped h => cases h
        | noRule => cases hr
        | rule hb' hm =>
          rename_i r
          rw [hb] at hb'
          cases hb'
          unfold Res.finish at hr
          split at hr
          · cases hr
          · cases hr
          · dsimp only at hr
            rw [hc] at hr
            unfold PureOps.run at hr
            split at hr
            · cases hr
            · cases hr
            · rename_i hx'
              cases hr
              exact hx _ _ _ _ hx'
  unfold Answers at this
  split at this
  · cases this
  · split at this
    · obtain ⟨s', hs'⟩ := this
      cases hs'
      exact main _ _ rfl
    · obtain ⟨_, _, hs', -⟩ := this
      cases hs'
  · split at this
    · obtain ⟨_, hs'⟩ := this
      cases hs'
    · obtain ⟨_, _, hs', -⟩ := this
      cases hs'

namespace Sample

/-- Every callback returns a `ParseError`. -/
def failing : Nat → Ast → Nat → Unit → Except Panic (Option Ast × Unit) := fun _ _ _ h => .ok (some (.error (asc "no")), h)

/-- Every callback returns a node of type 7. -/
def failing7 : Nat → Ast → Nat → Unit → Except Panic (Option Ast × Unit) :=
  fun _ _ _ h => .ok (some (.user 7 [.str (asc "no")]), h)

theorem failing_disguised : Disguised 7 failing failing7 := fun _ _ _ _ => rfl

/-- `S: !A 'b' | 'a'` and `A: 'a'` with a callback. -/
def dropped : Grammar where
  rules := [
    .choice (ri "S") [.seq { parent := some false } .single [.not { capture := false, parent := some true } (ref "A"), lit "b"],
      .str {} (asc "a")],
    .str { ri "A" with cb := some 0 } (asc "a")]
  lookup := lookupIn [("S", 0), ("A", 1)]
  root := .choice {} [.rule 0]

/-- The callbacks that were run. -/
def callListOf {V H : Type} (x : Out (Outcome V × St V H) × Trace) : List Call :=
  match x.1 with
  | .ok (_, s) => s.calls
  | _ => []

/-- The operations, without store. -/
def failingPure : PureOps Ast := { pure with cb := fun _ _ _ => .ok (some (.error (asc "no"))) }

/-- `A: 'a'` with a callback. -/
def failStart : Grammar where
  rules := [.str { ri "A" with cb := some 0 } (asc "a")]
  lookup := lookupIn [("A", 0)]
  root := .choice {} [.rule 0]

theorem failStart_built : failStart.Built :=
  Grammar.built_of_checks _ _ rfl (by decide +kernel) (by decide +kernel) (by decide +kernel)

end Sample

/-- C41 is false: the callback of `A` runs and returns a `ParseError`, and `ParseString` returns `a`. -/
theorem C41_error_dropped :
    Sample.valueOf (parseString (treeOps Sample.failing) Sample.dropped {} [] 60 () (asc "a")) = some (.str (asc "a")) ∧
    Sample.callListOf (parseString (treeOps Sample.failing) Sample.dropped {} [] 60 () (asc "a")) = [⟨0, true, 1, 0⟩] := by
  decide +kernel

/-- C41 is false: the `ParseError` is part of a value that is not an error. -/
theorem C41_error_inside :
    Sample.valueOf (parseString (treeOps Sample.failing) { Sample.rep with rules := [
        Sample.rep.rules.head (by simp [Sample.rep]), .str { Sample.ri "A" with cb := some 0 } (asc "a")] } {} [] 60 ()
      (asc "aab")) =
      some (.arr [.arr [.error (asc "no"), .error (asc "no")], .arr [.str (asc "b")]]) := by decide +kernel

/-- `C41_just_a_value` applies, to a parse in which the error is used. -/
example : Disguised 7 Sample.failing Sample.failing7 ∧ Sample.backtrack.Built ∧
    Sample.valueOf (parseString (treeOps Sample.failing) Sample.backtrack {} [] 60 () (asc "ay")) =
      some (.error (asc "no")) ∧
    Sample.valueOf (parseString (treeOps Sample.failing7) Sample.backtrack {} [] 60 () (asc "ay")) =
      some (.user 7 [.str (asc "no")]) :=
  ⟨Sample.failing_disguised, Sample.backtrack_built, by decide +kernel, by decide +kernel⟩

/-- `C41_start_rules_partial` applies, and there is a value. -/
example : (∃ k, ∀ k', k ≤ k' → ∀ v s,
      (parseString (Sample.failingPure.ops Unit) Sample.failStart {} [] k' () (asc "a")).1 = .ok (.value v, s) →
        v = .error (asc "no")) ∧
    Sample.valueOf (parseString (Sample.failingPure.ops Unit) Sample.failStart {} [] 60 () (asc "a")) =
      some (.error (asc "no")) := by
  refine ⟨C41_start_rules_partial Sample.failingPure (· = .error (asc "no")) _ Sample.failStart_built {} []
    (Sample.noTrace _ (by decide)) () (asc "a") 2 _ (Sample.textMeans (r := .ok (some (.error (asc "no"), 1))) 20
      (by decide +kernel)) ?_, by decide +kernel⟩
  intro i l hr id hid
  cases hr
  cases List.mem_singleton.mp hid
  refine ⟨_, 0, rfl, rfl, fun v p x o hx => ?_⟩
  cases hx
  rfl

end Joeson
