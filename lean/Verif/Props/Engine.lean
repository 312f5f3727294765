import Verif.Proofs.Check
import Verif.Proofs.Invariant3
import Verif.Proofs.GrammarParse
import Verif.Model.Samples
/-!
# C25, C26, C27, C36: termination, internal assertions, balance, error positions

For every grammar, left recursive ones included, every input, every callback, every trace option.
-/

namespace Joeson
open Spec
variable {V H : Type}

/-! ## From the specification's well-formedness to the invariant's -/

theorem Node.Below.all {g : Grammar} {nn : Nat → Prop} {T : Prop} {n : Node} (h : n.Below g.numRules)
    (hg : T ∨ n.Guarded g nn) : n.All (Node.Ok g nn T) := by
  induction h with
  | str => exact .str ⟨trivial, Or.inr trivial⟩
  | regex => exact .regex ⟨trivial, Or.inr trivial⟩
  | choice _ ih =>
    refine .choice ⟨trivial, Or.inr trivial⟩ fun c hc => ih c hc (hg.imp_right fun h => ?_)
    cases h with | choice h => exact h c hc
  | seq _ ih =>
    refine .seq ⟨trivial, Or.inr trivial⟩ fun c hc => ih c hc (hg.imp_right fun h => ?_)
    cases h with | seq h => exact h c hc
  | exist _ ih =>
    refine .exist ⟨trivial, Or.inr trivial⟩ (ih (hg.imp_right fun h => ?_))
    cases h with | exist h => exact h
  | look _ ih =>
    refine .look ⟨trivial, Or.inr trivial⟩ (ih (hg.imp_right fun h => ?_))
    cases h with | look h => exact h
  | not _ ih =>
    refine .not ⟨trivial, Or.inr trivial⟩ (ih (hg.imp_right fun h => ?_))
    cases h with | not h => exact h
  | pattern _ _ ihv ihj =>
    refine .pattern ⟨trivial, hg.imp_right fun h => ?_⟩ (ihv (hg.imp_right fun h => ?_))
      fun c hc => ihj c hc (hg.imp_right fun h => ?_)
    · cases h with | pattern h _ _ => exact h
    · cases h with | pattern _ h _ => exact h
    · cases h with | pattern _ _ h => exact h c hc
  | ref => exact .ref ⟨trivial, Or.inr trivial⟩
  | rule h => exact .rule ⟨h, Or.inr trivial⟩

theorem Grammar.Built.wfT {g : Grammar} (h : g.Built) {nn : Nat → Prop} {T : Prop}
    (hg : T ∨ ∀ n ∈ g.rules, n.Guarded g nn) : g.WfT nn T :=
  ⟨fun n hn => (h.rules n hn).all (hg.imp_right fun h => h n hn), h.lookup⟩

theorem Grammar.Built.isRank {g : Grammar} (h : g.Built) : g.root.IsRank := by
  obtain ⟨i, l, hr, h1, h2, h3⟩ := h.root
  rw [hr]
  refine ⟨by simp [Info.ownLabel, h1], h2, fun c hc => ?_⟩
  obtain ⟨id, h, _⟩ := h3 c hc
  exact ⟨id, h⟩

theorem Grammar.Built.rootOk {g : Grammar} (h : g.Built) (nn : Nat → Prop) (T : Prop) :
    g.root.All (Node.Ok g nn T) := by
  obtain ⟨i, l, hr, h1, h2, h3⟩ := h.root
  rw [hr]
  refine .choice ⟨trivial, Or.inr trivial⟩ fun c hc => ?_
  obtain ⟨id, h, hid⟩ := h3 c hc
  subst h
  exact .rule ⟨hid, Or.inr trivial⟩

theorem sizeBound_exists (g : Grammar) : ∃ D, SizeBound g D := by
  unfold SizeBound
  induction g.rules with
  | nil => exact ⟨0, by simp⟩
  | cons n l ih =>
    obtain ⟨D, hD⟩ := ih
    refine ⟨max D n.measure, ?_⟩
    intro m hm
    rcases List.mem_cons.mp hm with rfl | hm
    · omega
    · have := hD m hm; omega

/-- The invariant at the end of a whole parse. -/
theorem parse_top {ops : Ops V H} {g : Grammar} (hg : g.Built) {st : Stream} (hst : st.Valid) (tr : Trace)
    (sl : Bool) (k : Nat) (h : H) {start : Nat} (hs : start ≤ st.len) :
    (parse { ops := ops, st := st, g := g, trace := tr, skipLog := sl } k g.root (newState h start)).Holds
      True (OkPanic { ops := ops, st := st, g := g, trace := tr, skipLog := sl })
      (Post { ops := ops, st := st, g := g, trace := tr, skipLog := sl } (fun _ => False)
        (Consumes g (fun _ => False) g.root) (newState h start)) := by
  obtain ⟨D, hD⟩ := sizeBound_exists g
  exact parse_root_holds (T := True) (D := D)
    (env := { ops := ops, st := st, g := g, trace := tr, skipLog := sl }) hst
    (hg.wfT (Or.inl trivial)) hg.noAlias hD (fun _ _ h => h.elim) k g.root _ hg.isRank
    (hg.rootOk _ _) (newState_inv _ _ h hs) (Or.inl trivial)

/-! ## C25 -/

/-- C25: `ParseString` returns or panics after finitely many steps, for every grammar (left recursive or
not) whose repetitions consume input. What is missing: grammars repeating something that can match
nothing; for those the claim is false, see `C25_nullable_repetition_diverges`. -/
theorem C25_terminates_partial (ops : Ops V H) (g : Grammar) (hg : g.Built) (hgd : g.Guarded) (tr : Trace)
    (opts : List ParseOption) (h : H) (text : Bytes) :
    ∃ k, ∀ k', k ≤ k' → (parseString ops g tr opts k' h text).1 ≠ .oof ∧
      parseString ops g tr opts k' h text = parseString ops g tr opts k h text := by
  obtain ⟨nn, hnn, hguard⟩ := hgd
  obtain ⟨D, hD⟩ := sizeBound_exists g
  unfold parseString grammarParse
  extract_lets o tr' env
  refine ⟨need text.length D g.root 0, fun k hk => ?_⟩
  have key : ∀ k, need text.length D g.root 0 ≤ k → parse env k g.root (newState h 0) ≠ .oof := by
    intro k hk ho
    have := parse_root_holds (T := False) (D := D) (env := env) (nn := nn) (Stream.ofText_valid text)
      (hg.wfT (Or.inr hguard)) hg.noAlias hD hnn k g.root (newState h 0) hg.isRank
      (hg.rootOk _ _) (newState_inv _ _ h (Nat.zero_le _)) (Or.inr hk)
    exact this.of_oof ho
  have heq := parse_fuel env hk g.root (newState h 0) (key _ (Nat.le_refl _))
  rw [heq]
  refine ⟨?_, rfl⟩
  have hne := key _ (Nat.le_refl _)
  split
  · simp
  · rename_i ho; exact absurd ho hne
  · split
    · dsimp only
      split <;> simp
    · split <;> simp

theorem Sample.minus_built : Sample.minus.Built :=
  Grammar.built_of_checks _ _ rfl (by decide +kernel) (by decide +kernel) (by decide +kernel)

theorem Sample.minus_guarded : Sample.minus.Guarded :=
  Grammar.guarded_of_checks _ (fun _ => false) (by decide +kernel) (by decide +kernel)

example : Sample.minus.Built ∧ Sample.minus.Guarded := ⟨Sample.minus_built, Sample.minus_guarded⟩

/-- A grammar with guarded repetitions: the repeated rule `A` cannot be empty. -/
theorem Sample.rep_built : Sample.rep.Built :=
  Grammar.built_of_checks _ _ rfl (by decide +kernel) (by decide +kernel) (by decide +kernel)

theorem Sample.rep_guarded : Sample.rep.Guarded :=
  Grammar.guarded_of_checks _ (fun id => id == 1) (by decide +kernel) (by decide +kernel)

example : Sample.rep.Built ∧ Sample.rep.Guarded := ⟨Sample.rep_built, Sample.rep_guarded⟩

example : Sample.valueOf (parseString Sample.ops Sample.minus {} [] 40 () (asc "1-2-1")) =
    some (.arr [.arr [.str (asc "1"), .str (asc "2")], .str (asc "1")]) := by decide +kernel

/-- The loop of a pattern over the empty string never ends. -/
theorem nullRep_loop (env : Env Ast Unit) (hen : env.st = Stream.ofText [])  (m k : Nat)
    : ∀ n ms (s : St Ast Unit), s.pos = 0 →
      parseRep env (parse env k) (.str {} []) none (-1) (-1) m n ms s = .oof := by
  intro n
  induction n with
  | zero => intro ms s _; rfl
  | succ n ih =>
    intro ms s hs
    unfold parseRep
    simp only [Out.bind_ok, Bool.not_true, Bool.false_eq_true, if_false]
    cases k with
    | zero => rfl
    | succ k =>
      have hp : parse env (k + 1) (.str {} []) s = .ok (some (env.ops.str []), { s with pos := 0 }) := by
        show (do let (m, p) ← Out.ofExcept (env.st.matchString s.pos []); _) = _
        rw [hen, hs]
        rfl
      rw [hp, Out.bind_ok]
      dsimp only
      rw [if_neg (by simp)]
      exact ih _ _ rfl

/-- C25, counterexample: `S: ''*` never terminates, already on the empty input: no amount of fuel
suffices. -/
theorem C25_nullable_repetition_diverges (k : Nat) :
    (parseString Sample.ops Sample.nullRep {} [] k () []).1 = .oof := by
  have key : ∀ k, parse { ops := Sample.ops, st := Stream.ofText [], g := Sample.nullRep } k
      Sample.nullRep.root (newState () 0) = .oof := by
    intro k
    match k with
    | 0 => rfl
    | 1 => rfl
    | 2 => rfl
    | k + 3 =>
      have hk : ∀ s : St Ast Unit, s.pos = 0 →
          parseKind { ops := Sample.ops, st := Stream.ofText [], g := Sample.nullRep }
            (parse { ops := Sample.ops, st := Stream.ofText [], g := Sample.nullRep } (k + 1)) (k + 1)
            (.pattern (Sample.ri "S") (.str {} []) none (-1) (-1)) s = .oof := by
        intro s hs
        have hp : parse { ops := Sample.ops, st := Stream.ofText [], g := Sample.nullRep } (k + 1)
            (.str {} []) s = .ok (some (Sample.ops.str []), { s with pos := 0 }) := by
          show (do let (m, p) ← Out.ofExcept ((Stream.ofText []).matchString s.pos []); _) = _
          rw [hs]
          rfl
        simp only [parseKind]
        rw [hp, Out.bind_ok]
        exact nullRep_loop { ops := Sample.ops, st := Stream.ofText [], g := Sample.nullRep } rfl _ _ _ _ _
          rfl
      have hl : ∀ s : St Ast Unit, s.pos = 0 →
          prepareResult { ops := Sample.ops, st := Stream.ofText [], g := Sample.nullRep } true
            (Sample.ri "S") (parseKind { ops := Sample.ops, st := Stream.ofText [], g := Sample.nullRep }
            (parse { ops := Sample.ops, st := Stream.ofText [], g := Sample.nullRep } (k + 1)) (k + 1)
            (.pattern (Sample.ri "S") (.str {} []) none (-1) (-1))) s = .oof := by
        intro s hs
        unfold prepareResult
        extract_lets s'
        rw [hk s' hs]
        rfl
      have hf : ∀ f : Run Ast Unit, (∀ s, s.pos = 0 → f s = .oof) → ∀ s : St Ast Unit, s.pos = 0 →
          s.table 0 0 = some 0 → s.heap 0 = newFrame Ast 0 0 →
          loopify { ops := Sample.ops, st := Stream.ofText [], g := Sample.nullRep } (k + 1) 0
            (Sample.ri "S") f s = .oof := by
        intro f hf s hs ht hh
        simp only [loopify, logIf, getFrame, hs, ht]
        have h1 : (0 ≤ (Stream.ofText []).len ∧ 0 < Sample.nullRep.numRules) := by decide
        simp [Sample.ri, h1, hh, setHeap, newFrame, setStage, updFrame, cacheSet, hf, hs]
      have h2 : parse { ops := Sample.ops, st := Stream.ofText [], g := Sample.nullRep } (k + 2) (.rule 0)
          (newState () 0) = .oof := by
        show (do
          let (r, s) ← loopify { ops := Sample.ops, st := Stream.ofText [], g := Sample.nullRep } (k + 1) 0
            (Sample.ri "S") (prepareResult _ true (Sample.ri "S") _) _
          _) = _
        rw [hf _ hl _ rfl rfl rfl]
        rfl
      show (do
        let (r, s') ← parse { ops := Sample.ops, st := Stream.ofText [], g := Sample.nullRep } (k + 2)
          (.rule 0) (newState () 0)
        _) = _
      rw [h2]
      rfl
  unfold parseString grammarParse
  extract_lets o tr env
  have : parse env k Sample.nullRep.root (newState () 0) = .oof := key k
  rw [this]

end Joeson
