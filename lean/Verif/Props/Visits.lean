import Verif.Proofs.Visits3
import Verif.Proofs.Visits5
import Verif.Props.Work
import Verif.Props.Bootstrap
/-!
# C84: the work of a parse

`Counter` of C72 counts evaluations of rules. Between two evaluations the engine may still do a lot: only rules are memoised, the
parts of a rule are not. Here every call of the method `parse` of any parser counts (Model/Visits.lean).
-/

namespace Joeson
variable {V H : Type}

/-- C84: counting changes nothing. The engine with a counter gives the same result, store, end, number of evaluations and
callbacks, the same panic, and stops whenever the engine does. -/
theorem C84_counting_changes_nothing (env : Env V H) (k : Nat) (n : Node) (h : H) (c p : Nat) :
    match parse env k n (newState h p), parseV env.counted k n (newState (h, c) p) with
    | .ok (r, s), .ok (r', s') => r' = r ∧ s'.h.1 = s.h ∧ s'.pos = s.pos ∧ s'.counter = s.counter ∧ s'.calls = s.calls
    | .panic e, .panic e' => e = e'
    | .oof, .oof => True
    | _, _ => False := parseV_same env k n h c p

/-- What `ParseString` returns is what the engine returned for the top rank. -/
theorem parseString_parse (ops : Ops V H) (g : Grammar) (hg : g.Built) (tr : Trace) (opts : List ParseOption) (k : Nat) (h : H) (text : Bytes) (o : Outcome V)
    (s : St V H) (hp : (parseString ops g tr opts k h text).1 = .ok (o, s)) : ∃ r, parse (callEnv ops g tr opts text) k g.root (newState h 0) = .ok (r, s) := by
  have key := parseString_cases ops g hg tr opts k h text
  extract_lets env at key
  show ∃ r, parse env k g.root (newState h 0) = .ok (r, s)
  cases hx : parse env k g.root (newState h 0) with
  | oof => rw [hx] at key; rw [key] at hp; cases hp
  | panic e => rw [hx] at key; rw [key.1] at hp; cases hp
  | ok x =>
    obtain ⟨r, s'⟩ := x
    rw [hx] at key
    obtain ⟨-, -, -, -, key⟩ := key
    refine ⟨r, ?_⟩
    split at key
    · rw [key] at hp; cases hp; rfl
    · obtain ⟨rep, att, hrep, -⟩ := key
      rw [hrep] at hp; cases hp; rfl

theorem loopsAll_rules : ∀ l : List Node, (∀ c ∈ l, ∃ id, c = Node.rule id) → loopsAll l = 0
  | [], _ => rfl
  | c :: l, h => by
    obtain ⟨id, rfl⟩ := h c (by simp)
    rw [loopsAll, loopsAll_rules l fun c hc => h c (by simp [hc])]
    rfl

theorem root_loops {g : Grammar} (hg : g.Built) : g.root.loops = 0 := by
  obtain ⟨i, l, hr, -, -, hl⟩ := hg.root
  rw [hr, Node.loops]
  exact loopsAll_rules l fun c hc => by
    obtain ⟨id, h, -⟩ := hl c hc
    exact ⟨id, h⟩

/-- C84: the number of calls of `parse` is at most the number of evaluations times the size of the grammar times the length of the
text to the power of the depth of nested repetitions. For every grammar whose repetitions consume input, left recursive or not, all
callbacks and options, with or without tracing, and every text for which `ParseString` returns. -/
theorem C84_work_bounded (ops : Ops V H) (g : Grammar) (hg : g.Built) (hgd : g.Guarded) (tr : Trace) (opts : List ParseOption) (h : H) (text : Bytes) :
    ∃ k, ∀ k', k ≤ k' → ∀ o s, (parseString ops g tr opts k' h text).1 = .ok (o, s) →
      ∃ v, visits (callEnv ops g tr opts text) k' h = .ok v ∧ v ≤ g.root.parts + g.parts * (text.length + 2) ^ g.loops * s.counter := by
  obtain ⟨nn, hnn, hguard⟩ := hgd
  obtain ⟨D, hD⟩ := sizeBound_exists g
  refine ⟨need text.length D g.root 0, fun k hk o s hp => ?_⟩
  obtain ⟨r, hr⟩ := parseString_parse ops g hg tr opts k h text o s hp
  have hsame := parseV_same (callEnv ops g tr opts text) k g.root h 0 0
  rw [hr] at hsame
  unfold visits
  show ∃ v, (match parseV (callEnv ops g tr opts text).counted k g.root (newState (h, 0) 0) with
    | .ok (_, s) => .ok s.h.2 | .panic e => .panic e | .oof => .oof) = Out.ok v ∧ _
  have hlen : (callEnv ops g tr opts text).counted.st.len = text.length := rfl
  have hspent := root_callsSpent (env := (callEnv ops g tr opts text).counted) (nn := nn) (D := D) (M := callsAllN text.length g.rules) (Stream.ofText_valid text)
    (hg.wfT (Or.inr hguard)) hg.noAlias hD hnn (counted_keeps ops) (fun n hn => callsN_le_all _ _ n hn) k g.root (newState (h, 0) 0) hg.isRank
    (hg.rootOk _ _) (newState_inv _ _ _ (Nat.zero_le _)) hk
  generalize hx : parseV (callEnv ops g tr opts text).counted k g.root (newState (h, 0) 0) = x at hsame hspent
  cases x with
  | oof => exact hsame.elim
  | panic e => exact hsame.elim
  | ok x =>
    obtain ⟨r', s'⟩ := x
    obtain ⟨-, -, -, hc, -⟩ := hsame
    refine ⟨s'.h.2, rfl, ?_⟩
    have h1 : s'.h.2 + callsAllN text.length g.rules * 0 ≤ 0 + g.root.callsN text.length + callsAllN text.length g.rules * s'.counter := hspent
    have h2 := callsN_le text.length g.root
    have h3 := callsAllN_le text.length g.rules
    rw [root_loops hg, Nat.pow_zero, Nat.mul_one] at h2
    have h5 : callsAllN text.length g.rules * s'.counter ≤ g.parts * (text.length + 2) ^ g.loops * s'.counter := Nat.mul_le_mul_right _ h3
    rw [hc] at h1 h5
    omega

/-- The evaluations (`w = true`) or calls (`w = false`) of a parse that met no left recursion. -/
theorem tally_polynomial (w : Bool) (ops : Ops V H) (g : Grammar) (hg : g.Built) (hgd : g.Guarded) (hc : g.AllCached) (tr : Trace) (opts : List ParseOption) (h : H) (text : Bytes) :
    ∃ k, ∀ k', k ≤ k' → ∀ o s, (parseString ops g tr opts k' h text).1 = .ok (o, s) → (∀ a, a < s.next → (s.heap a).wipemask = none) →
      ∃ v, visits (callEnv ops g tr opts text) k' h = .ok v ∧
        (if w then s.counter else v) ≤ g.root.parts + g.parts * g.numRules * (text.length + 2) ^ (g.loops + 1) := by
  obtain ⟨nn, hnn, hguard⟩ := hgd
  obtain ⟨D, hD⟩ := sizeBound_exists g
  refine ⟨need text.length D g.root 0, fun k hk o s hp hmask => ?_⟩
  obtain ⟨r, hr⟩ := parseString_parse ops g hg tr opts k h text o s hp
  have hsame := parseV_same (callEnv ops g tr opts text) k g.root h 0 0
  rw [hr] at hsame
  unfold visits
  show ∃ v, (match parseV (callEnv ops g tr opts text).counted k g.root (newState (h, 0) 0) with
    | .ok (_, s) => .ok s.h.2 | .panic e => .panic e | .oof => .oof) = Out.ok v ∧ _
  have hspent := root_paid (env := (callEnv ops g tr opts text).counted) (nn := nn) (D := D) (w := w) (M := callsAllN text.length g.rules) (Stream.ofText_valid text)
    (hg.wfT (Or.inr hguard)) hg.noAlias hD hnn hc (counted_keeps ops) (fun n hn => callsN_le_all _ _ n hn) k g.root (newState (h, 0) 0) hg.isRank
    (hg.rootOk _ _) (newState_inv _ _ _ (Nat.zero_le _))
    ⟨fun p i a ha => by simp [newState] at ha, fun a ha => by simp [newState] at ha, fun a ha => by simp [newState] at ha⟩ hk
  have hmasks := fun r' s' => parseV_masks (c := 0) (r' := r') (s' := s') hr
  generalize hx : parseV (callEnv ops g tr opts text).counted k g.root (newState (h, 0) 0) = x at hsame hspent hmasks
  cases x with
  | oof => exact hsame.elim
  | panic e => exact hsame.elim
  | ok x =>
    obtain ⟨r', s'⟩ := x
    obtain ⟨m1, m2⟩ := hmasks r' s' rfl
    obtain ⟨-, -, -, hcnt, -⟩ := hsame
    refine ⟨s'.h.2, rfl, ?_⟩
    have h1 := hspent.count fun a ha => by
      rw [m2 a]
      exact hmask a (by rw [← m1]; exact ha)
    have h2 := callsN_le text.length g.root
    have h3 := callsAllN_le text.length g.rules
    rw [root_loops hg, Nat.pow_zero, Nat.mul_one] at h2
    have h4 := used_card_le text.length g.numRules s'
    rw [Finset.card_product, Finset.card_range, Finset.card_range] at h4
    have h0 : tally w (newState (V := V) (h, 0) 0) = 0 := by cases w <;> rfl
    have h5 : tally w s' ≤ g.root.callsN text.length + callsAllN text.length g.rules * (used text.length g.numRules s').card := by
      have h1 : tally w s' + _ ≤ tally w (newState (V := V) (h, 0) 0) + g.root.callsN text.length + callsAllN text.length g.rules * (used text.length g.numRules s').card := h1
      omega
    have h6 : (if w then s.counter else s'.h.2) = tally w s' := by cases w <;> simp [tally, hcnt]
    rw [h6]
    refine Nat.le_trans h5 (Nat.add_le_add h2 ?_)
    refine Nat.le_trans (Nat.mul_le_mul h3 (Nat.le_trans h4 (Nat.mul_le_mul_right _ (show text.length + 1 ≤ text.length + 2 by omega)))) (Nat.le_of_eq ?_)
    show g.parts * (text.length + 2) ^ g.loops * ((text.length + 2) * g.numRules) = _
    rw [Nat.pow_succ, Nat.mul_comm (text.length + 2) g.numRules, Nat.mul_assoc, Nat.mul_assoc g.parts g.numRules, Nat.mul_left_comm (_ ^ _)]

/-- C84: a parse that met no left recursion (no memo entry got a mask of rules to forget) called `parse` at most as often as the size of the grammar
times the number of rules times a power of the length of the text, one more than the depth of nested repetitions. For every grammar whose rules are memoised
and whose repetitions consume input, all callbacks wherever they are, all options, with or without tracing. -/
theorem C84_polynomial (ops : Ops V H) (g : Grammar) (hg : g.Built) (hgd : g.Guarded) (hc : g.AllCached) (tr : Trace) (opts : List ParseOption) (h : H) (text : Bytes) :
    ∃ k, ∀ k', k ≤ k' → ∀ o s, (parseString ops g tr opts k' h text).1 = .ok (o, s) → (∀ a, a < s.next → (s.heap a).wipemask = none) →
      ∃ v, visits (callEnv ops g tr opts text) k' h = .ok v ∧ v ≤ g.root.parts + g.parts * g.numRules * (text.length + 2) ^ (g.loops + 1) :=
  tally_polynomial false ops g hg hgd hc tr opts h text

/-- C72 without the condition that callbacks and labels are on rules only: the evaluations of a parse that met no left recursion, of rules and of
parts of rules that have a callback or a label of their own, are polynomially many. -/
theorem C72_evaluations_polynomial (ops : Ops V H) (g : Grammar) (hg : g.Built) (hgd : g.Guarded) (hc : g.AllCached) (tr : Trace) (opts : List ParseOption) (h : H) (text : Bytes) :
    ∃ k, ∀ k', k ≤ k' → ∀ o s, (parseString ops g tr opts k' h text).1 = .ok (o, s) → (∀ a, a < s.next → (s.heap a).wipemask = none) →
      s.counter ≤ g.root.parts + g.parts * g.numRules * (text.length + 2) ^ (g.loops + 1) := by
  obtain ⟨k, hk⟩ := tally_polynomial true ops g hg hgd hc tr opts h text
  refine ⟨k, fun k' hk' o s hp hm => ?_⟩
  obtain ⟨_, _, hv⟩ := hk k' hk' o s hp hm
  exact hv

/-- No memo entry of a grammar without left recursion gets a mask. -/
theorem unmasked_of_noLeftRec (P : PureOps V) (g : Grammar) (hg : g.Built) (hlr : g.NoLeftRec) (tr : Trace)
    (opts : List ParseOption) (hn : NoTrace g tr opts) (h : H) (text : Bytes) :
    ∃ k, ∀ k', k ≤ k' → ∀ o s, (parseString (P.ops H) g tr opts k' h text).1 = .ok (o, s) → ∀ a, a < s.next → (s.heap a).wipemask = none := by
  obtain ⟨r, hm⟩ := textMeans_total P g hg hlr text
  obtain ⟨k, hk⟩ := (means_iff _ _ _ _ _ _).mp hm
  refine ⟨k, fun k' hk' o s hs => ?_⟩
  have hpeg := Out.le_eq (peg_mono _ k k' _ _ hk' (Nat.le_refl _) g.root 0 0) (by rw [hk]; exact r.out_ne_oof)
  rw [hk] at hpeg
  have hsim := top_sim (E := ⟨P, Stream.ofText text, g⟩) (env := callEnv (P.ops H) g tr opts text) (B := True)
    rfl rfl (hn.quiet _ _) (Stream.ofText_valid text) rfl hg k' ((List.length text + 1) * g.numRules) h (Or.inl trivial) (p := 0) (Nat.zero_le _)
  rw [show (callEnv (P.ops H) g tr opts text).g.root = g.root from rfl, hpeg] at hsim
  rcases answers_of_sim hg h hsim with ⟨-, h1⟩ | ⟨-, h1⟩
  · rw [h1] at hs; cases hs
  · exact ((h1 o s hs).memo 0 0 (newState_memo _ (callEnv (P.ops H) g tr opts text) 0 0 h (Nat.zero_le _))).masks

/-- C84 for grammars without left recursion: on every text. -/
theorem C84_polynomial_without_left_recursion (P : PureOps V) (g : Grammar) (hg : g.Built) (hc : g.AllCached) (hlr : g.NoLeftRec) (tr : Trace)
    (opts : List ParseOption) (hn : NoTrace g tr opts) (h : H) (text : Bytes) :
    ∃ k, ∀ k', k ≤ k' → ∀ o s, (parseString (P.ops H) g tr opts k' h text).1 = .ok (o, s) →
      ∃ v, visits (callEnv (P.ops H) g tr opts text) k' h = .ok v ∧
        v ≤ g.root.parts + g.parts * g.numRules * (text.length + 2) ^ (g.loops + 1) := by
  obtain ⟨k1, h1⟩ := unmasked_of_noLeftRec P g hg hlr tr opts hn h text
  have hgd : g.Guarded := by
    obtain ⟨nn, h1, h2, -⟩ := hlr
    exact ⟨nn, h1, h2⟩
  obtain ⟨k2, h2⟩ := C84_polynomial (P.ops H) g hg hgd hc tr opts h text
  exact ⟨max k1 k2, fun k' hk o s hp => h2 k' (by omega) o s hp (h1 k' (by omega) o s hp)⟩

/-- The evaluations for grammars without left recursion, on every text. -/
theorem C72_polynomial_without_left_recursion (P : PureOps V) (g : Grammar) (hg : g.Built) (hc : g.AllCached) (hlr : g.NoLeftRec) (tr : Trace)
    (opts : List ParseOption) (hn : NoTrace g tr opts) (h : H) (text : Bytes) :
    ∃ k, ∀ k', k ≤ k' → ∀ o s, (parseString (P.ops H) g tr opts k' h text).1 = .ok (o, s) →
      s.counter ≤ g.root.parts + g.parts * g.numRules * (text.length + 2) ^ (g.loops + 1) := by
  obtain ⟨k1, h1⟩ := unmasked_of_noLeftRec P g hg hlr tr opts hn h text
  have hgd : g.Guarded := by
    obtain ⟨nn, h1, h2, -⟩ := hlr
    exact ⟨nn, h1, h2⟩
  obtain ⟨k2, h2⟩ := C72_evaluations_polynomial (P.ops H) g hg hgd hc tr opts h text
  exact ⟨max k1 k2, fun k' hk o s hp => h2 k' (by omega) o s hp (h1 k' (by omega) o s hp)⟩

/-- C84: linear, if in addition nothing in the rules is repeated by `*`, `+` or `{,}`. -/
theorem C84_linear_without_repetition (P : PureOps V) (g : Grammar) (hg : g.Built) (hc : g.AllCached) (hlr : g.NoLeftRec) (hrep : g.loops = 0)
    (tr : Trace) (opts : List ParseOption) (hn : NoTrace g tr opts) (h : H) (text : Bytes) :
    ∃ k, ∀ k', k ≤ k' → ∀ o s, (parseString (P.ops H) g tr opts k' h text).1 = .ok (o, s) →
      ∃ v, visits (callEnv (P.ops H) g tr opts text) k' h = .ok v ∧ v ≤ g.root.parts + g.parts * g.numRules * (text.length + 2) := by
  have := C84_polynomial_without_left_recursion P g hg hc hlr tr opts hn h text
  rwa [hrep, Nat.zero_add, Nat.pow_one] at this

/-- C84: reading a rule text of `n` bytes calls `parse` at most 10605 (n + 2)³ + 2 times, whether it is a rule or not, if it is read at all (C47: the stack may overflow). -/
theorem C84_rule_text_cubic (rx : Bytes → Option Regex) (tr : Trace) (htr : tr.stack = false) :
    ∃ m, joesonMade = .ok m ∧ ∀ text, ∃ k, ∀ k', k ≤ k' → ∀ o s, (parseString ((joesonOps rx).ops Unit) m.g tr [] k' () text).1 = .ok (o, s) →
      ∃ v, visits (callEnv ((joesonOps rx).ops Unit) m.g tr [] text) k' () = .ok v ∧ v ≤ 2 + 303 * 35 * (text.length + 2) ^ 3 := by
  obtain ⟨m, hm, hG⟩ := Joe.made
  refine ⟨m, hm, fun text => ?_⟩
  rw [hG]
  exact C84_polynomial_without_left_recursion (joesonOps rx) Joe.G joeson_built (by unfold Grammar.AllCached; decide) Intent.joeson_noLeftRec tr []
    (joeson_noTrace htr) () text

theorem Sample.ahead_built : Sample.ahead.Built :=
  Grammar.built_of_checks _ _ rfl (by decide +kernel) (by decide +kernel) (by decide +kernel)

/-- C84: but the work is not linear in general, even without left recursion. `S: ('a'* 'b' | 'a')*` on `n` times `a` is evaluated once, and
`parse` is called (n² + 13 n + 16) / 2 times: the repetition inside is not memoised, and runs to the end from every letter. -/
theorem C84_quadratic (ops : Ops V H) (tr : Trace) (htr : tr.stack = false) (h : H) (n : Nat) :
    ∃ k, ∀ k', k ≤ k' → ∃ v s x, (parseString ops Sample.ahead tr [] k' h (List.replicate n 0x61)).1 = .ok (.value v, s) ∧ s.counter = 1 ∧
      visits (callEnv ops Sample.ahead tr [] (List.replicate n 0x61)) k' h = .ok x ∧ 2 * x = n * n + 13 * n + 16 := by
  refine ⟨n + 6, fun k' hk => ?_⟩
  obtain ⟨k, rfl⟩ : ∃ k, k' = k + 6 := ⟨k' - 6, by omega⟩
  obtain ⟨v, s', h1, h2, h3, h4⟩ := Sample.visit_all (env := (callEnv ops Sample.ahead tr [] (Sample.as n)).counted) (n := n) (counted_keeps ops) rfl htr rfl k h (by omega)
  have hsame := parseV_same (callEnv ops Sample.ahead tr [] (Sample.as n)) (k + 6) Sample.ahead.root h 0 0
  rw [h1] at hsame
  have key := parseString_cases ops Sample.ahead Sample.ahead_built tr [] (k + 6) h (Sample.as n)
  extract_lets env at key
  have hx : parse env (k + 6) Sample.ahead.root (newState h 0) = parse (callEnv ops Sample.ahead tr [] (Sample.as n)) (k + 6) Sample.ahead.root (newState h 0) := rfl
  generalize parse (callEnv ops Sample.ahead tr [] (Sample.as n)) (k + 6) Sample.ahead.root (newState h 0) = x at hsame hx
  cases x with
  | oof => exact hsame.elim
  | panic e => exact hsame.elim
  | ok x =>
    obtain ⟨r, s⟩ := x
    obtain ⟨hr, -, hpos, hcount, -⟩ := hsame
    subst hr
    rw [hx] at key
    obtain ⟨-, -, -, -, key⟩ := key
    rw [if_pos (by rw [Sample.as_length, ← hpos, h3])] at key
    refine ⟨v, s, Sample.effort n + 2, key, by rw [← hcount, h4], ?_, ?_⟩
    · unfold visits
      show (match parseV (callEnv ops Sample.ahead tr [] (Sample.as n)).counted (k + 6) Sample.ahead.root (newState (h, 0) 0) with
        | .ok (_, s) => .ok s.h.2 | .panic e => .panic e | .oof => .oof) = Out.ok _
      rw [h1]
      show Out.ok s'.h.2 = _
      rw [h2]
    · have := Sample.effort_eq n
      omega

/-- For instance on `aaaa`. -/
example : visits (callEnv (Sample.pure.ops Unit) Sample.ahead {} [] (asc "aaaa")) 30 () = .ok 42 := by rfl

theorem Sample.ahead_cached : Sample.ahead.AllCached := by unfold Grammar.AllCached; decide

theorem Sample.ahead_noLeftRec : Sample.ahead.NoLeftRec :=
  noLeftRecB_ok (nn := []) (rk := fun _ => 0) (by simp [Sample.ahead, SolidAll, Node.SolidRe, Sample.lit]) (by decide +kernel)

/-- The bound for this grammar, with a repetition inside another. -/
example (text : Bytes) : ∃ k, ∀ k', k ≤ k' → ∀ o s, (parseString (Sample.pure.ops Unit) Sample.ahead {} [] k' () text).1 = .ok (o, s) →
    ∃ v, visits (callEnv (Sample.pure.ops Unit) Sample.ahead {} [] text) k' () = .ok v ∧ v ≤ 2 + 7 * 1 * (text.length + 2) ^ 3 :=
  C84_polynomial_without_left_recursion Sample.pure Sample.ahead Sample.ahead_built Sample.ahead_cached Sample.ahead_noLeftRec {} []
    (Sample.noTrace _ (by decide)) () text

/-- The hypotheses of `C84_polynomial` are met: see C72. -/
example : Sample.unmasked (parseString Sample.ops Sample.backtrack {} [] 20 () (asc "ay")) = true ∧
    visits (callEnv Sample.ops Sample.backtrack {} [] (asc "ay")) 20 () = .ok 10 := ⟨by decide +kernel, rfl⟩

/-- The hypotheses of `C84_work_bounded` are met by a left recursive grammar. -/
example (text : Bytes) : ∃ k, ∀ k', k ≤ k' → ∀ o s, (parseString Sample.ops Sample.minus {} [] k' () text).1 = .ok (o, s) →
    ∃ v, visits (callEnv Sample.ops Sample.minus {} [] text) k' () = .ok v ∧ v ≤ 2 + 12 * (text.length + 2) ^ 0 * s.counter :=
  C84_work_bounded Sample.ops Sample.minus Sample.minus_built Sample.minus_guarded {} [] () text

/-- `X: '(' X ')' | 'a'` takes linear time. -/
example (text : Bytes) : ∃ k, ∀ k', k ≤ k' → ∀ o s, (parseString (Sample.pure.ops Unit) Sample.parens {} [] k' () text).1 = .ok (o, s) →
    ∃ v, visits (callEnv (Sample.pure.ops Unit) Sample.parens {} [] text) k' () = .ok v ∧ v ≤ 2 + 7 * 1 * (text.length + 2) :=
  C84_linear_without_repetition Sample.pure Sample.parens Sample.parens_built Sample.parens_cached Sample.parens_noLeftRec rfl {} []
    (Sample.noTrace _ (by decide)) () text

example : visits (callEnv (Sample.pure.ops Unit) Sample.parens {} [] (asc "((a))")) 60 () = .ok 15 := by rfl

/-- The hypotheses of `C72_polynomial_without_left_recursion` are met by `S: (x:'a'* 'b' | 'a')*`, with a label inside a rule. -/
theorem Sample.aheadLabel_built : Sample.aheadLabel.Built :=
  Grammar.built_of_checks _ _ rfl (by decide +kernel) (by decide +kernel) (by decide +kernel)

example (text : Bytes) : ∃ k, ∀ k', k ≤ k' → ∀ o s, (parseString (Sample.pure.ops Unit) Sample.aheadLabel {} [] k' () text).1 = .ok (o, s) →
    s.counter ≤ 2 + 7 * 1 * (text.length + 2) ^ 3 :=
  C72_polynomial_without_left_recursion Sample.pure Sample.aheadLabel Sample.aheadLabel_built (by unfold Grammar.AllCached; decide)
    (noLeftRecB_ok (nn := []) (rk := fun _ => 0) (by simp [Sample.aheadLabel, SolidAll, Node.SolidRe, Sample.lit]) (by decide +kernel)) {} []
    (Sample.noTrace _ (by decide)) () text

/-- There the bound of `C72_linear_without_left_recursion`, rules times positions, is exceeded: the part with the label is evaluated
again for each letter, 16 evaluations for one rule and five positions. -/
example : ∃ o s, (parseString (Sample.pure.ops Unit) Sample.aheadLabel {} [] 30 () (asc "aaaa")).1 = .ok (o, s) ∧ s.counter = 16 ∧
    Sample.aheadLabel.numRules * ((asc "aaaa").length + 1) = 5 := ⟨_, _, rfl, rfl, rfl⟩

end Joeson
