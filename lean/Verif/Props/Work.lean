import Verif.Proofs.Work
import Verif.Proofs.Work2
import Verif.Props.Total
/-!
# C72: how often rules are evaluated

`ParseContext.Counter` (packrat.go:262) counts the evaluations of rules, and of inner nodes that have a callback or a label
of their own. The point of the memo table is that no rule is evaluated twice at the same place.
-/

namespace Joeson
variable {V H : Type}

theorem root_allBare {g : Grammar} (hg : g.Built) : g.root.AllBare := by
  obtain ⟨i, l, hr, h1, h2, h3⟩ := hg.root
  rw [hr]
  refine .mk ⟨h2, ?_⟩ fun c hc => ?_
  · show Info.ownLabel i = false
    simp [Info.ownLabel, h1]
  · obtain ⟨id, rfl, -⟩ := h3 c hc
    exact .mk ⟨rfl, rfl⟩ fun c hc => by cases hc

/-- C72: a parse that met no left recursion (no memo entry got a mask of rules to forget) evaluated at most as many rules as
there are rules times positions. For every grammar whose rules are memoised, all callbacks, with or without tracing. -/
theorem C72_evaluations_bounded (ops : Ops V H) (g : Grammar) (hg : g.Built) (hc : g.AllCached) (ho : g.OnRules) (tr : Trace)
    (opts : List ParseOption) (k : Nat) (h : H) (text : Bytes) (o : Outcome V) (s : St V H)
    (hp : (parseString ops g tr opts k h text).1 = .ok (o, s)) (hn : ∀ a, a < s.next → (s.heap a).wipemask = none) :
    s.counter ≤ g.numRules * (text.length + 1) := by
  have key := parseString_cases ops g hg tr opts k h text
  extract_lets env at key
  have hget := parse_gets (env := env) hc ho k g.root (newState h 0) (root_allBare hg)
  have hex : ∃ r, parse env k g.root (newState h 0) = .ok (r, s) := by
    cases hx : parse env k g.root (newState h 0) with
    | oof => rw [hx] at key; rw [key] at hp; cases hp
    | panic e => rw [hx] at key; rw [key.1] at hp; cases hp
    | ok x =>
      obtain ⟨r, s'⟩ := x
      rw [hx] at key
      obtain ⟨-, -, -, -, key⟩ := key
      refine ⟨r, ?_⟩
      split at key
      · rw [key] at hp; cases hp; rfl
      · obtain ⟨rep, att, hrep, -⟩ := key
        rw [hrep] at hp; cases hp; rfl
  obtain ⟨r, hr⟩ := hex
  have hw := hget.of_ok hr ⟨fun p i a ha => by simp [newState] at ha, fun a ha => by simp [newState] at ha, fun a ha => by simp [newState] at ha⟩
  have h1 := hw.count hn
  have h2 : (used env.st.len env.g.numRules s).card ≤ ((Finset.range (env.st.len + 1) ×ˢ Finset.range env.g.numRules)).card :=
    used_card_le _ _ _
  rw [Finset.card_product, Finset.card_range, Finset.card_range] at h2
  have h3 : (newState h 0 : St V H).counter = 0 := rfl
  have h4 : env.st.len = text.length := rfl
  have h5 : env.g.numRules = g.numRules := rfl
  rw [h4, h5, Nat.mul_comm] at h2
  dsimp only at h1
  rw [h4, h5] at h1
  omega

/-- C72 for texts that have a meaning without left recursion (`Means`).

What is missing: texts on which left recursion is met. `C72_left_recursion_exponential` shows that the claim is false for them. -/
theorem C72_evaluations_partial (P : PureOps V) (g : Grammar) (hg : g.Built) (hc : g.AllCached) (ho : g.OnRules) (tr : Trace)
    (opts : List ParseOption) (hn : NoTrace g tr opts) (h : H) (text : Bytes) (d : Nat) (r : Res V) (hm : TextMeans P g text d r) :
    ∃ k, ∀ k', k ≤ k' → ∀ o s, (parseString (P.ops H) g tr opts k' h text).1 = .ok (o, s) → s.counter ≤ g.numRules * (text.length + 1) := by
  obtain ⟨k, hk⟩ := (means_iff _ _ _ _ _ _).mp hm
  refine ⟨k, fun k' hk' o s hs => C72_evaluations_bounded (P.ops H) g hg hc ho tr opts k' h text o s hs ?_⟩
  have hpeg := Out.le_eq (peg_mono _ k k' d d hk' (Nat.le_refl _) g.root 0 0) (by rw [hk]; exact r.out_ne_oof)
  rw [hk] at hpeg
  have hsim := top_sim (E := ⟨P, Stream.ofText text, g⟩) (env := callEnv (P.ops H) g tr opts text) (B := True)
    rfl rfl (hn.quiet _ _) (Stream.ofText_valid text) rfl hg k' d h (Or.inl trivial) (p := 0) (Nat.zero_le _)
  rw [show (callEnv (P.ops H) g tr opts text).g.root = g.root from rfl, hpeg] at hsim
  rcases answers_of_sim hg h hsim with ⟨-, h1⟩ | ⟨-, h1⟩
  · rw [h1] at hs; cases hs
  · exact ((h1 o s hs).memo 0 0 (newState_memo _ (callEnv (P.ops H) g tr opts text) 0 0 h (Nat.zero_le _))).masks

/-- C72 for grammars without left recursion: on every text, the number of evaluations is at most proportional to its length. -/
theorem C72_linear_without_left_recursion (P : PureOps V) (g : Grammar) (hg : g.Built) (hc : g.AllCached) (ho : g.OnRules) (hlr : g.NoLeftRec) (tr : Trace)
    (opts : List ParseOption) (hn : NoTrace g tr opts) (h : H) (text : Bytes) :
    ∃ k, ∀ k', k ≤ k' → ∀ o s, (parseString (P.ops H) g tr opts k' h text).1 = .ok (o, s) → s.counter ≤ g.numRules * (text.length + 1) := by
  obtain ⟨r, hm⟩ := textMeans_total P g hg hlr text
  exact C72_evaluations_partial P g hg hc ho tr opts hn h text _ r hm

namespace Sample

theorem twice_built : twice.Built :=
  Grammar.built_of_checks _ _ rfl (by decide +kernel) (by decide +kernel) (by decide +kernel)

theorem backtrack_cached : backtrack.AllCached := by unfold Grammar.AllCached; decide

theorem leaf_bare {n : Node} (h : n.Bare) (hi : n.inner = []) : n.AllBare := .mk h (by rw [hi]; simp)

theorem backtrack_onRules : backtrack.OnRules := by
  intro n hn c hc
  simp only [backtrack, List.mem_cons, List.not_mem_nil, or_false] at hn
  rcases hn with rfl | rfl
  · simp only [Node.inner, List.mem_cons, List.not_mem_nil, or_false] at hc
    rcases hc with rfl | rfl | rfl
    · refine .mk ⟨rfl, rfl⟩ fun d hd => ?_
      simp only [Node.inner, List.mem_cons, List.not_mem_nil, or_false] at hd
      rcases hd with rfl | rfl <;> exact leaf_bare ⟨rfl, rfl⟩ rfl
    · refine .mk ⟨rfl, rfl⟩ fun d hd => ?_
      simp only [Node.inner, List.mem_cons, List.not_mem_nil, or_false] at hd
      rcases hd with rfl | rfl <;> exact leaf_bare ⟨rfl, rfl⟩ rfl
    · exact leaf_bare ⟨rfl, rfl⟩ rfl
  · cases hc

end Sample

/-- The hypotheses of C72 are met, and `A` is needed twice at 0: at most 2 · 3 evaluations. -/
example : ∃ k, ∀ k', k ≤ k' → ∀ o s, (parseString (Sample.pure.ops Unit) Sample.backtrack {} [] k' () (asc "ay")).1 = .ok (o, s) → s.counter ≤ 2 * 3 :=
  C72_evaluations_partial Sample.pure Sample.backtrack Sample.backtrack_built Sample.backtrack_cached Sample.backtrack_onRules {} []
    Sample.backtrack_noTrace () (asc "ay") 2 _ Sample.backtrack_means

/-- The value of `Counter` after a parse. -/
def Sample.counterOf {V H : Type} (x : Out (Outcome V × St V H) × Trace) : Option Nat :=
  match x.1 with
  | .ok (_, s) => some s.counter
  | _ => none

/-- In fact two; three if `A` is not memoised. -/
example : Sample.counterOf (parseString (Sample.pure.ops Unit) Sample.backtrack {} [] 20 () (asc "ay")) = some 2 ∧
    Sample.counterOf (parseString (Sample.pure.ops Unit) (Sample.backtrack.setSkip fun id => id == 1) {} [] 20 () (asc "ay")) = some 3 := by
  decide +kernel

/-- No entry of the memo table has a mask. -/
def Sample.unmasked {V H : Type} (x : Out (Outcome V × St V H) × Trace) : Bool :=
  match x.1 with
  | .ok (_, s) => (List.range s.next).all fun a => (s.heap a).wipemask.isNone
  | _ => false

/-- The hypotheses of `C72_evaluations_bounded` are met. -/
example : Sample.unmasked (parseString Sample.ops Sample.backtrack {} [] 20 () (asc "ay")) = true := by decide +kernel

theorem Sample.parens_cached : Sample.parens.AllCached := by unfold Grammar.AllCached; decide

theorem Sample.parens_onRules : Sample.parens.OnRules := by
  intro n hn c hc
  rw [List.mem_singleton.mp hn] at hc
  simp only [Node.inner, List.mem_cons, List.not_mem_nil, or_false] at hc
  rcases hc with rfl | rfl
  · refine .mk ⟨rfl, rfl⟩ fun d hd => ?_
    simp only [Node.inner, List.mem_cons, List.not_mem_nil, or_false] at hd
    rcases hd with rfl | rfl | rfl <;> exact Sample.leaf_bare ⟨rfl, rfl⟩ rfl
  · exact Sample.leaf_bare ⟨rfl, rfl⟩ rfl

/-- `X: '(' X ')' | 'a'` evaluates `X` at most once per position, on every text. -/
example (text : Bytes) : ∃ k, ∀ k', k ≤ k' → ∀ o s, (parseString (Sample.pure.ops Unit) Sample.parens {} [] k' () text).1 = .ok (o, s) → s.counter ≤ 1 * (text.length + 1) :=
  C72_linear_without_left_recursion Sample.pure Sample.parens Sample.parens_built Sample.parens_cached Sample.parens_onRules Sample.parens_noLeftRec {} []
    (Sample.noTrace _ (by decide)) () text

/-- C72 is false for left recursive rules: packrat.go:138-146 does not remember that such a rule failed. With the one rule
`E: E '+' | 'a' E 'b' | 'a' E 'c' | 'x'`, the text of `n` times `a` makes 2^(n+1) - 1 evaluations of `E`, for every `n` that the rule stack
allows. Whatever the callbacks, options, and store. -/
theorem C72_left_recursion_exponential (ops : Ops V H) (tr : Trace) (htr : tr.stack = false) (h : H) (n : Nat) (hn : 1 ≤ n) (hn' : n ≤ 1022) :
    ∃ k, ∀ k', k ≤ k' → ∃ rep s, (parseString ops Sample.twice tr [] k' h (List.replicate n 0x61)).1 = .ok (.error rep, s) ∧
      s.counter = 2 ^ (n + 1) - 1 := by
  have hF : Sample.Forgets 0 (newState h 0 : St V H) := ⟨fun q a ha => by simp [newState] at ha, fun q a _ ha => by simp [newState] at ha⟩
  let env : Env V H := callEnv ops Sample.twice tr [] (Sample.as n)
  have henv : env.st = Stream.ofText (Sample.as n) := rfl
  obtain ⟨s', h1, h2, h3, h4⟩ := Sample.twice_fails (env := env) rfl htr henv n 0 (by omega) (newState h 0) hF rfl
    (by show 0 + n + 2 ≤ 1024; omega)
  refine ⟨3 * n + 7, fun k' hk' => ?_⟩
  obtain ⟨k, rfl⟩ : ∃ k, k' = k + 1 := ⟨k' - 1, by omega⟩
  have htop : parse env (k + 1) Sample.twice.root (newState h 0) = .ok (none, { s' with pos := 0 }) := by
    show parseAlts env (parse env k) [.rule 0] (newState h 0) = _
    rw [Sample.alts_skip (h1 k (by omega)) (Nat.zero_le _)]
    rfl
  have key := parseString_cases ops Sample.twice Sample.twice_built tr [] (k + 1) h (Sample.as n)
  extract_lets env' at key
  rw [show parse env' (k + 1) Sample.twice.root (newState h 0) = _ from htop] at key
  obtain ⟨-, -, -, -, key⟩ := key
  rw [if_neg (by rw [Sample.as_length]; show ¬ 0 = n; omega)] at key
  obtain ⟨rep, att, hrep, -⟩ := key
  refine ⟨rep, _, hrep, ?_⟩
  show s'.counter = _
  have h5 : (newState h 0 : St V H).counter = 0 := rfl
  have : 1 ≤ 2 ^ (n + 1) := Nat.one_le_two_pow
  omega

/-- For instance, on `aaaa`. -/
example : Sample.counterOf (parseString (Sample.pure.ops Unit) Sample.twice {} [] 60 () (asc "aaaa")) = some 31 := by decide +kernel

end Joeson
