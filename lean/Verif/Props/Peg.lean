import Verif.Proofs.Means
import Verif.Proofs.SkipCache
import Verif.Proofs.Lookup
import Verif.Props.Parse
/-!
# C22, C23, C24, C45: the engine computes the meaning of the grammar

`Means` (Spec/Means.lean) gives the usual big-step rules of parsing expression grammars.
-/

namespace Joeson
variable {V H : Type}

/-- The meaning of the whole grammar on a text. -/
def TextMeans (P : PureOps V) (g : Grammar) (text : Bytes) (d : Nat) (r : Res V) : Prop :=
  Means ⟨P, Stream.ofText text, g⟩ d 0 (.node g.root) 0 r

/-- No tracing: neither trace options, nor call options, nor rule options ask for it. -/
structure NoTrace (g : Grammar) (tr : Trace) (opts : List ParseOption) : Prop where
  trace : tr.stack = false
  opts : ∀ b, ParseOption.debug b ∈ opts → b = false
  rules : ∀ n ∈ g.rules, n.info.debug = false

/-- What `ParseString` should answer when the meaning of the text is `r`. -/
def Answers (text : Bytes) (r : Res V) (x : Out (Outcome V × St V H)) : Prop :=
  match r with
  | .error e => x = .panic e
  | .ok (some (v, e)) =>
    if e = text.length then ∃ s, x = .ok (.value v, s) else ∃ rep s, x = .ok (.error rep, s) ∧ s.pos = e
  | .ok none => if text = [] then ∃ s, x = .ok (.nil, s) else ∃ rep s, x = .ok (.error rep, s) ∧ s.pos = 0

theorem NoTrace.quiet {g : Grammar} {tr : Trace} {opts : List ParseOption} (h : NoTrace g tr opts) (ops : Ops V H)
    (text : Bytes) : Quiet (callEnv ops g tr opts text) := by
  refine ⟨?_, h.rules⟩
  have : (opts.foldl CtxOptions.apply {}).debug = false := by
    cases hd : (opts.foldl CtxOptions.apply {}).debug with
    | false => rfl
    | true =>
      rcases opts_debug opts {} hd with h' | ⟨b, hb, rfl⟩
      · cases h'
      · cases h.opts _ hb
  show (if (opts.foldl CtxOptions.apply {}).debug = true then { tr with stack := true } else tr).stack = false
  rw [this]
  exact h.trace

theorem newState_memo (E : PegEnv V) (env : Env V H) (k d : Nat) (h : H) {p : Nat} (hp : p ≤ env.st.len) :
    Memo E env k d (newState h p) :=
  ⟨newState_inv env _ h hp, fun _ _ _ h => by simp [newState] at h,
    ⟨fun _ hc => by simp [newState, ruleCalls] at hc, by simp [newState, ruleCalls]⟩,
    fun _ h => absurd h (Nat.not_lt_zero _)⟩

/-- The top rank. -/
theorem top_sim {E : PegEnv V} {env : Env V H} {B : Prop} (hops : env.ops = E.P.ops H) (hst : env.st = E.st)
    (hq : Quiet env) (hval : env.st.Valid) (hg : env.g = E.g) (hb : env.g.Built) (k d : Nat) (h : H)
    (hd : B ∨ d ≤ stackCap) {p : Nat} (hp : p ≤ env.st.len) :
    Sim E env B (newState h p) (peg E k d env.g.root 0 p) (parse env k env.g.root (newState h p)) := by
  obtain ⟨i, l, hr, h1, h2, h3⟩ := hb.root
  cases k with
  | zero => exact SimR.oof
  | succ k =>
    have hroot := hb.rootOk (fun _ => False) True
    rw [hr] at hroot ⊢
    rw [parse]
    unfold wrap peg
    have hw : ((Node.choice i l).info.ownLabel || (Node.choice i l).info.cb.isSome) = false := by
      simp [Node.info, h2, Info.ownLabel, h1]
    simp only [hw, Bool.false_eq_true, if_false]
    rw [parseKind]
    refine parseAlts_sim (parse_sim hops hst hq hval hg (hb.wfT (Or.inl trivial)) hb.noAlias k d 0) l _ ?_
      (newState_memo E env k d h hp) (Or.inr fun c hc => ?_) ?_
    · cases hroot with
      | choice _ h => exact h
    · obtain ⟨id, h, -⟩ := h3 c hc
      exact ⟨id, h⟩
    · simpa [newState] using hd

/-- From the outcome of the top rank to `ParseString`. -/
theorem answers_of_sim {P : PureOps V} {g : Grammar} (hg : g.Built) {tr : Trace} {opts : List ParseOption}
    (h : H) {text : Bytes} {r : Res V} {B : Prop} {k : Nat} {R : St V H → Prop}
    (hsim : SimR B R r.out (parse (callEnv (P.ops H) g tr opts text) k g.root (newState h 0))) :
      (B ∧ (parseString (P.ops H) g tr opts k h text).1 = .panic .stackOverflow) ∨
      (Answers text r (parseString (P.ops H) g tr opts k h text).1 ∧
        ∀ o s, (parseString (P.ops H) g tr opts k h text).1 = .ok (o, s) → R s) := by
  have key := parseString_cases (P.ops H) g hg tr opts k h text
  have hnone := topResult_none (P.ops H) g hg tr opts k h text
  unfold topResult at hnone
  extract_lets env at key
  rw [show callEnv (P.ops H) g tr opts text = env from rfl] at *
  rcases hsim.cases r.out_ne_oof with ⟨hB, h1⟩ | ⟨e, h1, h2⟩ | ⟨x, s, h1, h2, h3⟩
  · rw [show parse env k g.root (newState h 0) = _ from h1] at key
    exact Or.inl ⟨hB, key.1⟩
  · rw [show parse env k g.root (newState h 0) = _ from h2] at key
    refine Or.inr ⟨?_, fun o s hs => by rw [key.1] at hs; cases hs⟩
    cases r with
    | ok _ => cases h1
    | error e' => cases h1; exact key.1
  · rw [show parse env k g.root (newState h 0) = _ from h1] at key hnone
    obtain ⟨hle, -, -, -, key⟩ := key
    cases r with
    | error _ => cases h2
    | ok y =>
      cases h2
      refine Or.inr ⟨?_, ?_⟩
      · unfold Answers
        cases x with
        | some v =>
          dsimp only [Option.map_some]
          by_cases hp : s.pos = text.length
          · rw [if_pos hp] at key ⊢
            exact ⟨s, key⟩
          · rw [if_neg hp] at key ⊢
            obtain ⟨rep, att, hrep, -⟩ := key
            exact ⟨rep, s, hrep, rfl⟩
        | none =>
          have h0 := hnone s.pos rfl
          dsimp only [Option.map_none]
          by_cases ht : text = []
          · rw [if_pos ht]
            rw [if_pos (by rw [h0, ht]; rfl)] at key
            exact ⟨s, key⟩
          · rw [if_neg ht]
            rw [if_neg (by rw [h0]; intro hx; exact ht (List.eq_nil_of_length_eq_zero hx.symm))] at key
            obtain ⟨rep, att, hrep, -⟩ := key
            exact ⟨rep, s, hrep, h0⟩
      · intro o s' hs'
        split at key
        · rw [key] at hs'; cases hs'; exact h3
        · obtain ⟨rep, att, hrep, -⟩ := key
          rw [hrep] at hs'; cases hs'; exact h3

/-- From the meaning to `ParseString`. -/
theorem answers_of_means {P : PureOps V} {g : Grammar} (hg : g.Built) {tr : Trace} {opts : List ParseOption}
    (hn : NoTrace g tr opts) (h : H) {text : Bytes} {d : Nat} {r : Res V} (hm : TextMeans P g text d r) {B : Prop}
    (hd : B ∨ d ≤ stackCap) : ∃ k, ∀ k', k ≤ k' →
      (B ∧ (parseString (P.ops H) g tr opts k' h text).1 = .panic .stackOverflow) ∨
      (Answers text r (parseString (P.ops H) g tr opts k' h text).1 ∧
        ∀ o s, (parseString (P.ops H) g tr opts k' h text).1 = .ok (o, s) →
          CallsOk (callEnv (P.ops H) g tr opts text) s) := by
  obtain ⟨k, hk⟩ := (means_iff _ _ _ _ _ _).mp hm
  refine ⟨k, fun k' hk' => ?_⟩
  have hpeg := Out.le_eq (peg_mono _ k k' d d hk' (Nat.le_refl _) g.root 0 0) (by rw [hk]; exact r.out_ne_oof)
  rw [hk] at hpeg
  have hsim := top_sim (E := ⟨P, Stream.ofText text, g⟩) (env := callEnv (P.ops H) g tr opts text) (B := B)
    rfl rfl (hn.quiet _ _) (Stream.ofText_valid text) rfl hg k' d h hd (p := 0) (Nat.zero_le _)
  rw [show (callEnv (P.ops H) g tr opts text).g.root = g.root from rfl, hpeg] at hsim
  exact answers_of_sim hg h (SimR.imp hsim fun s hs =>
    (hs.memo 0 0 (newState_memo _ (callEnv (P.ops H) g tr opts text) 0 0 h (Nat.zero_le _))).calls)

/-! ## C22 -/

/-- C22: when the grammar means `r` on the text, nesting rules at most 1024 deep, `ParseString` returns
exactly `r`: its value if it ends at the end of the text, a `ParseError` otherwise, its panic if any
(nil only for an empty text). For every built grammar, text, pure callbacks and regular expressions. -/
theorem C22_engine_computes_peg (P : PureOps V) (g : Grammar) (hg : g.Built) (tr : Trace)
    (opts : List ParseOption) (hn : NoTrace g tr opts) (h : H) (text : Bytes) (d : Nat) (hd : d ≤ 1024) (r : Res V)
    (hm : TextMeans P g text d r) :
    ∃ k, ∀ k', k ≤ k' → Answers text r (parseString (P.ops H) g tr opts k' h text).1 := by
  obtain ⟨k, hk⟩ := answers_of_means hg hn h hm (B := False) (Or.inr hd)
  exact ⟨k, fun k' hk' => ((hk k' hk').resolve_left fun h => h.1).1⟩

/-- C22 for any nesting of rules: the only other possibility is that the rule stack is exhausted. -/
theorem C22_peg_or_stack_overflow (P : PureOps V) (g : Grammar) (hg : g.Built) (tr : Trace)
    (opts : List ParseOption) (hn : NoTrace g tr opts) (h : H) (text : Bytes) (d : Nat) (r : Res V)
    (hm : TextMeans P g text d r) :
    ∃ k, ∀ k', k ≤ k' → Answers text r (parseString (P.ops H) g tr opts k' h text).1 ∨
      (parseString (P.ops H) g tr opts k' h text).1 = .panic .stackOverflow := by
  obtain ⟨k, hk⟩ := answers_of_means hg hn h hm (B := True) (Or.inl trivial)
  exact ⟨k, fun k' hk' => (hk k' hk').symm.imp (·.1) (·.2)⟩

namespace Sample

/-- Trees as values, without store. The callback 0 wraps its argument. -/
def pure : PureOps Ast where
  str b := .str b
  undef := .undef
  isUndef v := v == .undef
  arr l := .arr l
  newMap k v := .map [(k, v)]
  mapSet r k v := match r with
    | .map kvs => .ok (.map (kvSet k v kvs))
    | _ => .error .assertion
  merge a b := a.merge b
  cb _ v p := .ok (some (.user p [v]))
  origin v _ := v

/-- `r.out` is what the interpreter says. -/
theorem textMeans {P : PureOps V} {g : Grammar} {text : Bytes} {d : Nat} {r : Res V} (k : Nat)
    (h : peg ⟨P, Stream.ofText text, g⟩ k d g.root 0 0 = r.out) : TextMeans P g text d r :=
  (means_iff _ _ _ _ _ _).mpr ⟨k, h⟩

theorem rep_means : TextMeans pure rep (asc "aab") 2
    (.ok (some (.arr [.arr [.str (asc "a"), .str (asc "a")], .arr [.str (asc "b")]], 3))) :=
  textMeans 20 (by decide +kernel)

theorem backtrack_means : TextMeans pure backtrack (asc "ay") 2 (.ok (some (.user 1 [.str (asc "a")], 2))) :=
  textMeans 20 (by decide +kernel)

theorem backtrack_undefined : TextMeans pure backtrack (asc "b") 2 (.error (.undefinedRef "Missing")) :=
  textMeans 20 (by decide +kernel)

theorem noTrace (g : Grammar) (h : ∀ n ∈ g.rules, n.info.debug = false) : NoTrace g {} [] :=
  ⟨rfl, fun _ h => (List.not_mem_nil h).elim, h⟩

theorem rep_noTrace : NoTrace rep {} [] := noTrace _ (by decide)
theorem backtrack_noTrace : NoTrace backtrack {} [] := noTrace _ (by decide)

theorem backtrack_built : backtrack.Built :=
  Grammar.built_of_checks _ _ rfl (by decide +kernel) (by decide +kernel) (by decide +kernel)

end Sample

/-- `C22_engine_computes_peg` on a text: the hypotheses hold and the answer is a value. -/
example : ∃ k, ∀ k', k ≤ k' → ∃ s, (parseString (Sample.pure.ops Unit) Sample.rep {} [] k' () (asc "aab")).1 =
    .ok (.value (.arr [.arr [.str (asc "a"), .str (asc "a")], .arr [.str (asc "b")]]), s) :=
  C22_engine_computes_peg Sample.pure Sample.rep Sample.rep_built {} [] Sample.rep_noTrace () (asc "aab") 2
    (by decide) _ Sample.rep_means

/-- `C22_peg_or_stack_overflow` has the same hypotheses, without the bound on the depth. -/
example : Sample.rep.Built ∧ NoTrace Sample.rep {} [] ∧ ∃ r, TextMeans Sample.pure Sample.rep (asc "aab") 2 r :=
  ⟨Sample.rep_built, Sample.rep_noTrace, _, Sample.rep_means⟩

/-! ## C23 -/

/-- C23: whichever rules skip the cache, `ParseString` gives the answer the meaning asks for, so
switching caching on or off for any set of rules does not change it. -/
theorem C23_cache_invisible (P : PureOps V) (g : Grammar) (hg : g.Built) (tr : Trace)
    (opts : List ParseOption) (hn : NoTrace g tr opts) (h : H) (text : Bytes) (d : Nat) (hd : d ≤ 1024) (r : Res V)
    (hm : TextMeans P g text d r) (f : Nat → Bool) :
    ∃ k, ∀ k', k ≤ k' → Answers text r (parseString (P.ops H) g tr opts k' h text).1 ∧
      Answers text r (parseString (P.ops H) (g.setSkip f) tr opts k' h text).1 := by
  have hm' : TextMeans P (g.setSkip f) text d r := by
    obtain ⟨k, hk⟩ := (means_iff _ _ _ _ _ _).mp hm
    refine (means_iff _ _ _ _ _ _).mpr ⟨k, ?_⟩
    rw [← hk]
    exact peg_setSkip ⟨P, Stream.ofText text, g⟩ f k d g.root 0 0
  have hn' : NoTrace (g.setSkip f) tr opts := by
    refine ⟨hn.trace, hn.opts, fun n hmem => ?_⟩
    obtain ⟨id, hid⟩ := List.mem_iff_getElem?.mp hmem
    rw [Grammar.setSkip_rules] at hid
    cases hr : g.rules[id]? with
    | none => rw [hr] at hid; cases hid
    | some m =>
      rw [hr] at hid
      cases hid
      rw [m.setSkip_debug]
      exact hn.rules m (List.mem_of_getElem? hr)
  obtain ⟨k, hk⟩ := C22_engine_computes_peg P g hg tr opts hn h text d hd r hm
  obtain ⟨k', hk'⟩ := C22_engine_computes_peg P (g.setSkip f) (hg.setSkip f) tr opts hn' h text d hd r hm'
  exact ⟨max k k', fun m hm => ⟨hk m (by omega), hk' m (by omega)⟩⟩

/-- Here `A` is memoised in the first grammar and parsed twice at 0 in the second. -/
example : ∃ k, ∀ k', k ≤ k' →
    (∃ s, (parseString (Sample.pure.ops Unit) Sample.backtrack {} [] k' () (asc "ay")).1 =
      .ok (.value (.user 1 [.str (asc "a")]), s)) ∧
    ∃ s, (parseString (Sample.pure.ops Unit) (Sample.backtrack.setSkip fun id => id == 1) {} [] k' () (asc "ay")).1 =
      .ok (.value (.user 1 [.str (asc "a")]), s) :=
  C23_cache_invisible Sample.pure Sample.backtrack Sample.backtrack_built {} [] Sample.backtrack_noTrace () (asc "ay")
    2 (by decide) _ Sample.backtrack_means _

/-- The number of callbacks called in a parse. -/
def Sample.callsOf {V H : Type} (x : Out (Outcome V × St V H) × Trace) : Option Nat :=
  match x.1 with
  | .ok (_, s) => some s.calls.length
  | _ => none

/-- The flag does change what is done: the callback of `A` is called once or twice. -/
example : Sample.callsOf (parseString (Sample.pure.ops Unit) Sample.backtrack {} [] 20 () (asc "ay")) = some 1 ∧
    Sample.callsOf (parseString (Sample.pure.ops Unit) (Sample.backtrack.setSkip fun id => id == 1) {} [] 20 ()
      (asc "ay")) = some 2 := by decide +kernel

/-! ## C24 -/

/-- C24: in a parse of a text that has a meaning, the callbacks of memoised rules are called at most
once per rule and start position. `s.calls` is the log of all callback invocations. -/
theorem C24_callback_once (P : PureOps V) (g : Grammar) (hg : g.Built) (tr : Trace)
    (opts : List ParseOption) (hn : NoTrace g tr opts) (h : H) (text : Bytes) (d : Nat) (r : Res V)
    (hm : TextMeans P g text d r) :
    ∃ k, ∀ k', k ≤ k' → ∀ o s, (parseString (P.ops H) g tr opts k' h text).1 = .ok (o, s) →
      (s.calls.filter fun c => c.ofRule && g.cached c.id).Pairwise
        fun c c' => ¬ (c.id = c'.id ∧ c.pos = c'.pos) := by
  obtain ⟨k, hk⟩ := answers_of_means hg hn h hm (B := True) (Or.inl trivial)
  refine ⟨k, fun k' hk' o s hs => ?_⟩
  rcases hk k' hk' with ⟨-, h'⟩ | ⟨-, h'⟩
  · rw [h'] at hs; cases hs
  · exact (h' o s hs).once

example : Sample.backtrack.Built ∧ NoTrace Sample.backtrack {} [] ∧
    ∃ r, TextMeans Sample.pure Sample.backtrack (asc "ay") 2 r :=
  ⟨Sample.backtrack_built, Sample.backtrack_noTrace, _, Sample.backtrack_means⟩

/-! ## C45 -/

/-- C45, one half: when parsing the text reaches a reference to the undefined rule `nm`, `ParseString`
panics saying so. -/
theorem C45_reached_panics (P : PureOps V) (g : Grammar) (hg : g.Built) (tr : Trace)
    (opts : List ParseOption) (hn : NoTrace g tr opts) (h : H) (text : Bytes) (d : Nat) (hd : d ≤ 1024) (nm : String)
    (hm : TextMeans P g text d (.error (.undefinedRef nm))) :
    ∃ k, ∀ k', k ≤ k' → (parseString (P.ops H) g tr opts k' h text).1 = .panic (.undefinedRef nm) :=
  C22_engine_computes_peg P g hg tr opts hn h text d hd _ hm

/-- C45, other half, for every grammar (left recursive or not), any callbacks and any options: a parse
that does not panic because of the undefined name `nm` is exactly the parse of the grammar with `nm`
bound to any rule `x` whatsoever. -/
theorem C45_unreached_unaffected (ops : Ops V H) (g : Grammar) (tr : Trace) (opts : List ParseOption) (k : Nat)
    (h : H) (text : Bytes) (nm : String) (hu : g.lookup nm = none) (x : Option Nat)
    (hne : (parseString ops g tr opts k h text).1 ≠ .panic (.undefinedRef nm)) :
    parseString ops (g.bind nm x) tr opts k h text = parseString ops g tr opts k h text := by
  have key := parse_leU (x := x) (callEnv ops g tr opts text) hu k g.root (newState h 0)
  unfold parseString grammarParse at hne ⊢
  dsimp only at hne ⊢
  have e1 : parse (callEnv ops g tr opts text) k g.root (newState h 0) = .panic (.undefinedRef nm) → False := by
    intro he
    unfold callEnv at he
    rw [he] at hne
    exact hne rfl
  rcases key with key | key
  · exact (e1 key).elim
  · unfold callEnv Env.bind at key
    dsimp only at key
    rw [show (g.bind nm x).root = g.root from rfl, show (g.bind nm x).numRules = g.numRules from rfl, ← key]

/-- C45: the panic never names a defined rule (unless user code panics with that very value). -/
theorem C45_only_undefined (ops : Ops V H) (g : Grammar) (hg : g.Built) (tr : Trace) (opts : List ParseOption)
    (k : Nat) (h : H) (text : Bytes) (nm : String)
    (hc : ∀ c v p h, ops.cb c v p h ≠ .error (.undefinedRef nm))
    (hs : ∀ v l w h, ops.mapSet v l w h ≠ .error (.undefinedRef nm))
    (hme : ∀ v w h, ops.merge v w h ≠ .error (.undefinedRef nm))
    (he : (parseString ops g tr opts k h text).1 = .panic (.undefinedRef nm)) : g.lookup nm = none := by
  rcases C26_no_internal_panic ops g hg tr opts k h text _ he with h | h | h | h | h | h | h
  · obtain ⟨c, v, p, h, hh⟩ := h; exact absurd hh (hc c v p h)
  · obtain ⟨v, l, w, h, hh⟩ := h; exact absurd hh (hs v l w h)
  · obtain ⟨v, w, h, hh⟩ := h; exact absurd hh (hme v w h)
  · obtain ⟨nm', hl, hh⟩ := h
    cases hh
    exact hl
  · cases h
  · rcases h.2 with h | h
    · cases h
    · cases h.2
  · cases h.2.2

example : ∃ k, ∀ k', k ≤ k' →
    (parseString (Sample.pure.ops Unit) Sample.backtrack {} [] k' () (asc "b")).1 = .panic (.undefinedRef "Missing") :=
  C45_reached_panics Sample.pure Sample.backtrack Sample.backtrack_built {} [] Sample.backtrack_noTrace () (asc "b") 2
    (by decide) _ Sample.backtrack_undefined

example : Sample.backtrack.lookup "Missing" = none ∧
    (parseString (Sample.pure.ops Unit) Sample.backtrack {} [] 20 () (asc "ay")).1 ≠
      .panic (.undefinedRef "Missing") := by
  refine ⟨by decide +kernel, fun h => ?_⟩
  have : Sample.callsOf (parseString (Sample.pure.ops Unit) Sample.backtrack {} [] 20 () (asc "ay")) = some 1 := by
    decide +kernel
  unfold Sample.callsOf at this
  rw [h] at this
  cases this

end Joeson
