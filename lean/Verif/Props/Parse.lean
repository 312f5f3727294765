import Verif.Props.Engine
import Verif.Spec.Checked
/-!
# C26, C27, C35, C36, C37, C50
-/

namespace Joeson
open Spec
variable {V H : Type}

/-! ## C26 -/

/-- Panics that have an external cause: user code, a label that cannot be merged, a reference to a rule
that does not exist, input nested too deeply, or (with tracing on) the tracing code. -/
def External (ops : Ops V H) (g : Grammar) (tr : Trace) (opts : List ParseOption) (e : Panic) : Prop :=
  (∃ c v p h, ops.cb c v p h = .error e) ∨
  (∃ v l w h, ops.mapSet v l w h = .error e) ∨
  (∃ v w h, ops.merge v w h = .error e) ∨
  (∃ nm, g.lookup nm = none ∧ e = .undefinedRef nm) ∨
  e = .stackOverflow ∨
  (((tr.stack = true ∨ ∃ b, ParseOption.debug b ∈ opts ∧ b = true) ∨ ∃ n ∈ g.rules, n.info.debug = true) ∧
    (e = .runeError ∨ ((∃ n ∈ g.rules, n.info.skipCache = true) ∧ e = .nilDeref))) ∨
  (tr.loop = true ∧ 0 ≤ tr.filterLine ∧ e = .loopStackEmpty)

theorem opts_debug (opts : List ParseOption) : ∀ o : CtxOptions, (opts.foldl CtxOptions.apply o).debug = true →
    o.debug = true ∨ ∃ b, ParseOption.debug b ∈ opts ∧ b = true := by
  induction opts with
  | nil => intro o h; exact Or.inl h
  | cons x l ih =>
    intro o h
    rcases ih _ h with h | ⟨b, hb, hb'⟩
    · cases x with
      | debug b => exact Or.inr ⟨b, by simp, h⟩
      | skipLog b => exact Or.inl h
      | skipCache b => exact Or.inl h
    · exact Or.inr ⟨b, by simp [hb], hb'⟩

/-- What a finished parse looks like, for every built grammar. -/
theorem parseString_cases (ops : Ops V H) (g : Grammar) (hg : g.Built) (tr : Trace) (opts : List ParseOption)
    (k : Nat) (h : H) (text : Bytes) :
    let env : Env V H :=
      { ops := ops, st := Stream.ofText text, g := g,
        trace := if (opts.foldl CtxOptions.apply {}).debug then { tr with stack := true } else tr,
        skipLog := (opts.foldl CtxOptions.apply {}).skipLog }
    match parse env k g.root (newState h 0) with
    | .oof => (parseString ops g tr opts k h text).1 = .oof
    | .panic e => (parseString ops g tr opts k h text).1 = .panic e ∧ OkPanic env e
    | .ok (r, s) => s.pos ≤ text.length ∧ s.stack = [] ∧ (∀ p i a, s.table p i = some a →
        p ≤ text.length ∧ i < g.numRules ∧ (s.heap a).pos = p ∧ (s.heap a).id = i) ∧
      (parseString ops g tr opts k h text).2 = tr ∧
      if s.pos = text.length then
        (parseString ops g tr opts k h text).1 =
          .ok (match r with | none => .nil | some v => .value v, s)
      else ∃ rep att, (parseString ops g tr opts k h text).1 = .ok (.error rep, s) ∧
        s.pos ≤ rep.char ∧ rep.char ≤ att ∧ att ≤ text.length ∧
        rep.line = newlines (text.take rep.char) ∧
        rep.col = ((afterLastNewline (text.take rep.char)).length : Int) ∧
        (att = s.pos ∨ Attempted s g.numRules att) ∧
        (∀ q, s.pos ≤ q → Attempted s g.numRules q → q ≤ att) ∧
        (rep.char = s.pos ∨ Succeeded s g.numRules rep.char) ∧
        (∀ q, s.pos ≤ q → Succeeded s g.numRules q → q ≤ rep.char) := by
  intro env
  have key := parse_top (ops := ops) hg (Stream.ofText_valid text) env.trace env.skipLog k h (start := 0)
    (Nat.zero_le _)
  change (parse env k g.root (newState h 0)).Holds _ _ _ at key
  unfold parseString grammarParse
  extract_lets old tr' env' restored
  have henv : env' = env := rfl
  rw [henv]
  cases hp : parse env k g.root (newState h 0) with
  | oof => rfl
  | panic e => exact ⟨rfl, key.of_panic hp⟩
  | ok x =>
    obtain ⟨r, s⟩ := x
    obtain ⟨hi, he, -⟩ := key.of_ok hp
    have htr : restored = tr := by
      show ({ (if (opts.foldl CtxOptions.apply {}).debug then { tr with stack := true } else tr) with stack := tr.stack } : Trace) = tr
      split <;> rfl
    have hpos : s.pos ≤ text.length := hi.pos
    refine ⟨hpos, he.stack, ?_, ?_⟩
    · intro p i a hpa
      have := hi.table p i a hpa
      exact ⟨this.2.2.2.1, this.2.2.2.2, this.2.1, this.2.2.1⟩
    · dsimp only
      have hlen : (Stream.ofText text).len = text.length := rfl
      rw [htr, hlen]
      by_cases hend : s.pos = text.length
      · rw [if_neg (by simpa using hend), if_pos hend]
        cases r <;> exact ⟨rfl, rfl⟩
      · rw [if_pos hend, if_neg hend]
        obtain ⟨s1, s2, s3, s4, s5, s6, s7⟩ := scanRows_spec s g.numRules (text.length + 1 - s.pos) s.pos s.pos s.pos
          (Nat.le_refl _) (Nat.le_refl _)
        generalize scanRows s g.numRules s.pos (text.length + 1 - s.pos) (s.pos, s.pos) = sr at *
        obtain ⟨att, suc⟩ := sr
        dsimp only at *
        have hatt : att ≤ text.length := by rcases s4 with h | h <;> omega
        obtain ⟨rep, hrep, hc, hl, hcol⟩ := runeReport_ok text s.pos suc att s1 s2 hatt
        rw [hrep]
        subst hc
        have hq : ∀ q, Attempted s g.numRules q → q ≤ text.length := by
          rintro q ⟨i, hi', ha⟩
          obtain ⟨a, ha⟩ := Option.isSome_iff_exists.mp ha
          exact (hi.table q i a ha).2.2.2.1
        have hq' : ∀ q, Succeeded s g.numRules q → q ≤ text.length := by
          rintro q ⟨i, a, hi', ha, _⟩
          exact (hi.table q i a ha).2.2.2.1
        refine ⟨rfl, rep, att, rfl, s1, s2, hatt, hl, hcol, ?_, ?_, ?_, ?_⟩
        · exact s4.imp_right fun h => h.2.2
        · intro q h1 h2; exact s6 q h1 (by have := hq q h2; omega) h2
        · exact s5.imp_right fun h => h.2.2
        · intro q h1 h2; exact s7 q h1 (by have := hq' q h2; omega) h2

/-- C26: whenever `ParseString` panics, the cause is external. None of the engine's own assertions
(unexpected stage, missing wipemask, frame position, index of the memo table, position out of bound)
can be the reason, unless user code raises the same panic. -/
theorem C26_no_internal_panic (ops : Ops V H) (g : Grammar) (hg : g.Built) (tr : Trace)
    (opts : List ParseOption) (k : Nat) (h : H) (text : Bytes) (e : Panic)
    (he : (parseString ops g tr opts k h text).1 = .panic e) : External ops g tr opts e := by
  have key := parseString_cases ops g hg tr opts k h text
  extract_lets env at key
  have hst : env.trace.stack = true → tr.stack = true ∨ ∃ b, ParseOption.debug b ∈ opts ∧ b = true := by
    intro hs
    dsimp only [env] at hs
    split at hs
    · rename_i hd
      rcases opts_debug opts {} hd with h | h
      · simp at h
      · exact Or.inr h
    · exact Or.inl hs
  have hloop : env.trace.loop = tr.loop ∧ env.trace.filterLine = tr.filterLine := by
    dsimp only [env]
    split <;> exact ⟨rfl, rfl⟩
  cases hp : parse env k g.root (newState h 0) with
  | oof => rw [hp] at key; rw [key] at he; cases he
  | panic e' =>
    rw [hp] at key
    rw [key.1] at he
    injection he with he
    subst he
    rcases key.2 with h | h | h | h | h | h | h | h
    · exact Or.inl h
    · exact Or.inr (Or.inl h)
    · exact Or.inr (Or.inr (Or.inl h))
    · exact Or.inr (Or.inr (Or.inr (Or.inl h)))
    · exact Or.inr (Or.inr (Or.inr (Or.inr (Or.inl h))))
    · obtain ⟨h1, p, hp, hr⟩ := h
      exact Or.inr (Or.inr (Or.inr (Or.inr (Or.inr (Or.inl
        ⟨h1.imp_left hst, Or.inl (renderRune_error text hp _ hr)⟩)))))
    · obtain ⟨h1, h2, h3⟩ := h
      exact Or.inr (Or.inr (Or.inr (Or.inr (Or.inr (Or.inl ⟨h1.imp_left hst, Or.inr ⟨h2, h3⟩⟩)))))
    · rw [hloop.1, hloop.2] at h
      exact Or.inr (Or.inr (Or.inr (Or.inr (Or.inr (Or.inr h)))))
  | ok x =>
    obtain ⟨r, s⟩ := x
    rw [hp] at key
    obtain ⟨-, -, -, -, key⟩ := key
    split at key
    · rw [key] at he; cases he
    · obtain ⟨rep, att, h, -⟩ := key; rw [h] at he; cases he

/-- C26 for tree values and callbacks that do not panic: without tracing the only panics left are
undefined references, labels that cannot be merged, and the depth limit. -/
theorem C26_no_internal_panic_trees (cb : Nat → Ast → Nat → H → Except Panic (Option Ast × H))
    (hcb : ∀ c v p h e, cb c v p h ≠ .error e) (g : Grammar) (hg : g.Built)
    (hd : ∀ n ∈ g.rules, n.info.debug = false) (k : Nat) (h : H) (text : Bytes) (e : Panic)
    (he : (parseString (treeOps cb) g {} [] k h text).1 = .panic e) :
    (∃ nm, g.lookup nm = none ∧ e = .undefinedRef nm) ∨ e = .assertion ∨ e = .stackOverflow := by
  rcases C26_no_internal_panic _ g hg _ _ k h text e he with h | h | h | h | h | h | h
  · obtain ⟨c, v, p, h, hh⟩ := h; exact absurd hh (hcb c v p h e)
  · obtain ⟨v, l, w, h, hh⟩ := h
    right; left
    simp only [treeOps] at hh
    split at hh
    · cases hh
    · injection hh with hh; exact hh.symm
  · obtain ⟨v, w, h, hh⟩ := h
    right; left
    simp only [treeOps] at hh
    split at hh
    · cases hh
    · rename_i e' hm
      injection hh with hh
      subst hh
      unfold Ast.merge at hm
      repeat' split at hm
      all_goals first | (cases hm; rfl) | cases hm
  · exact Or.inl h
  · exact Or.inr (Or.inr h)
  · obtain ⟨h | ⟨n, hn, h⟩, -⟩ := h
    · simp at h
    · rw [hd n hn] at h; cases h
  · simp at h

example : External Sample.ops { Sample.minus with lookup := fun _ => none } {} [] (.undefinedRef "E") ∧
    Sample.panicOf (parseString Sample.ops { Sample.minus with lookup := fun _ => none } {} [] 40 ()
      (asc "1")) = some (.undefinedRef "E") :=
  ⟨Or.inr (Or.inr (Or.inr (Or.inl ⟨"E", rfl, rfl⟩))), by decide +kernel⟩

/-! ## C27 -/

theorem checkCall_holds {env : Env V H} {nn : Nat → Prop} {T : Prop} {D k : Nat} {f : Node → Run V H}
    (h : RecHolds env nn T D k f) : RecHolds env nn T D k (fun n => checkCall env (f n)) := by
  intro n s hn hi hne hk
  have := h n s hn hi hne hk
  show (checkCall env (f n) s).Holds _ _ _
  unfold checkCall
  cases hf : f n s with
  | oof => exact this.of_oof hf
  | panic e => exact this.of_panic hf
  | ok x =>
    obtain ⟨r, s'⟩ := x
    have := this.of_ok hf
    dsimp only
    rw [if_pos ⟨this.2.1.stack, this.2.1.pos, this.1.pos⟩]
    exact this

theorem checkedParse_holds {env : Env V H} {nn : Nat → Prop} {T : Prop} {D : Nat} (hst : env.st.Valid)
    (hg : env.g.WfT nn T) (hal : env.g.NoAlias) (hD : SizeBound env.g D)
    (hnn : NNClosed env.g nn) : ∀ k, RecHolds env nn T D k (checkedParse env k)
  | 0 => fun _ _ _ _ _ hk => hk.resolve_right (by unfold need; omega)
  | k + 1 => by
    have := checkCall_holds (wrap_holds hst hg hal hD hnn (checkedParse_holds hst hg hal hD hnn k))
    intro n s hn hi hne hk
    rw [checkedParse]
    exact this n s hn hi hne hk

/-- C27: in no parse, for no rule, input and callback, does any call of a parser (succeeding or failing)
return with another rule stack, with the cursor before where it was, or beyond the input: the checks
around all calls never fire. -/
theorem C27_every_call_balanced (ops : Ops V H) (g : Grammar) (hg : g.Built) (st : Stream) (hst : st.Valid)
    (tr : Trace) (sl : Bool) (k : Nat) (h : H) (start : Nat) (hs : start ≤ st.len) (id : Nat)
    (hid : id < g.numRules)
    (hcb : ∀ c v p h, ops.cb c v p h ≠ .error .checkFailed)
    (hms : ∀ v l w h, ops.mapSet v l w h ≠ .error .checkFailed)
    (hmg : ∀ v w h, ops.merge v w h ≠ .error .checkFailed)
    (hr : ∀ p, st.render p ≠ .error .checkFailed) :
    checkedParse { ops := ops, st := st, g := g, trace := tr, skipLog := sl } k (.rule id)
      (newState h start) ≠ .panic .checkFailed := by
  intro hc
  obtain ⟨D, hD⟩ := sizeBound_exists g
  have := checkedParse_holds (T := True) (D := D) (nn := fun _ => False)
    (env := { ops := ops, st := st, g := g, trace := tr, skipLog := sl }) hst
    (hg.wfT (Or.inl trivial)) hg.noAlias hD (fun _ _ h => h.elim) k (.rule id) (newState h start)
    (.rule ⟨hid, Or.inr trivial⟩) (newState_inv _ _ h hs) (Or.inr ⟨id, rfl⟩) (Or.inl trivial)
  rcases this.of_panic hc with h | h | h | h | h | h | h | h
  · obtain ⟨c, v, p, h, hh⟩ := h; exact hcb _ _ _ _ hh
  · obtain ⟨c, v, p, h, hh⟩ := h; exact hms _ _ _ _ hh
  · obtain ⟨c, v, p, hh⟩ := h; exact hmg _ _ _ hh
  · obtain ⟨_, _, h⟩ := h; cases h
  · cases h
  · obtain ⟨_, p, _, hh⟩ := h; exact hr _ hh
  · cases h.2.2
  · cases h.2.2

/-- C27, whole parse: when `ParseString` returns, the stack is empty again and the end position is
inside the text. -/
theorem C27_final_state (ops : Ops V H) (g : Grammar) (hg : g.Built) (tr : Trace)
    (opts : List ParseOption) (k : Nat) (h : H) (text : Bytes) (o : Outcome V) (s : St V H)
    (he : (parseString ops g tr opts k h text).1 = .ok (o, s)) : s.stack = [] ∧ s.pos ≤ text.length := by
  have key := parseString_cases ops g hg tr opts k h text
  extract_lets env at key
  cases hp : parse env k g.root (newState h 0) with
  | oof => rw [hp] at key; rw [key] at he; cases he
  | panic e' => rw [hp] at key; rw [key.1] at he; cases he
  | ok x =>
    obtain ⟨r, s'⟩ := x
    rw [hp] at key
    obtain ⟨h1, h2, -, -, key⟩ := key
    split at key
    · rw [key] at he; cases he; exact ⟨h2, h1⟩
    · obtain ⟨rep, att, h, -⟩ := key; rw [h] at he; cases he; exact ⟨h2, h1⟩

/-! ## C35 -/

theorem parseAlts_none_pos {env : Env V H} {rec_ : Node → Run V H} : ∀ (l : List Node) (s s' : St V H),
    parseAlts env rec_ l s = .ok (none, s') → s'.pos = s.pos
  | [], s, s', h => by cases h; rfl
  | c :: cs, s, s', h => by
    rw [parseAlts] at h
    obtain ⟨⟨r, s1⟩, -, h⟩ := Out.bind_eq_ok.mp h
    cases r with
    | some v => cases h
    | none =>
      obtain ⟨s2, h2, h⟩ := Out.bind_eq_ok.mp h
      have := parseAlts_none_pos cs s2 s' h
      unfold setPos at h2
      split at h2
      · cases h2; exact this
      · cases h2

/-- The environment in which `ParseString` runs the top rank (grammar.go:79-119). -/
def callEnv (ops : Ops V H) (g : Grammar) (tr : Trace) (opts : List ParseOption) (text : Bytes) : Env V H where
  ops := ops
  st := Stream.ofText text
  g := g
  trace := if (opts.foldl CtxOptions.apply {}).debug then { tr with stack := true } else tr
  skipLog := (opts.foldl CtxOptions.apply {}).skipLog

/-- The result of the grammar on a text: the value of the top rank and where it ended. -/
def topResult (ops : Ops V H) (g : Grammar) (tr : Trace) (opts : List ParseOption) (k : Nat) (h : H)
    (text : Bytes) : Out (Option V × Nat) :=
  match parse (callEnv ops g tr opts text) k g.root (newState h 0) with
  | .ok (r, s) => .ok (r, s.pos)
  | .panic e => .panic e
  | .oof => .oof

theorem topResult_none (ops : Ops V H) (g : Grammar) (hg : g.Built) (tr : Trace) (opts : List ParseOption)
    (k : Nat) (h : H) (text : Bytes) (p : Nat) (he : topResult ops g tr opts k h text = .ok (none, p)) :
    p = 0 := by
  unfold topResult at he
  obtain ⟨i, l, hr, h1, h2, h3⟩ := hg.root
  cases k with
  | zero => simp [parse] at he
  | succ k =>
    rw [hr, parse] at he
    unfold wrap at he
    dsimp only at he
    simp only [Node.info, h2, Info.ownLabel, h1, Option.isSome_none, bne_self_eq_false, Bool.false_and,
      Bool.or_self, Bool.false_eq_true, if_false] at he
    rw [parseKind] at he
    split at he
    · rename_i r s hp
      injection he with he
      injection he with hr hpos
      subst hr
      have := parseAlts_none_pos _ _ _ hp
      rw [← hpos, this]
      rfl
    · cases he
    · cases he

/-- C35, part 1: a value is returned exactly when the grammar matches the whole input, and it is the
grammar's value. -/
theorem C35_value_iff (ops : Ops V H) (g : Grammar) (hg : g.Built) (tr : Trace) (opts : List ParseOption)
    (k : Nat) (h : H) (text : Bytes) (v : V) :
    (∃ s, (parseString ops g tr opts k h text).1 = .ok (.value v, s)) ↔
      topResult ops g tr opts k h text = .ok (some v, text.length) := by
  have key := parseString_cases ops g hg tr opts k h text
  extract_lets env at key
  unfold topResult
  rw [show callEnv ops g tr opts text = env from rfl] at *
  cases hp : parse env k g.root (newState h 0) with
  | oof => rw [hp] at key; simp [key]
  | panic e' => rw [hp] at key; simp [key.1]
  | ok x =>
    obtain ⟨r, s'⟩ := x
    rw [hp] at key
    obtain ⟨h1, h2, -, -, key⟩ := key
    split at key
    · rename_i hend
      rw [key]
      cases r <;> simp [hend]
    · rename_i hend
      obtain ⟨rep, att, h, -⟩ := key
      rw [h]
      simp [hend]

/-- C35, part 2: for non empty input a `ParseError` is returned exactly when the grammar finished without
matching the whole input. What is missing: empty input, see `C35_empty_input_nil`. -/
theorem C35_error_iff_partial (ops : Ops V H) (g : Grammar) (hg : g.Built) (tr : Trace)
    (opts : List ParseOption) (k : Nat) (h : H) (text : Bytes) (hne : text ≠ []) :
    (∃ r s, (parseString ops g tr opts k h text).1 = .ok (.error r, s)) ↔
      ∃ r p, topResult ops g tr opts k h text = .ok (r, p) ∧ ¬ (r.isSome ∧ p = text.length) := by
  have key := parseString_cases ops g hg tr opts k h text
  have hnone := topResult_none ops g hg tr opts k h text
  extract_lets env at key
  unfold topResult at hnone ⊢
  rw [show callEnv ops g tr opts text = env from rfl] at *
  have hlen : text.length ≠ 0 := by simpa using hne
  cases hp : parse env k g.root (newState h 0) with
  | oof => rw [hp] at key; simp [key]
  | panic e' => rw [hp] at key; simp [key.1]
  | ok x =>
    obtain ⟨r, s'⟩ := x
    rw [hp] at key hnone
    obtain ⟨h1, h2, -, -, key⟩ := key
    split at key
    · rename_i hend
      rw [key]
      constructor
      · rintro ⟨rep, s, h⟩
        cases r <;> cases h
      · rintro ⟨r', p, h, hn⟩
        exfalso
        cases h
        cases r with
        | none => exact hlen (by rw [← hend]; exact hnone _ rfl)
        | some v => exact hn ⟨rfl, hend⟩
    · rename_i hend
      obtain ⟨rep, att, h, -⟩ := key
      rw [h]
      exact ⟨fun _ => ⟨r, s'.pos, rfl, fun h => hend h.2⟩, fun _ => ⟨rep, s', rfl⟩⟩

/-- C35, part 3: nil is only ever returned for empty input. -/
theorem C35_nil_only_for_empty (ops : Ops V H) (g : Grammar) (hg : g.Built) (tr : Trace)
    (opts : List ParseOption) (k : Nat) (h : H) (text : Bytes) (s : St V H)
    (he : (parseString ops g tr opts k h text).1 = .ok (.nil, s)) : text = [] := by
  have key := parseString_cases ops g hg tr opts k h text
  have hnone := topResult_none ops g hg tr opts k h text
  extract_lets env at key
  unfold topResult at hnone
  rw [show callEnv ops g tr opts text = env from rfl] at *
  cases hp : parse env k g.root (newState h 0) with
  | oof => rw [hp] at key; rw [key] at he; cases he
  | panic e' => rw [hp] at key; rw [key.1] at he; cases he
  | ok x =>
    obtain ⟨r, s'⟩ := x
    rw [hp] at key hnone
    obtain ⟨h1, h2, -, -, key⟩ := key
    split at key
    · rename_i hend
      rw [key] at he
      cases r with
      | none =>
        have := hnone _ rfl
        rw [hend] at this
        exact List.eq_nil_of_length_eq_zero this
      | some v => cases he
    · obtain ⟨rep, att, h, -⟩ := key; rw [h] at he; cases he

/-- The outcome is nil: neither a value nor an error. -/
def isNil (x : Out (Outcome V × St V H) × Trace) : Bool :=
  match x.1 with
  | .ok (.nil, _) => true
  | _ => false

/-- C35, counterexample: on empty input the grammar `E: E '-' N | N` fails, and `ParseString` returns
nil instead of a `ParseError`. -/
theorem C35_empty_input_nil : isNil (parseString Sample.ops Sample.minus {} [] 40 () []) = true := by
  decide +kernel

example : Sample.valueOf (parseString Sample.ops Sample.rep {} [] 40 () (asc "aabb")) =
    some (.arr [.arr [.str (asc "a"), .str (asc "a")], .arr [.str (asc "b"), .str (asc "b")]]) ∧
    Sample.errorOf (parseString Sample.ops Sample.rep {} [] 40 () (asc "aabbx")) = some 4 := by
  decide +kernel

/-! ## C36 -/

/-- C36: a reported error position lies between the end of the partial match and the furthest position
at which a rule was tried, which lies inside the text; it is the furthest position at which some rule
gave a result (the end of the partial match if there is none); line and column are those of that
position. Together with C26, which lists the possible panics, building the message never panics. -/
theorem C36_error_position (ops : Ops V H) (g : Grammar) (hg : g.Built) (tr : Trace)
    (opts : List ParseOption) (k : Nat) (h : H) (text : Bytes) (rep : Report) (s : St V H)
    (he : (parseString ops g tr opts k h text).1 = .ok (.error rep, s)) :
    ∃ att, s.pos ≤ rep.char ∧ rep.char ≤ att ∧ att ≤ text.length ∧ s.pos < text.length ∧
      rep.line = newlines (text.take rep.char) ∧
      rep.col = ((afterLastNewline (text.take rep.char)).length : Int) ∧
      (att = s.pos ∨ Attempted s g.numRules att) ∧ (∀ q, s.pos ≤ q → Attempted s g.numRules q → q ≤ att) ∧
      (rep.char = s.pos ∨ Succeeded s g.numRules rep.char) ∧
      (∀ q, s.pos ≤ q → Succeeded s g.numRules q → q ≤ rep.char) := by
  have key := parseString_cases ops g hg tr opts k h text
  extract_lets env at key
  cases hp : parse env k g.root (newState h 0) with
  | oof => rw [hp] at key; rw [key] at he; cases he
  | panic e' => rw [hp] at key; rw [key.1] at he; cases he
  | ok x =>
    obtain ⟨r, s'⟩ := x
    rw [hp] at key
    obtain ⟨h1, h2, -, -, key⟩ := key
    split at key
    · rw [key] at he; cases r <;> cases he
    · obtain ⟨rep', att, h, h3, h4, h5, h6, h7, h8⟩ := key
      rw [h] at he
      cases he
      exact ⟨att, h3, h4, h5, by omega, h6, h7, h8⟩

/-- C36: building the message never panics: if running the top rank returns, so does `ParseString`. -/
theorem C36_report_never_panics (ops : Ops V H) (g : Grammar) (hg : g.Built) (tr : Trace)
    (opts : List ParseOption) (k : Nat) (h : H) (text : Bytes) (x : Option V × Nat)
    (he : topResult ops g tr opts k h text = .ok x) :
    ∃ o s, (parseString ops g tr opts k h text).1 = .ok (o, s) := by
  have key := parseString_cases ops g hg tr opts k h text
  extract_lets env at key
  unfold topResult at he
  rw [show callEnv ops g tr opts text = env from rfl] at *
  cases hp : parse env k g.root (newState h 0) with
  | oof => rw [hp] at he; cases he
  | panic e' => rw [hp] at he; cases he
  | ok x =>
    obtain ⟨r, s'⟩ := x
    rw [hp] at key
    obtain ⟨h1, h2, -, -, key⟩ := key
    split at key
    · exact ⟨_, _, key⟩
    · obtain ⟨rep', att, h, -⟩ := key
      exact ⟨_, _, h⟩

/-- The error position after a partial match of 3 bytes. -/
example : (match (parseString Sample.ops Sample.minus {} [] 60 () (asc "1-2-x")).1 with
    | .ok (.error r, s) => some (r.char, s.pos)
    | _ => none) = some (3, 3) := by decide +kernel

/-! ## C37 -/

/-- A session: parses of one grammar, one after the other; its trace options are shared. The outcome of
every parse (panics are recovered by the caller) is collected. -/
def session (ops : Ops V H) (g : Grammar) (k : Nat) (h : H) :
    Trace → List (List ParseOption × Bytes) → List (Out (Outcome V × St V H)) × Trace
  | tr, [] => ([], tr)
  | tr, (o, text) :: rest =>
    let (r, tr') := parseString ops g tr o k h text
    let (rs, tr'') := session ops g k h tr' rest
    (r :: rs, tr'')

/-- C37: a parse that returns, or is not a `Debug{true}` one, restores the trace options of the
grammar. What is missing: a `Debug{true}` parse whose callback panics, see
`C37_trace_not_restored`. -/
theorem C37_trace_restored_partial (ops : Ops V H) (g : Grammar) (tr : Trace) (opts : List ParseOption)
    (k : Nat) (h : H) (text : Bytes)
    (hok : (∃ x, (parseString ops g tr opts k h text).1 = .ok x) ∨
      ParseOption.debug true ∉ opts) :
    (parseString ops g tr opts k h text).2 = tr := by
  unfold parseString grammarParse at *
  extract_lets old tr' env restored at *
  have htr : restored = tr := by
    show ({ (if (opts.foldl CtxOptions.apply {}).debug then { tr with stack := true } else tr) with
      stack := tr.stack } : Trace) = tr
    split <;> rfl
  have htr' : ParseOption.debug true ∉ opts → tr' = tr := by
    intro hn
    show (if (opts.foldl CtxOptions.apply {}).debug then { tr with stack := true } else tr) = tr
    rw [if_neg]
    intro hd
    rcases opts_debug opts {} hd with h | ⟨b, hb, rfl⟩
    · simp at h
    · exact hn hb
  rw [htr] at *
  split at hok
  · rcases hok with ⟨x, hok⟩ | hok
    · cases hok
    · exact htr' hok
  · rcases hok with ⟨x, hok⟩ | hok
    · cases hok
    · exact htr' hok
  · split
    · dsimp only
      split <;> rfl
    · split <;> rfl

/-- C37: in a session without `Debug{true}` every parse gives exactly what it would give as the first
parse of the grammar, whatever was parsed before and even if earlier parses panicked. -/
theorem C37_history_independent_partial (ops : Ops V H) (g : Grammar) (k : Nat) (h : H) (tr : Trace)
    (l : List (List ParseOption × Bytes)) (hl : ∀ x ∈ l, ParseOption.debug true ∉ x.1) :
    session ops g k h tr l = (l.map fun x => (parseString ops g tr x.1 k h x.2).1, tr) := by
  induction l with
  | nil => rfl
  | cons x l ih =>
    obtain ⟨o, text⟩ := x
    have h1 := C37_trace_restored_partial ops g tr o k h text (Or.inr (hl (o, text) (by simp)))
    simp only [session, h1, List.map_cons]
    rw [ih fun x hx => hl x (List.mem_cons_of_mem _ hx)]

/-- Callback 0 panics. -/
def panicCb : Nat → Ast → Nat → Unit → Except Panic (Option Ast × Unit) := fun _ _ _ _ => .error (.user 0)

/-- `S: 'a'` with a panicking callback. -/
def panicGrammar : Grammar where
  rules := [.str { name := "S", parent := some false, cb := some 0 } (asc "a")]
  lookup n := if n = "S" then some 0 else none
  root := .choice {} [.rule 0]

/-- C37, counterexample: after a `Debug{true}` parse whose callback panicked the grammar keeps tracing. -/
theorem C37_trace_not_restored :
    (parseString (treeOps panicCb) panicGrammar {} [.debug true] 20 () (asc "a")).1 matches .panic (.user 0) ∧
    (parseString (treeOps panicCb) panicGrammar {} [.debug true] 20 () (asc "a")).2.stack = true := by
  decide +kernel

example : ((session Sample.ops Sample.minus 60 () {} [([], asc "1-"), ([.skipLog true], asc "1-2")]).1.map
    fun o => Sample.valueOf (o, ({} : Trace))) = [none, some (.arr [.str (asc "1"), .str (asc "2")])] := by
  decide +kernel

/-! ## C50 -/

/-- C50: `SkipCache` given to a parse call has no effect at all (it is only looked at on rules). -/
theorem C50_skipCache_ignored (ops : Ops V H) (g : Grammar) (tr : Trace) (o1 o2 : List ParseOption) (b : Bool)
    (k : Nat) (h : H) (text : Bytes) :
    parseString ops g tr (o1 ++ .skipCache b :: o2) k h text = parseString ops g tr (o1 ++ o2) k h text := by
  have : ∀ (l : List ParseOption) (c c' : CtxOptions), c.debug = c'.debug → c.skipLog = c'.skipLog →
      (l.foldl CtxOptions.apply c).debug = (l.foldl CtxOptions.apply c').debug ∧
      (l.foldl CtxOptions.apply c).skipLog = (l.foldl CtxOptions.apply c').skipLog := by
    intro l
    induction l with
    | nil => intro c c' h1 h2; exact ⟨h1, h2⟩
    | cons x l ih => intro c c' h1 h2; cases x <;> exact ih _ _ (by simp [CtxOptions.apply, h1, h2]) (by simp [CtxOptions.apply, h1, h2])
  obtain ⟨h1, h2⟩ := this o2 ((o1.foldl CtxOptions.apply {}).apply (.skipCache b)) (o1.foldl CtxOptions.apply {})
    rfl rfl
  unfold parseString grammarParse
  simp only [List.foldl_append, List.foldl_cons, h1, h2]

end Joeson
