import Verif.Proofs.TraceLog6
import Verif.Props.Tracing
/-!
# C89: what tracing prints
-/

namespace Joeson
open Sample
variable {V H : Type}

/-- How the values of the examples are shown. -/
def Sample.shownAst : Ast → Unit → Bytes := fun v _ =>
  match v with
  | .str b => b
  | .arr l => 0x5B :: UInt8.ofNat (0x30 + l.length) :: [0x5D]
  | _ => []

/-- What is printed. -/
def Sample.printedLines (x : Out (Option Ast × List LogLine)) : Option (List LogLine) :=
  match x with
  | .ok (_, l) => some l
  | _ => none

/-- `S` is a text of two lines. -/
def Sample.lineBreak : Grammar where
  rules := [.str (ri "S") [0x61, 0x0A, 0x62]]
  lookup := lookupIn [("S", 0)]
  root := .choice {} [.rule 0]

theorem opts_last (opts : List ParseOption) : (opts.foldl CtxOptions.apply {}).debug = callDebug opts ∧
    (opts.foldl CtxOptions.apply {}).skipLog = callSkipLog opts := by
  unfold callDebug callSkipLog
  rw [← List.foldr_reverse]
  induction opts.reverse with
  | nil => exact ⟨rfl, rfl⟩
  | cons x l ih =>
    rw [List.foldr_cons]
    cases x with
    | debug b => exact ⟨rfl, ih.2⟩
    | skipLog b => exact ⟨ih.1, rfl⟩
    | skipCache b => exact ih

theorem lets_shown (ops : Ops V H) (st : Stream) (g : Grammar) (tr : Trace) (opts : List ParseOption) (l : LogLine) :
    (parseEnv ops st g tr (opts.foldl CtxOptions.apply {})).lets l = lineShownBy st.line g tr opts l := by
  unfold Env.lets lineShownBy ruleShown parseEnv
  rw [(opts_last opts).1, (opts_last opts).2]
  dsimp only
  have hf : (if callDebug opts = true then { tr with stack := true } else tr).filterLine = tr.filterLine := by split <;> rfl
  have hs : (if callDebug opts = true then { tr with stack := true } else tr).stack = (tr.stack || callDebug opts) := by
    cases callDebug opts <;> simp
  rw [hf, hs]
  rw [Bool.eq_iff_iff]
  simp only [Bool.and_eq_true, Bool.or_eq_true, decide_eq_true_eq, beq_iff_eq]
  tauto

theorem traceStream_eq (ops : Ops V H) (text : V → H → Bytes) (st : Stream) (g : Grammar) (tr : Trace) (o : CtxOptions) (k : Nat) (h : H) (start : Nat) :
    traceStream ops text st g tr o k h start =
      match parseT (parseEnv ops st g tr o).logged (printSay (parseEnv ops st g tr o).logged) (fun v h => text v h.1) k g.root (newState (h, []) start) with
      | .ok (r, s) => .ok (r, s.h.2)
      | .panic e => .panic e
      | .oof => .oof := rfl

theorem traceStream_same (ops : Ops V H) (text : V → H → Bytes) (st : Stream) (g : Grammar) (tr : Trace) (o : CtxOptions) (k : Nat) (h : H) (start : Nat) :
    match parse (parseEnv ops st g tr o) k g.root (newState h start), traceStream ops text st g tr o k h start with
    | .ok (r, _), .ok (r', _) => r' = r
    | .panic e, .panic e' => e' = e
    | .oof, .oof => True
    | _, _ => False := by
  have key := parseT_same (parseEnv ops st g tr o) text k g.root h [] start
  rw [traceStream_eq]
  revert key
  generalize parse (parseEnv ops st g tr o) k g.root (newState h start) = x
  generalize parseT _ _ _ _ _ _ = y
  intro key
  cases x <;> cases y <;> first | exact key.elim | skip
  · exact key.1
  · exact key.symm
  · trivial

theorem traceStream_value {ops : Ops V H} (text : V → H → Bytes) {st : Stream} {report : Nat → Nat → Nat → Except Panic Report} {g : Grammar} {tr : Trace} {o : CtxOptions} {k : Nat} {h : H} {start : Nat}
    {oc : Outcome V} {s : St V H} (hp : (grammarParse ops st report g tr o k h start).1 = .ok (oc, s)) :
    ∃ r out, traceStream ops text st g tr o k h start = .ok (r, out) ∧ ∀ v, oc = .value v → r = some v := by
  have key := traceStream_same ops text st g tr o k h start
  have hp' : (match parse (parseEnv ops st g tr o) k g.root (newState h start) with
    | .panic e => (Out.panic e, (parseEnv ops st g tr o).trace)
    | .oof => (.oof, (parseEnv ops st g tr o).trace)
    | .ok (r, s) =>
      if s.pos ≠ st.len then
        let (att, suc) := scanRows s g.numRules s.pos (st.len + 1 - s.pos) (s.pos, s.pos)
        match report s.pos suc att with
        | .error e => (.panic e, { (parseEnv ops st g tr o).trace with stack := tr.stack })
        | .ok rep => (.ok (Outcome.error rep, s), { (parseEnv ops st g tr o).trace with stack := tr.stack })
      else match r with
        | none => (.ok (Outcome.nil, s), { (parseEnv ops st g tr o).trace with stack := tr.stack })
        | some v => (.ok (Outcome.value v, s), { (parseEnv ops st g tr o).trace with stack := tr.stack })).1 = .ok (oc, s) := hp
  cases hx : parse (parseEnv ops st g tr o) k g.root (newState h start) with
  | panic e => rw [hx] at hp'; cases hp'
  | oof => rw [hx] at hp'; cases hp'
  | ok x =>
    obtain ⟨r, t⟩ := x
    rw [hx] at hp' key
    cases hy : traceStream ops text st g tr o k h start with
    | panic e => rw [hy] at key; exact key.elim
    | oof => rw [hy] at key; exact key.elim
    | ok y =>
      obtain ⟨r', out⟩ := y
      rw [hy] at key
      refine ⟨r', out, rfl, ?_⟩
      rintro v rfl
      have key : r' = r := key
      rw [key]
      dsimp only at hp'
      split at hp'
      · revert hp'
        generalize scanRows t g.numRules t.pos (st.len + 1 - t.pos) (t.pos, t.pos) = q
        obtain ⟨att, suc⟩ := q
        dsimp only
        cases report t.pos suc att with
        | error e => intro h; cases h
        | ok rep => intro h; cases h
      · cases r with
        | none => cases hp'
        | some w => cases hp'; rfl

/-- C89: printing changes nothing else. The parse that prints gives what the parse of the other properties gives, and panics
when it does. -/
theorem C89_same (ops : Ops V H) (text : V → H → Bytes) (g : Grammar) (tr : Trace) (opts : List ParseOption) (k : Nat) (h : H) (code : Bytes) :
    match parse (parseEnv ops (Stream.ofText code) g tr (opts.foldl CtxOptions.apply {})) k g.root (newState h 0), traceOf ops text g tr opts k h code with
    | .ok (r, _), .ok (r', _) => r' = r
    | .panic e, .panic e' => e' = e
    | .oof, .oof => True
    | _, _ => False :=
  traceStream_same ops text _ g tr _ k h 0

/-- A parse that prints 16 lines and gives a value, and one that panics because it prints. -/
example : (match traceOf ops shownAst minus { stack := true } [] 60 () (asc "1-2") with
      | .ok (r, l) => r == some (.arr [.str (asc "1"), .str (asc "2")]) && l.length == 16
      | _ => false) = true ∧
    (match traceOf ops shownAst Sample.ff { stack := true } [] 60 () [0xFF, 0x62] with | .panic e => e == .runeError | _ => false) = true := by
  decide +kernel

theorem traceStream_events (ops : Ops V H) (text : V → H → Bytes) {st : Stream} (hst : st.Valid) (g : Grammar) (k : Nat) (h : H) {start : Nat} (hstart : start ≤ st.len) :
    ∃ events, WholeTrace events ∧ ∀ (f : Nat → Bool) (tr : Trace) (opts : List ParseOption) (r : Option V) (out : List LogLine),
      traceStream ops text st (g.setDebug f) tr (opts.foldl CtxOptions.apply {}) k h start = .ok (r, out) →
        out = events.filter (lineShownBy st.line (g.setDebug f) tr opts) := by
  let env0 : Env V H := parseEnv ops st (g.setDebug fun _ => false) {} {}
  have key : ∀ (f : Nat → Bool) (tr : Trace) (opts : List ParseOption) (r : Option V) (out : List LogLine),
      traceStream ops text st (g.setDebug f) tr (opts.foldl CtxOptions.apply {}) k h start = .ok (r, out) →
      ∃ t : LSt V H, parseT env0.logged (recordSay env0.logged) (fun v h => text v h.1) k g.root (newState (h, []) start) = .ok (r, t) ∧
        out = t.h.2.filter (lineShownBy st.line (g.setDebug f) tr opts) := by
    intro f tr opts r out ho
    rw [traceStream_eq] at ho
    generalize he : parseEnv ops st (g.setDebug f) tr (opts.foldl CtxOptions.apply {}) = env at ho
    cases hp : parseT env.logged (printSay env.logged) (fun v h => text v h.1) k (g.setDebug f).root (newState (h, []) start) with
    | oof => rw [hp] at ho; cases ho
    | panic e => rw [hp] at ho; cases ho
    | ok x =>
      obtain ⟨r', t⟩ := x
      rw [hp] at ho
      cases ho
      obtain ⟨t', h1, h2⟩ := parseT_filter env text k _ (newState_keep env.ops env.lets h start) hp
      have T : Traced env env0 f := by
        rw [← he]
        exact parseEnv_traced ops st g f tr _
      have hst' : env.logged.st.Valid := by
        rw [← he]
        exact hst
      have sim := parseT_tsim (l0 := []) (traced_logged T) hst' (fun v (h : H × List LogLine) => text v h.1) k g.root [] (newState (h, []) start) ⟨(by rw [← he]; exact hstart), fun _ => rfl⟩
      have h1 : parseT env.logged (recordSay env.logged) (fun v h => text v h.1) k g.root (newState (h, []) start) = .ok (r, t') := h1
      have hi : t.h = (t'.h.1, t'.h.2.filter env.lets) := h2.inv
      rcases sim with ⟨e, h3, _⟩ | ⟨h3, _⟩ | ⟨e, h3, _⟩ | ⟨r2, s2, h3, h4, _⟩
      · rw [h1] at h3; cases h3
      · rw [h1] at h3; cases h3
      · rw [h1] at h3; cases h3
      · rw [h1] at h3
        cases h3
        refine ⟨_, h4, ?_⟩
        rw [hi]
        show t'.h.2.filter env.lets = t'.h.2.filter _
        congr 1
        funext l
        rw [← he]
        exact lets_shown ops st _ tr opts l
  cases hm : parseT env0.logged (recordSay env0.logged) (fun v h => text v h.1) k g.root (newState (h, []) start) with
  | oof =>
    refine ⟨[], rfl, fun f tr opts r out ho => ?_⟩
    obtain ⟨t, h1, _⟩ := key f tr opts r out ho
    rw [hm] at h1
    cases h1
  | panic e =>
    refine ⟨[], rfl, fun f tr opts r out ho => ?_⟩
    obtain ⟨t, h1, _⟩ := key f tr opts r out ho
    rw [hm] at h1
    cases h1
  | ok x =>
    refine ⟨x.2.h.2, ?_, fun f tr opts r out ho => ?_⟩
    · have hn := parseT_noted env0.logged (logged_silent ops) text k g.root (newState (h, []) start)
      rw [hm] at hn
      obtain ⟨_, l, h1, h2⟩ := hn
      have h1 : x.2.h.2 = [] ++ l := h1
      rw [h1]
      exact h2 [] rfl
    · obtain ⟨t, h1, h2⟩ := key f tr opts r out ho
      rw [hm] at h1
      cases h1
      exact h2

theorem lineShown_text (g : Grammar) (tr : Trace) (opts : List ParseOption) (code : Bytes) :
    lineShownBy (Stream.ofText code).line g tr opts = lineShown g tr opts code := by
  funext l
  unfold lineShown lineShownBy
  rw [ofText_line]

/-- C89: for a grammar, a text and what the callbacks do there is one complete trace. Whatever is traced (the options of
the grammar and of the call, and which rules have `Debug`), a parse that returns prints the lines of it that are shown. -/
theorem C89_one_trace (ops : Ops V H) (text : V → H → Bytes) (g : Grammar) (k : Nat) (h : H) (code : Bytes) :
    ∃ events, WholeTrace events ∧ ∀ (f : Nat → Bool) (tr : Trace) (opts : List ParseOption) (r : Option V) (out : List LogLine),
      traceOf ops text (g.setDebug f) tr opts k h code = .ok (r, out) → out = events.filter (lineShown (g.setDebug f) tr opts code) := by
  obtain ⟨ev, h1, h2⟩ := traceStream_events ops text (Stream.ofText_valid code) g k h (Nat.zero_le _)
  refine ⟨ev, h1, fun f tr opts r out ho => ?_⟩
  rw [← lineShown_text]
  exact h2 f tr opts r out ho

/-- `1-2` with everything shown, with rule 1 only, and with everything but on line 1. -/
example : printedLines (traceOf ops shownAst (minus.setDebug fun _ => false) {} [.debug true] 60 () (asc "1-2")) = some
      [⟨0, 0, 1, .enter 0⟩, ⟨0, 0, 2, .enter 1⟩, ⟨0, 0, 2, .base none⟩, ⟨1, 0, 2, .enter 1⟩, ⟨1, 1, 2, .set (some (asc "1"))⟩,
        ⟨0, 1, 1, .iteration⟩, ⟨0, 0, 2, .enter 3⟩, ⟨0, 0, 2, .base (some (asc "1"))⟩, ⟨1, 2, 2, .enter 3⟩, ⟨1, 3, 2, .set (some (asc "2"))⟩,
        ⟨0, 3, 1, .iteration⟩, ⟨0, 0, 2, .enter 5⟩, ⟨0, 0, 2, .base (some (asc "[2]"))⟩, ⟨1, 0, 2, .enter 5⟩, ⟨1, 0, 2, .hit (some (asc "1"))⟩,
        ⟨0, 3, 1, .done (some (asc "[2]"))⟩] ∧
    printedLines (traceOf ops shownAst (minus.setDebug fun i => i == 1) {} [] 60 () (asc "1-2")) = some
      [⟨1, 0, 2, .enter 1⟩, ⟨1, 1, 2, .set (some (asc "1"))⟩, ⟨1, 2, 2, .enter 3⟩, ⟨1, 3, 2, .set (some (asc "2"))⟩,
        ⟨1, 0, 2, .enter 5⟩, ⟨1, 0, 2, .hit (some (asc "1"))⟩] ∧
    printedLines (traceOf ops shownAst (minus.setDebug fun _ => false) { stack := true, filterLine := 1 } [] 60 () (asc "1-2")) = some [] := by
  decide +kernel

/-- C89: with every rule shown the output is a complete trace: every attempt that begins ends, the ends come in the opposite
order of the beginnings, and the depth is the number of attempts that are open. -/
theorem C89_whole (ops : Ops V H) (text : V → H → Bytes) (g : Grammar) (tr : Trace) (opts : List ParseOption) (k : Nat) (h : H) (code : Bytes)
    (hall : tr.stack = true ∨ callDebug opts = true) (hs : callSkipLog opts = false) (hf : tr.filterLine = -1) {r : Option V} {out : List LogLine}
    (ho : traceOf ops text g tr opts k h code = .ok (r, out)) : WholeTrace out := by
  obtain ⟨ev, h1, h2⟩ := C89_one_trace ops text g k h code
  rw [← setDebug_self g] at ho
  rw [h2 _ tr opts r out ho, List.filter_eq_self.2]
  · exact h1
  · intro l _
    unfold lineShown lineShownBy ruleShown
    rw [hs, hf]
    rcases hall with h | h <;> simp [h]

/-- The hypotheses are met. -/
example : callDebug [.debug false, .debug true] = true ∧ callSkipLog [.debug false, .debug true] = false ∧ ({} : Trace).filterLine = -1 ∧
    ((printedLines (traceOf ops shownAst minus {} [.debug false, .debug true] 60 () (asc "1-2-1"))).map fun l => (l.length, decide (WholeTrace l))) = some (21, true) := by
  decide +kernel

/-- Traces that are not complete: an attempt that does not end, an end too far to the right, and ends in the wrong order. -/
example : ¬ WholeTrace [⟨0, 0, 1, .enter 0⟩] ∧ ¬ WholeTrace [⟨0, 0, 1, .enter 0⟩, ⟨0, 1, 2, .set none⟩] ∧
    ¬ WholeTrace [⟨0, 0, 1, .enter 0⟩, ⟨1, 0, 2, .enter 0⟩, ⟨0, 1, 1, .set none⟩, ⟨1, 1, 2, .set none⟩] := by
  decide +kernel

/-- C89: with some rules shown the output is nested: every attempt that begins ends, and what is inside is further to the
right. -/
theorem C89_nested (ops : Ops V H) (text : V → H → Bytes) (g : Grammar) (tr : Trace) (opts : List ParseOption) (k : Nat) (h : H) (code : Bytes)
    (hf : tr.filterLine = -1) {r : Option V} {out : List LogLine} (ho : traceOf ops text g tr opts k h code = .ok (r, out)) : NestedTrace out := by
  obtain ⟨ev, h1, h2⟩ := C89_one_trace ops text g k h code
  rw [← setDebug_self g] at ho
  rw [h2 _ tr opts r out ho]
  have := h1.rules fun id => ruleShown g tr opts id && !callSkipLog opts
  rw [setDebug_self]
  have e : lineShown g tr opts code = fun l => ruleShown g tr opts l.rule && !callSkipLog opts := by
    funext l
    unfold lineShown lineShownBy
    rw [hf]
    simp
  rw [e]
  exact this

/-- Rule 1 only: nested, not complete. -/
example : ((printedLines (traceOf ops shownAst (minus.setDebug fun i => i == 1) {} [] 60 () (asc "1-2"))).map fun l =>
    (decide (NestedTrace l), decide (WholeTrace l))) = some (true, false) := by
  decide +kernel

/-- C89, counterexample with `FilterLine`: a rule that begins on line 0 and ends on line 1 has its opening line without the
closing line, or the closing line without the opening line. -/
theorem C89_filterLine_cuts :
    printedLines (traceOf ops shownAst lineBreak { stack := true, filterLine := 0 } [] 60 () [0x61, 0x0A, 0x62]) = some [⟨0, 0, 1, .enter 0⟩] ∧
    printedLines (traceOf ops shownAst lineBreak { stack := true, filterLine := 1 } [] 60 () [0x61, 0x0A, 0x62]) = some [⟨0, 3, 1, .set (some [0x61, 0x0A, 0x62])⟩] ∧
    ¬ NestedTrace [⟨0, 0, 1, .enter 0⟩] ∧ ¬ NestedTrace [⟨0, 3, 1, .set (some [0x61, 0x0A, 0x62])⟩] := by
  decide +kernel

/-- C89: nothing is printed with `SkipLog`, or when no rule is shown. -/
theorem C89_nothing (ops : Ops V H) (text : V → H → Bytes) (g : Grammar) (tr : Trace) (opts : List ParseOption) (k : Nat) (h : H) (code : Bytes)
    (hn : callSkipLog opts = true ∨ ∀ id, ruleShown g tr opts id = false) {r : Option V} {out : List LogLine}
    (ho : traceOf ops text g tr opts k h code = .ok (r, out)) : out = [] := by
  obtain ⟨ev, h1, h2⟩ := C89_one_trace ops text g k h code
  rw [← setDebug_self g] at ho
  rw [h2 _ tr opts r out ho, setDebug_self, List.filter_eq_nil_iff]
  intro l _
  unfold lineShown lineShownBy
  rcases hn with h | h
  · simp [h]
  · simp [h l.rule]

/-- `SkipLog` with everything traced, and no tracing. -/
example : printedLines (traceOf ops shownAst minus { stack := true } [.skipLog true] 60 () (asc "1-2")) = some [] ∧
    printedLines (traceOf ops shownAst minus {} [] 60 () (asc "1-2")) = some [] := by
  decide +kernel

/-- C89: an attempt at a rule, in any state of a parse with every rule shown. Its lines begin with the opening line, where it
began and at the depth of the new attempt. They end with a closing line of the same rule and depth that shows the value it
gave. When it was answered from the memo table there is nothing between, and the cursor is still where it was. -/
theorem C89_attempt (env : Env V H) (text : V → H → Bytes) (hall : env.trace.stack = true) (hs : env.skipLog = false) (hf : env.trace.filterLine = -1)
    (k id : Nat) (s : St V (H × List LogLine)) {r : Option V} {t : St V (H × List LogLine)}
    (ht : parseT env.logged (printSay env.logged) (fun v h => text v h.1) k (.rule id) s = .ok (r, t)) :
    ∃ (inner : List LogLine) (m : Msg) (q : Nat),
      t.h.2 = s.h.2 ++ (⟨id, s.pos, s.stack.length + 1, .enter s.counter⟩ :: (inner ++ [⟨id, q, s.stack.length + 1, m⟩])) ∧
      m.closes = true ∧ (m.atStart = true → q = s.pos ∧ inner = []) ∧ m.shows = r.map (fun v => text v t.h.1) := by
  have hlets : ∀ l, env.lets l = true := by
    intro l
    unfold Env.lets
    rw [hall, hs, hf]
    simp
  have hfil : ∀ l : List LogLine, l.filter env.lets = l := fun l => List.filter_eq_self.2 fun x _ => hlets x
  have hsr : (keepSim env.ops env.lets).SR () s s :=
    ⟨rfl, rfl, rfl, rfl, rfl, rfl, rfl, by show s.h = (s.h.1, s.h.2.filter env.lets); rw [hfil],
      fun a => ⟨rfl, rfl, rfl, rfl, rfl, by cases (s.heap a).result with | none => exact .none | some v => exact .some rfl⟩⟩
  obtain ⟨t', h1, h2⟩ := parseT_filter env text k _ hsr ht
  have hi : t.h = (t'.h.1, t'.h.2.filter env.lets) := h2.inv
  rw [hfil] at hi
  have hi : t.h = t'.h := hi
  have key := parseT_rule_attempt env.logged (logged_silent env.ops) text k id s
  rw [h1] at key
  obtain ⟨inner, m, q, k1, k2, k3, k4⟩ := key
  rw [hi]
  exact ⟨inner, m, q, k1, k2, k3, k4⟩

/-- Rule 0 (`E`) from the beginning, and what its lines show first and last. -/
example : (match parseT (parseEnv ops (Stream.ofText (asc "1-2")) minus { stack := true } {}).logged
        (printSay (parseEnv ops (Stream.ofText (asc "1-2")) minus { stack := true } {}).logged) (fun v h => shownAst v h.1) 60 (.rule 0) (newState ((), []) 0) with
      | .ok (r, s) => (r, s.h.2.head?, s.h.2.getLast?)
      | _ => (none, none, none)) =
    (some (.arr [.str (asc "1"), .str (asc "2")]), some ⟨0, 0, 1, .enter 0⟩, some ⟨0, 3, 1, .done (some (asc "[2]"))⟩) := by
  decide +kernel

end Joeson
