import Verif.Props.TraceLog
import Verif.Props.TokenReport
/-!
# C89: what tracing prints, for `ParseTokens`
-/

namespace Joeson
open Sample Spec
variable {V H : Type}

/-- C89: a `ParseString` that returns prints, and the value it returns is that of the parse that printed. -/
theorem C89_value (ops : Ops V H) (text : V → H → Bytes) (g : Grammar) (tr : Trace) (opts : List ParseOption) (k : Nat) (h : H) (code : Bytes)
    {oc : Outcome V} {s : St V H} (hp : (parseString ops g tr opts k h code).1 = .ok (oc, s)) :
    ∃ r out, traceOf ops text g tr opts k h code = .ok (r, out) ∧ ∀ v, oc = .value v → r = some v :=
  traceStream_value text hp

/-- `1-2` gives a value and prints 16 lines. -/
example : Sample.valueOf (parseString ops minus { stack := true } [] 60 () (asc "1-2")) = some (.arr [.str (asc "1"), .str (asc "2")]) ∧
    (printedLines (traceOf ops shownAst minus { stack := true } [] 60 () (asc "1-2"))).map (·.length) = some 16 := by
  decide +kernel

/-- C89 for `ParseTokens`: a call that returns prints, and the value it returns is that of the parse that printed. -/
theorem C89_tokens_value (ops : Ops V H) (text : V → H → Bytes) (g : Grammar) (tr : Trace) (opts : List ParseOption) (k : Nat) (h : H) (c : TokenStream)
    {oc : Outcome V} {s : St V H} (hp : (parseTokens ops g tr opts k h c).1 = .ok (oc, s)) :
    ∃ r out, traceTokens ops text g tr opts k h c = .ok (r, out) ∧ ∀ v, oc = .value v → r = some v :=
  traceStream_value text hp

/-- `1 - 2` as tokens gives a value and prints 16 lines. -/
example : Sample.valueOf (parseTokens ops minus { stack := true } [] 60 () (TokenStream.new (asc "1 - 2") oneMinusTwo)) = some (.arr [.str (asc "1"), .str (asc "2")]) ∧
    (printedLines (traceTokens ops shownAst minus { stack := true } [] 60 () (TokenStream.new (asc "1 - 2") oneMinusTwo))).map (·.length) = some 16 := by
  decide +kernel

/-- C89 for `ParseTokens`: for a grammar, tokens and what the callbacks do there is one complete trace, of which the options
show a part. `FilterLine` is compared with the line of the original text at which the cursor is shown. -/
theorem C89_tokens (ops : Ops V H) (text : V → H → Bytes) (g : Grammar) (k : Nat) (h : H) (code : Bytes) (tokens : List Token) (hl : Contiguous tokens)
    (start : Nat) (hstart : start ≤ (joined tokens).length) :
    ∃ (events : List LogLine) (lineOf : Nat → Int), WholeTrace events ∧
      (∀ w o, ShownPlace tokens w o → o ≤ code.length → lineOf w = lineAt code o) ∧
      ∀ (f : Nat → Bool) (tr : Trace) (opts : List ParseOption) (r : Option V) (out : List LogLine),
        traceTokens ops text (g.setDebug f) tr opts k h ((TokenStream.new code tokens).withPos start) = .ok (r, out) →
          out = events.filter (lineShownBy lineOf (g.setDebug f) tr opts) := by
  have hw : (TokenStream.new code tokens).work = joined tokens := List.flatMap_def ..
  obtain ⟨ev, h1, h2⟩ := traceStream_events ops text (Stream.ofTokens_valid ((TokenStream.new code tokens).withPos start)) g k h
    (start := start) (by show start ≤ (TokenStream.new code tokens).work.length; rw [hw]; exact hstart)
  exact ⟨ev, _, h1, fun w o hwo ho => (shown_at hl hwo ho w).1, fun f tr opts r out ho => h2 f tr opts r out ho⟩

/-- `1`, a newline, `- 2`: the lines shown with `FilterLine` 0 are those whose cursor is on the first token, and what follows
is on line 1. -/
example : printedLines (traceTokens ops shownAst (minus.setDebug fun i => i == 1) {} [] 60 () (TokenStream.new (asc "1\n- 2") [⟨asc "1", 0, 0⟩, ⟨asc "-", 2, 1⟩, ⟨asc "2", 4, 2⟩])) = some
      [⟨1, 0, 2, .enter 1⟩, ⟨1, 1, 2, .set (some (asc "1"))⟩, ⟨1, 2, 2, .enter 3⟩, ⟨1, 3, 2, .set (some (asc "2"))⟩,
        ⟨1, 0, 2, .enter 5⟩, ⟨1, 0, 2, .hit (some (asc "1"))⟩] ∧
    printedLines (traceTokens ops shownAst (minus.setDebug fun i => i == 1) { filterLine := 0 } [] 60 () (TokenStream.new (asc "1\n- 2") [⟨asc "1", 0, 0⟩, ⟨asc "-", 2, 1⟩, ⟨asc "2", 4, 2⟩])) = some
      [⟨1, 0, 2, .enter 1⟩, ⟨1, 0, 2, .enter 5⟩, ⟨1, 0, 2, .hit (some (asc "1"))⟩] ∧
    printedLines (traceTokens ops shownAst (minus.setDebug fun i => i == 1) { filterLine := 1 } [] 60 () (TokenStream.new (asc "1\n- 2") [⟨asc "1", 0, 0⟩, ⟨asc "-", 2, 1⟩, ⟨asc "2", 4, 2⟩])) = some
      [⟨1, 1, 2, .set (some (asc "1"))⟩, ⟨1, 2, 2, .enter 3⟩, ⟨1, 3, 2, .set (some (asc "2"))⟩] := by
  decide +kernel

/-- C89 for `ParseTokens`: with every rule shown the output is a complete trace, with some shown it is nested, and with
`SkipLog` there is none. -/
theorem C89_tokens_nested (ops : Ops V H) (text : V → H → Bytes) (g : Grammar) (tr : Trace) (opts : List ParseOption) (k : Nat) (h : H) (c : TokenStream)
    (hc : c.workOffset ≤ c.work.length) {r : Option V} {out : List LogLine} (ho : traceTokens ops text g tr opts k h c = .ok (r, out)) :
    (tr.filterLine = -1 → NestedTrace out) ∧
    (tr.filterLine = -1 → tr.stack = true ∨ callDebug opts = true → callSkipLog opts = false → WholeTrace out) ∧
    (callSkipLog opts = true → out = []) := by
  obtain ⟨ev, h1, h2⟩ := traceStream_events ops text (Stream.ofTokens_valid c) g k h (start := c.workOffset) hc
  rw [← setDebug_self g] at ho
  have key := h2 _ tr opts r out ho
  rw [setDebug_self] at key
  refine ⟨fun hf => ?_, fun hf hall hs => ?_, fun hs => ?_⟩
  · have := h1.rules fun id => ruleShown g tr opts id && !callSkipLog opts
    have e : lineShownBy (Stream.ofTokens c).line g tr opts = fun l => ruleShown g tr opts l.rule && !callSkipLog opts := by
      funext l
      unfold lineShownBy
      rw [hf]
      simp
    rw [key, e]
    exact this
  · rw [key, List.filter_eq_self.2]
    · exact h1
    · intro l _
      unfold lineShownBy ruleShown
      rw [hs, hf]
      rcases hall with h | h <;> simp [h]
  · rw [key, List.filter_eq_nil_iff]
    intro l _
    unfold lineShownBy
    simp [hs]

/-- The trace of `1 - 2` is complete, that of its rule 1 is nested. -/
example : ((printedLines (traceTokens ops shownAst minus { stack := true } [] 60 () (TokenStream.new (asc "1 - 2") oneMinusTwo))).map fun l => decide (WholeTrace l)) = some true ∧
    ((printedLines (traceTokens ops shownAst (minus.setDebug fun i => i == 1) {} [] 60 () (TokenStream.new (asc "1 - 2") oneMinusTwo))).map fun l =>
      (decide (NestedTrace l), decide (WholeTrace l))) = some (true, false) ∧
    printedLines (traceTokens ops shownAst minus { stack := true } [.skipLog true] 60 () (TokenStream.new (asc "1 - 2") oneMinusTwo)) = some [] := by
  decide +kernel

end Joeson
