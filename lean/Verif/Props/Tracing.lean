import Verif.Proofs.Tracing
import Verif.Props.Parse
/-!
# C39 and C50: tracing and the options of a parse call
-/

namespace Joeson
open Spec
variable {V H : Type}

/-- Does anything print? `Stack`, `Debug{true}` given to the call, or rule level `Debug`. -/
def Prints (g : Grammar) (tr : Trace) (opts : List ParseOption) : Prop :=
  (tr.stack = true ∨ ParseOption.debug true ∈ opts) ∨ ∃ n ∈ g.rules, n.info.debug = true

/-! ## C39 -/

/-- C39: whatever the trace options, the options of the call and the rules with `Debug` (`f` tells which),
the outcome, the values made and the callbacks that run are those of a parse without any tracing, unless
tracing itself panics. What is missing: tracing can panic, on text that is not ASCII, with a `SkipCache`
rule, or with `Loop` and `FilterLine`; see the three counterexamples below. -/
theorem C39_tracing_partial (ops : Ops V H) (g : Grammar) (f : Nat → Bool) (tr : Trace) (opts : List ParseOption)
    (k : Nat) (h : H) (text : Bytes) :
    (parseString ops (g.setDebug f) tr opts k h text).1.seen =
      (parseString ops (g.setDebug fun _ => false) {} [] k h text).1.seen ∨
    ∃ e, (parseString ops (g.setDebug f) tr opts k h text).1 = .panic e ∧
      ((Prints (g.setDebug f) tr opts ∧
        ((e = .runeError ∧ ∃ b ∈ text, 0x80 ≤ b) ∨
          (e = .nilDeref ∧ ∃ n ∈ g.rules, n.info.skipCache = true))) ∨
        (tr.loop = true ∧ 0 ≤ tr.filterLine ∧ e = .loopStackEmpty)) := by
  rcases grammarParse_tsim (ops := ops) (g := g) (tr := tr) (o := opts.foldl CtxOptions.apply {})
    (Stream.ofText_valid text) (runeReport text) f k h (Nat.zero_le _) with hx | ⟨e, he, ht⟩
  · exact Or.inl hx
  · refine Or.inr ⟨e, he, ?_⟩
    have hdbg : (parseEnv ops (Stream.ofText text) (g.setDebug f) tr (opts.foldl CtxOptions.apply {})).trace.stack = true →
        tr.stack = true ∨ ParseOption.debug true ∈ opts := by
      intro hs
      unfold parseEnv at hs
      dsimp only at hs
      split at hs
      · rename_i ho
        rcases opts_debug opts {} ho with h | ⟨b, hb, rfl⟩
        · cases h
        · exact Or.inr hb
      · exact Or.inl hs
    rcases ht with ⟨h1, h2⟩ | ⟨h1, h2, h3⟩
    · refine Or.inl ⟨h1.imp_left hdbg, ?_⟩
      rcases h2 with ⟨_, p, hp, hr⟩ | ⟨⟨n, hn, hs⟩, rfl⟩
      · left
        refine ⟨renderRune_error text hp e hr, ?_⟩
        by_cases ha : ∀ b ∈ text, b < 0x80
        · exact absurd hr (renderRune_ascii text ha hp e)
        · simp only [not_forall] at ha
          obtain ⟨b, hb, hb'⟩ := ha
          exact ⟨b, hb, UInt8.not_lt.mp hb'⟩
      · right
        refine ⟨rfl, ?_⟩
        have hn : n ∈ (g.setDebug f).rules := hn
        obtain ⟨i, hi, he⟩ := List.getElem_of_mem hn
        have hi' : (g.setDebug f).rules[i]? = some n := by rw [List.getElem?_eq_getElem hi, he]
        rw [Grammar.setDebug_rules] at hi'
        cases hb : g.rules[i]? with
        | none => rw [hb] at hi'; cases hi'
        | some b =>
          rw [hb] at hi'
          cases hi'
          refine ⟨b, List.mem_of_getElem? hb, ?_⟩
          cases b with
          | rule j => exact hs
          | _ => exact hs
    · refine Or.inr ?_
      unfold parseEnv at h1 h2
      dsimp only at h1 h2
      split at h1
      · exact ⟨h1, by rw [if_pos (by assumption)] at h2; exact h2, h3⟩
      · exact ⟨h1, by rw [if_neg (by assumption)] at h2; exact h2, h3⟩

/-- C39: with ASCII text, no `SkipCache` rule and no `FilterLine` with `Loop`, any two ways of tracing a
parse give the same outcome (result or panic), the same values and the same callbacks. -/
theorem C39_tracing_invisible_partial (ops : Ops V H) (g : Grammar) (f f' : Nat → Bool) (tr tr' : Trace)
    (opts opts' : List ParseOption) (k : Nat) (h : H) (text : Bytes)
    (ha : ∀ b ∈ text, b < 0x80) (hs : ∀ n ∈ g.rules, n.info.skipCache = false)
    (hl : tr.loop = true → tr.filterLine < 0) (hl' : tr'.loop = true → tr'.filterLine < 0) :
    (parseString ops (g.setDebug f) tr opts k h text).1.seen =
      (parseString ops (g.setDebug f') tr' opts' k h text).1.seen := by
  have key : ∀ (f : Nat → Bool) (tr : Trace) (opts : List ParseOption), (tr.loop = true → tr.filterLine < 0) →
      (parseString ops (g.setDebug f) tr opts k h text).1.seen =
      (parseString ops (g.setDebug fun _ => false) {} [] k h text).1.seen := by
    intro f tr opts hl
    rcases C39_tracing_partial ops g f tr opts k h text with hx | ⟨e, _, (⟨_, (⟨_, b, hb, hb'⟩ | ⟨_, n, hn, hn'⟩)⟩ | ⟨h1, h2, _⟩)⟩
    · exact hx
    · exact absurd (ha b hb) (UInt8.not_lt.mpr hb')
    · rw [hs n hn] at hn'; cases hn'
    · exact absurd (hl h1) (by omega)
  rw [key f tr opts hl, key f' tr' opts' hl']

/-- Everything traced, on a left recursive grammar with a callback log. -/
example : Sample.valueOf (parseString Sample.ops (Sample.minus.setDebug fun i => i == 0) { stack := true, loop := true }
      [.debug true] 60 () (asc "1-2-1")) =
    some (.arr [.arr [.str (asc "1"), .str (asc "2")], .str (asc "1")]) ∧
    Prints (Sample.minus.setDebug fun i => i == 0) { stack := true, loop := true } [.debug true] ∧
    (∀ b ∈ asc "1-2-1", b < 0x80) ∧ (∀ n ∈ Sample.minus.rules, n.info.skipCache = false) := by
  refine ⟨by decide +kernel, Or.inl (Or.inl rfl), by decide +kernel, by decide +kernel⟩

/-- `S: A B`, `A` is the byte FF, `B: 'b'`. -/
def Sample.ff : Grammar where
  rules := [.seq (Sample.ri "S") .array [Sample.ref "A", Sample.ref "B"], .str (Sample.ri "A") [0xFF],
    .str (Sample.ri "B") (asc "b")]
  lookup := Sample.lookupIn [("S", 0), ("A", 1), ("B", 2)]
  root := .choice {} [.rule 0]

/-- C39, counterexample: a parse that succeeds panics when `Debug{true}` is given, on malformed text. -/
theorem C39_malformed_text_panics :
    Sample.valueOf (parseString Sample.ops Sample.ff {} [] 60 () [0xFF, 0x62]) = some (.arr [.str [0xFF], .str (asc "b")]) ∧
    Sample.panicOf (parseString Sample.ops Sample.ff {} [.debug true] 60 () [0xFF, 0x62]) = some .runeError ∧
    Sample.panicOf (parseString Sample.ops Sample.ff { stack := true } [] 60 () [0xFF, 0x62]) = some .runeError ∧
    Sample.panicOf (parseString Sample.ops (Sample.ff.setDebug fun i => i == 2) {} [] 60 () [0xFF, 0x62]) =
      some .runeError := by
  decide +kernel

/-- `S: A | 'y'`, `A: 'x'` with `SkipCache`. -/
def Sample.uncached : Grammar where
  rules := [.choice (Sample.ri "S") [Sample.ref "A", .str {} (asc "y")], .str { Sample.ri "A" with skipCache := true } (asc "x")]
  lookup := Sample.lookupIn [("S", 0), ("A", 1)]
  root := .choice {} [.rule 0]

/-- C39, counterexample: a rule with `SkipCache` that does not match panics as soon as tracing prints it. -/
theorem C39_skipCache_panics :
    Sample.valueOf (parseString Sample.ops Sample.uncached {} [] 60 () (asc "y")) = some (.str (asc "y")) ∧
    Sample.panicOf (parseString Sample.ops Sample.uncached {} [.debug true] 60 () (asc "y")) = some .nilDeref ∧
    Sample.panicOf (parseString Sample.ops (Sample.uncached.setDebug fun i => i == 1) {} [] 60 () (asc "y")) =
      some .nilDeref := by
  decide +kernel

/-- C39, counterexample: `Loop` with a `FilterLine` other than the line of a left recursive match panics. -/
theorem C39_loop_filter_panics :
    Sample.valueOf (parseString Sample.ops Sample.minus { loop := true } [] 60 () (asc "1-2")) =
      some (.arr [.str (asc "1"), .str (asc "2")]) ∧
    Sample.panicOf (parseString Sample.ops Sample.minus { loop := true, filterLine := 5 } [] 60 () (asc "1-2")) =
      some .loopStackEmpty := by
  decide +kernel

/-! ## C50 -/

/-- Setting every rule's `Debug` to what it is. -/
theorem setDebug_self (g : Grammar) : g.setDebug (fun i => match g.rules[i]? with | some n => n.info.debug | none => false) = g := by
  have : (g.rules.mapIdx fun id n => n.setDebug (match g.rules[id]? with | some n => n.info.debug | none => false)) = g.rules := by
    apply List.ext_getElem?
    intro i
    rw [List.getElem?_mapIdx]
    cases hb : g.rules[i]? with
    | none => rfl
    | some b => cases b <;> rfl
  unfold Grammar.setDebug
  rw [this]

/-- C50: `SkipCache`, `SkipLog` and `Debug` given to `ParseString`, in any number and order, do not change
the outcome, the values made or the callbacks that run. What is missing: with `Debug{true}` the tracing code
itself can panic, see `C39_tracing_partial` for the exact cases. -/
theorem C50_options_partial (ops : Ops V H) (g : Grammar) (tr : Trace) (opts opts' : List ParseOption)
    (k : Nat) (h : H) (text : Bytes) (ha : ∀ b ∈ text, b < 0x80) (hs : ∀ n ∈ g.rules, n.info.skipCache = false)
    (hl : tr.loop = true → tr.filterLine < 0) :
    (parseString ops g tr opts k h text).1.seen = (parseString ops g tr opts' k h text).1.seen := by
  have := C39_tracing_invisible_partial ops g (tr := tr) (tr' := tr) (opts := opts) (opts' := opts') (k := k) (h := h) (text := text)
    (ha := ha) (hs := hs) (hl := hl) (hl' := hl)
    (f := fun i => match g.rules[i]? with | some n => n.info.debug | none => false)
    (f' := fun i => match g.rules[i]? with | some n => n.info.debug | none => false)
  rw [setDebug_self] at this
  exact this

/-- C50: without `Debug{true}`, on a grammar that is not traced, the options never change anything, whatever
the text and the grammar. -/
theorem C50_options_untraced (ops : Ops V H) (g : Grammar) (tr : Trace) (opts : List ParseOption)
    (k : Nat) (h : H) (text : Bytes) (hd : ParseOption.debug true ∉ opts) (hq : tr.stack = false)
    (hl : tr.loop = false) (hr : ∀ n ∈ g.rules, n.info.debug = false) :
    (parseString ops g tr opts k h text).1.seen = (parseString ops g tr [] k h text).1.seen := by
  have h1 := C39_tracing_partial ops g (fun i => match g.rules[i]? with | some n => n.info.debug | none => false)
    tr opts k h text
  have h2 := C39_tracing_partial ops g (fun i => match g.rules[i]? with | some n => n.info.debug | none => false)
    tr [] k h text
  rw [setDebug_self] at h1 h2
  have key : ∀ o : List ParseOption, ParseOption.debug true ∉ o → ¬ Prints g tr o := by
    rintro o ho ((h | h) | ⟨n, hn, h⟩)
    · rw [hq] at h; cases h
    · exact ho h
    · rw [hr n hn] at h; cases h
  rcases h1 with h1 | ⟨e, _, (⟨h1, _⟩ | ⟨h1, _⟩)⟩
  · rcases h2 with h2 | ⟨e, _, (⟨h2, _⟩ | ⟨h2, _⟩)⟩
    · rw [h1, h2]
    · exact absurd h2 (key [] (by simp))
    · rw [hl] at h2; cases h2
  · exact absurd h1 (key opts hd)
  · rw [hl] at h1; cases h1

example : ParseOption.debug true ∉ [ParseOption.skipLog true, .skipCache true, .debug false] ∧
    Sample.valueOf (parseString Sample.ops Sample.ff {} [.skipLog true, .skipCache true, .debug false] 60 () [0xFF, 0x62]) =
      some (.arr [.str [0xFF], .str (asc "b")]) := by
  refine ⟨by simp, by decide +kernel⟩

end Joeson
