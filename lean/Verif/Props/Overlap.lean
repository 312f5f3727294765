import Verif.Spec.Overlap
import Verif.Proofs.Overlap2
import Verif.Proofs.JoesonG
import Verif.Props.Tracing
import Verif.Props.TokenReport
/-!
# C90: calls of one Grammar that overlap
-/

namespace Joeson
open Spec
variable {V H : Type}

/-! ## What a call returns -/

/-- C90: while nobody changes `TraceOptions.Stack`, a call is `ParseString`. -/
theorem C90_alone (ops : Ops V H) (g : Grammar) (tr : Trace) (opts : List ParseOption) (k : Nat) (h : H) (text : Bytes) :
    parseStringC ops g tr (opts.foldl CtxOptions.apply {}).skipLog (fun _ => (opts.foldl CtxOptions.apply {}).debug || tr.stack) k h text =
      (parseString ops g tr opts k h text).1.seen :=
  grammarParseC_alone _ _ _ _ _

/-- `Debug{true}` turns the flag on for the whole call. -/
example : parseStringC Sample.ops Sample.ff {} false (fun _ => true) 60 () [0xFF, 0x62] = .panic .runeError ∧
    (parseString Sample.ops Sample.ff {} [.debug true] 60 () [0xFF, 0x62]).1.seen = .panic .runeError := by
  exact ⟨by kernel_rfl, by kernel_rfl⟩

/-- C90: whatever other calls of the same grammar write to `TraceOptions.Stack` while a call runs (`flag` tells what it finds there
each time it looks), the call gives the outcome, the values, the callbacks and the position of a call that runs alone without tracing, unless
tracing panics. What is missing: the panics of C39, which a call can now get from the `Debug{true}` of another. -/
theorem C90_same_partial (ops : Ops V H) (g : Grammar) (f : Nat → Bool) (tr : Trace) (sk : Bool) (flag : Nat → Bool)
    (k : Nat) (h : H) (text : Bytes) :
    parseStringC ops (g.setDebug f) tr sk flag k h text = (parseString ops (g.setDebug fun _ => false) {} [] k h text).1.seen ∨
    ∃ e, parseStringC ops (g.setDebug f) tr sk flag k h text = .panic e ∧
      ((sk = false ∧ e = .runeError ∧ ∃ b ∈ text, 0x80 ≤ b) ∨ (e = .nilDeref ∧ ∃ n ∈ g.rules, n.info.skipCache = true) ∨
        (tr.loop = true ∧ 0 ≤ tr.filterLine ∧ e = .loopStackEmpty)) := by
  rcases grammarParseC_same (ops := ops) (g := g) (tr := tr) sk flag (Stream.ofText_valid text) (runeReport text) f k h (Nat.zero_le _) with hx | ⟨e, he, ht⟩
  · exact Or.inl hx
  · refine Or.inr ⟨e, he, ?_⟩
    rcases ht with ⟨-, h2⟩ | h2
    · rcases h2 with ⟨h1, p, hp, hr⟩ | ⟨⟨n, hn, hs⟩, rfl⟩
      · left
        refine ⟨h1, renderRune_error text hp e hr, ?_⟩
        by_cases ha : ∀ b ∈ text, b < 0x80
        · exact absurd hr (renderRune_ascii text ha hp e)
        · simp only [not_forall] at ha
          obtain ⟨b, hb, hb'⟩ := ha
          exact ⟨b, hb, UInt8.not_lt.mp hb'⟩
      · exact Or.inr (Or.inl ⟨rfl, setDebug_skipCache hn hs⟩)
    · exact Or.inr (Or.inr h2)

/-- No panic although the text is not ASCII: no other call turns tracing on. -/
example : (match parseStringC Sample.ops Sample.ff {} false (fun _ => false) 60 () [0xFF, 0x62] with
      | .ok (.value v, _, _, p) => some (v, p)
      | _ => none) = some (.arr [.str [0xFF], .str (asc "b")], 2) := by
  decide +kernel

/-- C90: with ASCII text, no `SkipCache` rule and no `FilterLine` with `Loop`, overlapping calls do not change what a call gives. -/
theorem C90_same (ops : Ops V H) (g : Grammar) (tr : Trace) (sk : Bool) (flag : Nat → Bool) (opts : List ParseOption)
    (k : Nat) (h : H) (text : Bytes) (ha : ∀ b ∈ text, b < 0x80) (hs : ∀ n ∈ g.rules, n.info.skipCache = false)
    (hl : tr.loop = true → tr.filterLine < 0) :
    parseStringC ops g tr sk flag k h text = (parseString ops g tr opts k h text).1.seen := by
  have hf : g = g.setDebug (fun i => match g.rules[i]? with | some n => n.info.debug | none => false) := (setDebug_self g).symm
  have h1 := C90_same_partial ops g (fun i => match g.rules[i]? with | some n => n.info.debug | none => false) tr sk flag k h text
  have h2 := C39_tracing_invisible_partial ops g (fun i => match g.rules[i]? with | some n => n.info.debug | none => false) (fun _ => false)
    tr {} opts [] k h text ha hs hl (fun h => by cases h)
  rw [← hf] at h1 h2
  rw [h2]
  rcases h1 with h1 | ⟨e, -, ⟨-, -, b, hb, hb'⟩ | ⟨-, n, hn, hn'⟩ | ⟨h1, h2, -⟩⟩
  · exact h1
  · exact absurd (ha b hb) (UInt8.not_lt.mpr hb')
  · rw [hs n hn] at hn'; cases hn'
  · exact absurd (hl h1) (by omega)

/-- The flag changes at every other look, on a left recursive grammar. -/
example : (match parseStringC Sample.ops Sample.minus {} false (fun n => n % 2 == 0) 60 () (asc "1-2-1") with
      | .ok (.value v, _, _, p) => some (v, p)
      | _ => none) = some (.arr [.arr [.str (asc "1"), .str (asc "2")], .str (asc "1")], 5) ∧
    (∀ b ∈ asc "1-2-1", b < 0x80) ∧ (∀ n ∈ Sample.minus.rules, n.info.skipCache = false) := by
  refine ⟨by decide +kernel, by decide +kernel, by decide +kernel⟩

/-- C90, counterexample: the `Debug{true}` of another call, seen once, makes a call panic that would succeed. -/
theorem C90_panics_from_other :
    Sample.valueOf (parseString Sample.ops Sample.ff {} [] 60 () [0xFF, 0x62]) = some (.arr [.str [0xFF], .str (asc "b")]) ∧
    parseStringC Sample.ops Sample.ff {} false (fun n => n == 2) 60 () [0xFF, 0x62] = .panic .runeError := by
  exact ⟨by decide +kernel, by kernel_rfl⟩

/-- C90 for `ParseTokens`. -/
theorem C90_same_tokens_partial (ops : Ops V H) (g : Grammar) (f : Nat → Bool) (tr : Trace) (sk : Bool) (flag : Nat → Bool)
    (k : Nat) (h : H) (c : TokenStream) (hc : c.workOffset ≤ c.work.length) :
    parseTokensC ops (g.setDebug f) tr sk flag k h c = (parseTokens ops (g.setDebug fun _ => false) {} [] k h c).1.seen ∨
    ∃ e, parseTokensC ops (g.setDebug f) tr sk flag k h c = .panic e ∧
      ((sk = false ∧ ∃ p, p ≤ c.work.length ∧ (Stream.ofTokens c).render p = .error e) ∨ (e = .nilDeref ∧ ∃ n ∈ g.rules, n.info.skipCache = true) ∨
        (tr.loop = true ∧ 0 ≤ tr.filterLine ∧ e = .loopStackEmpty)) := by
  rcases grammarParseC_same (ops := ops) (g := g) (tr := tr) sk flag (Stream.ofTokens_valid c) c.report f k h hc with hx | ⟨e, he, ht⟩
  · exact Or.inl hx
  · refine Or.inr ⟨e, he, ?_⟩
    rcases ht with ⟨-, h2⟩ | h2
    · rcases h2 with ⟨h1, p, hp, hr⟩ | ⟨⟨n, hn, hs⟩, rfl⟩
      · exact Or.inl ⟨h1, p, hp, hr⟩
      · exact Or.inr (Or.inl ⟨rfl, setDebug_skipCache hn hs⟩)
    · exact Or.inr (Or.inr h2)

/-- `1 - 2` as tokens while the flag changes. -/
example : (match parseTokensC Sample.ops Sample.minus {} false (fun n => n % 2 == 0) 60 () (TokenStream.new (asc "1 - 2") [⟨asc "1", 0, 0⟩, ⟨asc "-", 2, 1⟩, ⟨asc "2", 4, 2⟩]) with
      | .ok (.value v, _, _, p) => some (v, p)
      | _ => none) = some (.arr [.str (asc "1"), .str (asc "2")], 3) := by
  decide +kernel

/-! ## TraceOptions.Stack -/

/-- C90: calls that begin and end one inside the other (a callback parses with the grammar that runs it) leave `TraceOptions.Stack` as it
was, and during a call it is what the call made it, whatever the calls inside did. -/
theorem C90_nested {inner : List StackStep} (h : Nested inner) (s : StackState) (id : Nat) (debug : Bool) :
    (s.run inner).flag = s.flag ∧ (s.run (.enter id debug :: inner)).flag = (s.flag || debug) :=
  ⟨(nested_run h s).1, (nested_run h _).1⟩

/-- Call 0 with `Debug{true}`, and inside it call 1 without, then call 2 with. -/
example : Nested [.enter 0 true, .enter 1 false, .leave 1, .enter 2 true, .leave 2, .leave 0] ∧
    ((idle false).run [.enter 0 true, .enter 1 false, .leave 1]).flag = true ∧
    ((idle false).run [.enter 0 true, .enter 1 false, .leave 1, .enter 2 true, .leave 2, .leave 0]).flag = false := by
  refine ⟨?_, by decide, by decide⟩
  have h2 : Nested [.enter 2 true, .leave 2] := .call .nil .nil (by simp)
  have h1 : Nested [.enter 1 false, .leave 1, .enter 2 true, .leave 2] := .call (inner := []) .nil h2 (by simp)
  exact .call (rest := []) h1 .nil (by simp)

/-- C90: calls without `Debug{true}` never change `TraceOptions.Stack`, however they overlap. -/
theorem C90_no_debug (b : Bool) (l : List StackStep) (h : NoDebug l) : ((idle b).run l).flag = b :=
  run_flag l (fun id hid => absurd hid (h id)) rfl (fun i x hx => by cases hx)

/-- Two calls, neither inside the other. -/
example : NoDebug [.enter 0 false, .enter 1 false, .leave 0, .leave 1] := by
  intro id
  simp

/-- C90: when `TraceOptions.Stack` is on, it stays on, however calls overlap. -/
theorem C90_stays_on (l : List StackStep) : ((idle true).run l).flag = true :=
  run_flag l (fun _ _ => rfl) rfl (fun i x hx => by cases hx)

example : ((idle true).run [.enter 0 true, .enter 1 false, .leave 0, .enter 2 false, .leave 1]).flag = true := by decide

/-- C90, counterexample: after a call with `Debug{true}` and one without that begins before the first ends and ends after it, tracing is
left on, for all calls that follow. -/
theorem C90_left_on : ((idle false).run [.enter 0 true, .enter 1 false, .leave 0, .leave 1]).flag = true := by decide

/-- C90, counterexample: a call that ends takes away the tracing that another has asked for. -/
theorem C90_debug_lost : ((idle false).run [.enter 0 false, .enter 1 true, .leave 0]).flag = false := by decide

/-! ## Lazy -/

/-- C90: whatever the order of their steps, calls of `Get` on one `Lazy` whose function gives `f` return `f`, each at the latest after four
steps of its own, and no call reads a value that is not there. -/
theorem C90_lazy_value {α : Type} (f : α) (l : List Nat) (i : Nat) :
    ((LazyState.init α).run f l).at_ i ≠ .crashed ∧
    (∀ x, ((LazyState.init α).run f l).at_ i = .done x → x = f) ∧
    (4 ≤ l.count i → ((LazyState.init α).run f l).at_ i = .done f) := by
  have ok := LazyOk.run (f := f) l LazyOk.init
  refine ⟨ok.crashed i, ok.done i, fun h => ?_⟩
  have hr := lazy_rank (f := f) i l (LazyState.init α)
  have h4 : lazyRank ((LazyState.init α).at_ i) = 4 := rfl
  have h0 : lazyRank (((LazyState.init α).run f l).at_ i) = 0 := by omega
  cases hx : ((LazyState.init α).run f l).at_ i with
  | done x => rw [ok.done i x hx]
  | crashed => exact absurd hx (ok.crashed i)
  | _ => rw [hx] at h0; cases h0

/-- Call 1 stores its value while call 0 is about to store the same. -/
example : ((LazyState.init Nat).run 7 [0, 0, 1, 1, 1, 0, 1, 0]).at_ 0 = .done 7 ∧ ((LazyState.init Nat).run 7 [0, 0, 1, 1, 1, 0, 1, 0]).at_ 1 = .done 7 := by
  decide

/-- C90: each call evaluates the function at most once. -/
theorem C90_lazy_evals {α : Type} (f : α) (l : List Nat) :
    ((LazyState.init α).run f l).evals.Nodup ∧ ∀ i ∈ ((LazyState.init α).run f l).evals, i ∈ l :=
  ⟨(LazyOk.run (f := f) l LazyOk.init).nodup, fun i hi => (lazy_evals_mem l _ i hi).resolve_left (by intro h; cases h)⟩

/-- Call 2 finds a value. -/
example : ((LazyState.init Nat).run 7 [0, 1, 1, 0, 0, 2, 2]).evals = [0, 1] := by decide

/-- C90: once a call has returned, no call that begins later evaluates the function. -/
theorem C90_lazy_later {α : Type} (f : α) (l l' : List Nat) {i : Nat} {x : α} (hi : ((LazyState.init α).run f l).at_ i = .done x)
    {j : Nat} (hj : j ∉ l) : j ∉ ((LazyState.init α).run f (l ++ l')).evals := by
  have ok := LazyOk.run (f := f) l LazyOk.init
  have hb : ((LazyState.init α).run f l).at_ j = .begin := lazy_untouched l _ hj
  have he : j ∉ ((LazyState.init α).run f l).evals := fun h => hj ((C90_lazy_evals f l).2 j h)
  rw [lazy_run_append]
  exact lazy_late l' (ok.doneSet i x hi) (fun h => by rw [hb] at h; cases h) he

example : ((LazyState.init Nat).run 7 [0, 0, 0, 0]).at_ 0 = .done 7 ∧ ((LazyState.init Nat).run 7 ([0, 0, 0, 0] ++ [1, 1, 1])).evals = [0] ∧
    ((LazyState.init Nat).run 7 ([0, 0, 0, 0] ++ [1, 1, 1])).at_ 1 = .done 7 := by
  decide

/-- C90, counterexample: two calls that overlap evaluate the function twice, where calls one after the other do once (C17). -/
theorem C90_lazy_twice : ((LazyState.init Nat).run 7 [0, 1, 0, 1, 0, 1, 0, 1]).evals = [1, 0] ∧
    ((LazyState.init Nat).run 7 [0, 0, 0, 0, 1, 1, 1, 1]).evals = [0] := by
  decide

end Joeson
