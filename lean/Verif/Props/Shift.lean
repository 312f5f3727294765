import Verif.Proofs.Shift2
import Verif.Proofs.JoesonG
/-!
# C91: a token stream can be parsed from any position
-/

namespace Joeson
open Spec
variable {V H : Type}

/-- C91: `ParseTokens` on a stream whose position is `n` gives what `ParseString` gives on the work text without its first `n` bytes: the same
outcome, panic or lack of fuel, the same store, the same callbacks in the same order, and it stops at the same place; positions shown to callbacks
and kept by values, and the position of an error, are `n` more. For every grammar, left recursion included, every token list laid out without gaps,
and all values and callbacks that do not record lines (lines are those of the original text). -/
theorem C91_from_position (ops : Ops V H) (g : Grammar) (tr : Trace) (opts opts' : List ParseOption) (k : Nat) (h : H)
    (c : TokenStream) (hc : c.lineStarts = lineStartsOf c.original) (hn : c.workOffset ≤ c.work.length)
    (hl : Contiguous c.tokens) (ho : ∀ t ∈ c.tokens, 0 ≤ t.orig)
    (hop : ∀ v o h l, ops.origin v { o with line := l } h = ops.origin v o h)
    (hs : tr.stack = false) (hlp : tr.loop = false) (hd : ∀ n ∈ g.rules, n.info.debug = false)
    (hopt : ParseOption.debug true ∉ opts) (hopt' : ParseOption.debug true ∉ opts') :
    shown (parseTokens ops g tr opts k h c).1 =
      shownLater c.workOffset (shown (parseString (ops.moved c.workOffset 0) g tr opts' k h (c.work.drop c.workOffset)).1) := by
  have M := tokens_moved ops g tr (opts.foldl CtxOptions.apply {}).skipLog
    (opts'.foldl CtxOptions.apply {}).skipLog c c.workOffset hn hop hs hlp hd
  have T := tokens_traced ops g tr (opts.foldl CtxOptions.apply {}).skipLog
    (opts'.foldl CtxOptions.apply {}).skipLog c hop hs hlp hd
  have good := parse_tsim (l0 := []) T (Stream.ofTokens_valid c) k g.root [] (newState h c.workOffset) ⟨hn, fun _ => rfl⟩
  have hat : St.at [] (newState (V := V) h c.workOffset) = newState h c.workOffset := rfl
  rw [hat] at good
  have key := parse_mv M k g.root (newState h (0 + c.workOffset)) (newState h 0) (newState_mv h 0 c.workOffset)
  rw [Nat.zero_add] at key
  unfold parseTokens parseString grammarParse
  rw [opts_no_debug opts hopt, opts_no_debug opts' hopt']
  simp only [Bool.false_eq_true, if_false]
  revert key good
  generalize hA : parse { ops := ops, st := Stream.ofTokens c, g := g, trace := tr, skipLog := (opts.foldl CtxOptions.apply {}).skipLog } k g.root
    (newState h c.workOffset) = A
  generalize hB : parse { ops := ops.moved c.workOffset 0, st := Stream.ofText (c.work.drop c.workOffset), g := g, trace := tr, skipLog := (opts'.foldl CtxOptions.apply {}).skipLog } k g.root (newState h 0) = B
  intro good key
  have pos : ∀ r s, A = .ok (r, s) → s.pos ≤ c.work.length := by
    intro r s he
    rw [he] at good
    rcases good with ⟨e, h1, h2⟩ | ⟨h1, h2⟩ | ⟨e, h1, h2⟩ | ⟨r', s2, h1, h2, h3⟩
    · cases h1
    · cases h1
    · cases h1
    · injection h1 with h1
      injection h1 with h1 h1'
      subst h1'
      exact h3.pos
  cases A with
  | oof => cases B <;> first | rfl | exact key.elim
  | panic e =>
    cases B with
    | panic e' => obtain rfl : e = e' := key; rfl
    | ok _ => exact key.elim
    | oof => exact key.elim
  | ok x =>
    cases B with
    | panic e' => exact key.elim
    | oof => exact key.elim
    | ok y =>
      obtain ⟨r, s⟩ := x
      obtain ⟨r', s'⟩ := y
      obtain ⟨e, hm, -⟩ := key
      obtain rfl : r = r' := e
      have hm : Mv c.workOffset s s' := hm
      have hp := pos r s rfl
      have hlen : (Stream.ofTokens c).len = c.work.length := rfl
      have hlen' : (Stream.ofText (c.work.drop c.workOffset)).len = c.work.length - c.workOffset := List.length_drop
      dsimp only
      rw [hlen, hlen']
      have hpe := hm.pos
      have hb : shown (H := H) (.ok (Outcome.nil, s)) = shownLater c.workOffset (shown (V := V) (.ok (.nil, s'))) := by
        show Out.ok (_, s.h, s.calls.map Call.what, s.pos) = Out.ok (_, s'.h, s'.calls.map Call.what, s'.pos + c.workOffset)
        rw [hm.h, hm.calls, hpe]
        rfl
      by_cases hne : s'.pos ≠ c.work.length - c.workOffset
      · rw [if_pos hne, if_pos (by omega)]
        have hcnt : c.work.length + 1 - s.pos = c.work.length - c.workOffset + 1 - s'.pos := by omega
        rw [hcnt, hpe]
        have hrows := scanRows_mv hm g.numRules (c.work.length - c.workOffset + 1 - s'.pos) s'.pos s'.pos s'.pos
        rw [hrows]
        have hsc := scanRows_spec s' g.numRules (c.work.length - c.workOffset + 1 - s'.pos) s'.pos s'.pos s'.pos (Nat.le_refl _) (Nat.le_refl _)
        dsimp only at hsc
        obtain ⟨s1, s2, s3, s4, _⟩ := hsc
        have hatt : (scanRows s' g.numRules s'.pos (c.work.length - c.workOffset + 1 - s'.pos) (s'.pos, s'.pos)).1 ≤ c.work.length - c.workOffset := by
          rcases s4 with h | ⟨_, h, _⟩ <;> omega
        obtain ⟨r1, e1, c1, _⟩ := tokenReport_ok c hc hl ho (s'.pos + c.workOffset) _ _ (Nat.add_le_add_right s1 c.workOffset)
          (Nat.add_le_add_right s2 c.workOffset) (by omega)
        obtain ⟨r2, e2, c2, _⟩ := runeReport_ok (c.work.drop c.workOffset) s'.pos _ _ s1 s2 (by rw [List.length_drop]; exact hatt)
        dsimp only
        rw [e1, e2]
        show Out.ok (Brief.error r1.char, s.h, s.calls.map Call.what, s.pos) =
          Out.ok (Brief.error (r2.char + c.workOffset), s'.h, s'.calls.map Call.what, s'.pos + c.workOffset)
        rw [c1, c2, hm.h, hm.calls, hpe]
      · rw [if_neg hne, if_neg (by omega)]
        cases r with
        | none => exact hb
        | some v =>
          show Out.ok (Brief.value v, s.h, s.calls.map Call.what, s.pos) = Out.ok (Brief.value v, s'.h, s'.calls.map Call.what, s'.pos + c.workOffset)
          rw [hm.h, hm.calls, hpe]

/-- C91: if values and callbacks do not look at positions, it is the outcome of `ParseString` on the rest of the text. -/
theorem C91_rest_of_text (ops : Ops V H) (g : Grammar) (tr : Trace) (opts opts' : List ParseOption) (k : Nat) (h : H)
    (c : TokenStream) (hc : c.lineStarts = lineStartsOf c.original) (hn : c.workOffset ≤ c.work.length)
    (hl : Contiguous c.tokens) (ho : ∀ t ∈ c.tokens, 0 ≤ t.orig)
    (hcb : ∀ i v p q h, ops.cb i v p h = ops.cb i v q h)
    (hor : ∀ v a b l a' b' l' nm h, ops.origin v ⟨a, b, l, nm⟩ h = ops.origin v ⟨a', b', l', nm⟩ h)
    (hs : tr.stack = false) (hlp : tr.loop = false) (hd : ∀ n ∈ g.rules, n.info.debug = false)
    (hopt : ParseOption.debug true ∉ opts) (hopt' : ParseOption.debug true ∉ opts') :
    shown (parseTokens ops g tr opts k h c).1 =
      shownLater c.workOffset (shown (parseString ops g tr opts' k h (c.work.drop c.workOffset)).1) := by
  have e : ops.moved c.workOffset 0 = ops := by
    unfold Ops.moved
    have h1 : (fun i v p h => ops.cb i v (p + c.workOffset) h) = ops.cb := by
      funext i v p h
      exact hcb i v _ p h
    have h2 : (fun v (o : Origin) h => ops.origin v ⟨o.start + c.workOffset, o.stop + c.workOffset, o.line + 0, o.ruleName⟩ h) = ops.origin := by
      funext v o h
      exact hor v _ _ _ o.start o.stop o.line o.ruleName h
    rw [h1, h2]
  have := C91_from_position ops g tr opts opts' k h c hc hn hl ho (fun v o h l => hor v _ _ _ _ _ _ _ h) hs hlp hd hopt hopt'
  rw [e] at this
  exact this

/-! A left-recursive grammar on the tokens of `1 - 2 - 1`, from the third token. -/

/-- The tokens of `1 - 2 - 1`. -/
def Sample.threeTerms : List Token := [⟨asc "1", 0, 0⟩, ⟨asc "-", 2, 1⟩, ⟨asc "2", 4, 2⟩, ⟨asc "-", 6, 3⟩, ⟨asc "1", 8, 4⟩]

example : let c := TokenStream.new (asc "1 - 2 - 1") Sample.threeTerms
    c.setPos 2 = .ok (c.withPos 2) ∧
    Sample.valueOf (parseTokens Sample.ops Sample.minus {} [] 60 () c) = some (.arr [.arr [.str (asc "1"), .str (asc "2")], .str (asc "1")]) ∧
    Sample.valueOf (parseTokens Sample.ops Sample.minus {} [] 60 () (c.withPos 2)) = some (.arr [.str (asc "2"), .str (asc "1")]) ∧
    Sample.valueOf (parseString Sample.ops Sample.minus {} [] 60 () (asc "2-1")) = some (.arr [.str (asc "2"), .str (asc "1")]) :=
  ⟨rfl, by decide +kernel, by decide +kernel, by decide +kernel⟩

example : let c := (TokenStream.new (asc "1 - 2 - 1") Sample.threeTerms).withPos 2
    c.lineStarts = lineStartsOf c.original ∧ c.workOffset ≤ c.work.length ∧ Contiguous c.tokens ∧ (∀ t ∈ c.tokens, 0 ≤ t.orig) ∧
    c.work.drop c.workOffset = asc "2-1" ∧
    (∀ i v p q h, Sample.ops.cb i v p h = Sample.ops.cb i v q h) ∧
    (∀ v a b l a' b' l' nm h, Sample.ops.origin v ⟨a, b, l, nm⟩ h = Sample.ops.origin v ⟨a', b', l', nm⟩ h) ∧
    (∀ n ∈ Sample.minus.rules, n.info.debug = false) :=
  ⟨rfl, by decide +kernel, (contiguous_iff _).mpr ⟨rfl, rfl, rfl, rfl, rfl, trivial⟩, by decide +kernel, by decide +kernel,
    fun _ _ _ _ _ => rfl, fun _ _ _ _ _ _ _ _ _ => rfl, by decide +kernel⟩

/-- An error: the tokens `1`, `-`, `2`, `x` from the third, and the text `2x`. -/
example : (match shown (parseTokens Sample.ops Sample.minus {} [] 60 () ((TokenStream.new (asc "1 - 2 x")
      [⟨asc "1", 0, 0⟩, ⟨asc "-", 2, 1⟩, ⟨asc "2", 4, 2⟩, ⟨asc "x", 6, 3⟩]).withPos 2)).1 with
      | .ok (.error c, _, _, p) => some (c, p) | _ => none) = some (3, 3) ∧
    (match shown (parseString Sample.ops Sample.minus {} [] 60 () (asc "2x")).1 with
      | .ok (.error c, _, _, p) => some (c, p) | _ => none) = some (1, 1) :=
  ⟨by decide +kernel, by decide +kernel⟩

end Joeson
