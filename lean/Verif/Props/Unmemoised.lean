import Verif.Proofs.Unmemoised
import Verif.Props.Total
import Verif.Proofs.SkipCache
import Verif.Model.Samples
/-!
# C73: `SkipCache` and left recursion

Left recursion is handled by the entry of the memo table; a rule with `SkipCache` has none.
-/

namespace Joeson
variable {V H : Type}

/-- C73: if the first alternative of the grammar is a rule without memoisation that begins with itself, directly or through other
rules without memoisation, then every parse of every text exhausts the rule stack, whatever the callbacks. Left recursive rules need
their memo entry. -/
theorem C73_every_text_panics (ops : Ops V H) (g : Grammar) (hg : g.Built) (S : Nat → Prop) (he : g.Endless S) (hr : Leads g S g.root)
    (tr : Trace) (opts : List ParseOption) (hn : NoTrace g tr opts) (h : H) (text : Bytes) :
    (∃ k, ∀ k', k ≤ k' → (parseString ops g tr opts k' h text).1 = .panic .stackOverflow) ∧
    ∀ k, (parseString ops g tr opts k h text).1 = .oof ∨ (parseString ops g tr opts k h text).1 = .panic .stackOverflow := by
  have hq := hn.quiet ops text
  obtain ⟨i, l, hroot, h1, h2, h3⟩ := hg.root
  obtain ⟨id, l, rfl, hS⟩ : ∃ id l', l = .rule id :: l' ∧ S id := by
    rw [hroot] at hr
    cases hr with
    | @choice _ c l hc =>
      obtain ⟨id, rfl, -⟩ := h3 c (List.mem_cons_self ..)
      cases hc with
      | rule h => exact ⟨id, l, rfl, h⟩
  have hp : ∀ b k, Spent b (parse (callEnv ops g tr opts text) k g.root (newState h 0)) → Spent b (parseString ops g tr opts k h text).1 := by
    intro b k hs
    have key := parseString_cases ops g hg tr opts k h text
    extract_lets env at key
    change Spent b (parse env k g.root (newState h 0)) at hs
    rcases hs with ⟨hb, hs⟩ | hs
    · rw [hs] at key; exact .inl ⟨hb, by rw [key]⟩
    · rw [hs] at key; exact .inr (by rw [key.1])
  constructor
  · obtain ⟨D, hD⟩ := parse_overflows (env := callEnv ops g tr opts text) hq hg he
    refine ⟨stackCap * (D + 2) + 0 + 1 + 1, fun k' hk' => ?_⟩
    obtain ⟨k, rfl⟩ : ∃ j, k' = j + 1 := ⟨k' - 1, by omega⟩
    have := hp false (k + 1) (by
      rw [hroot]
      exact root_spent h1 h2 (hD stackCap 0 k _ (newState h 0) (.rule hS) (Nat.zero_le _) (.inr ⟨id, rfl⟩) (Nat.le_add_left _ _) (by omega)))
    rcases this with ⟨h, -⟩ | h
    · cases h
    · exact h
  · intro k
    have : Spent true (parse (callEnv ops g tr opts text) k g.root (newState h 0)) := by
      cases k with
      | zero => exact .inl ⟨rfl, rfl⟩
      | succ k =>
        rw [hroot]
        exact root_spent h1 h2 (parse_spent (env := callEnv ops g tr opts text) hq hg he k 0 _ (newState h 0) (.rule hS) (Nat.zero_le _) (.inr ⟨id, rfl⟩))
    rcases hp true k this with ⟨-, h⟩ | h
    · exact .inl h
    · exact .inr h

namespace Sample

/-- `E: E '-' N | N` and `N: '1' | '2'`, with `SkipCache` for `E`. -/
def minusSkip : Grammar := minus.setSkip fun id => id == 0

theorem minusSkip_built : minusSkip.Built :=
  Grammar.built_of_checks _ _ rfl (by decide +kernel) (by decide +kernel) (by decide +kernel)

theorem minusSkip_endless : minusSkip.Endless fun id => id = 0 := by
  rintro id rfl
  exact ⟨_, rfl, rfl, .choice (.seq (.ref (id := 0) (by decide +kernel) rfl))⟩

/-- Two rules that begin with each other, `E: T '+' | 'a'` and `T: E?`, both with `SkipCache`. -/
def mutualSkip : Grammar where
  rules := [
    .choice { ri "E" with skipCache := true } [.seq { parent := some false } .array [ref "T", lit "+"], .str {} (asc "a")],
    .exist { ri "T" with skipCache := true } (ref "E")]
  lookup := lookupIn [("E", 0), ("T", 1)]
  root := .choice {} [.rule 0]

theorem mutualSkip_built : mutualSkip.Built :=
  Grammar.built_of_checks _ _ rfl (by decide +kernel) (by decide +kernel) (by decide +kernel)

theorem mutualSkip_endless : mutualSkip.Endless fun id => id < 2 := by
  intro id hid
  obtain rfl | rfl : id = 0 ∨ id = 1 := by omega
  · exact ⟨_, rfl, rfl, .choice (.seq (.ref (id := 1) (by decide +kernel) (by decide)))⟩
  · exact ⟨_, rfl, rfl, .exist (.ref (id := 0) (by decide +kernel) (by decide))⟩

end Sample

/-- The hypotheses are met: `E: E '-' N | N` with `SkipCache` for `E` panics for every text. -/
theorem C73_witness (ops : Ops V H) (h : H) (text : Bytes) :
    ∃ k, ∀ k', k ≤ k' → (parseString ops Sample.minusSkip {} [] k' h text).1 = .panic .stackOverflow :=
  (C73_every_text_panics ops Sample.minusSkip Sample.minusSkip_built _ Sample.minusSkip_endless (.choice (.rule rfl)) {} []
    (Sample.noTrace _ (by decide +kernel)) h text).1

/-- The same grammar with the option for `N` only gives the values that it gives without the option. -/
example : Sample.valueOf (parseString Sample.ops (Sample.minus.setSkip fun id => id == 1) {} [] 60 () (asc "1-2-1")) =
    Sample.valueOf (parseString Sample.ops Sample.minus {} [] 60 () (asc "1-2-1")) ∧
    (Sample.valueOf (parseString Sample.ops Sample.minus {} [] 60 () (asc "1-2-1"))).isSome = true := by decide +kernel

/-- Rules that begin with each other: `E: T '+' | 'a'`, `T: E?`. -/
example (ops : Ops V H) (h : H) (text : Bytes) :
    ∃ k, ∀ k', k ≤ k' → (parseString ops Sample.mutualSkip {} [] k' h text).1 = .panic .stackOverflow :=
  (C73_every_text_panics ops Sample.mutualSkip Sample.mutualSkip_built _ Sample.mutualSkip_endless (.choice (.rule (by decide))) {} []
    (Sample.noTrace _ (by decide +kernel)) h text).1

end Joeson
