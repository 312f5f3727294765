import Verif.Proofs.Shift
import Verif.Props.TokenStream
/-!
# A token stream from a position, and the rest of its work text
-/

namespace Joeson
open Spec
variable {V H : Type}

theorem goSlice_later {α : Type} (s : List α) (n : Nat) (hn : n ≤ s.length) (lo hi : Int) (h : 0 ≤ lo) :
    goSlice s (lo + n) (hi + n) = goSlice (s.drop n) lo hi := by
  unfold goSlice
  rw [List.length_drop, List.drop_drop]
  have h1 : (lo + (n : Int)).toNat = n + lo.toNat := by omega
  have h2 : hi + (n : Int) - (lo + n) = hi - lo := by omega
  rw [h1, h2]
  by_cases hc : 0 ≤ lo ∧ lo ≤ hi ∧ hi ≤ ((s.length - n : Nat) : Int)
  · rw [if_pos hc, if_pos (by omega)]
  · rw [if_neg hc, if_neg (by omega)]

theorem goMin_later (a b : Int) (n : Nat) : goMin (a + n) (b + n) = goMin a b + n := by
  unfold goMin
  by_cases h : a < b
  · rw [if_pos h, if_pos (by omega)]
  · rw [if_neg h, if_neg (by omega)]

/-- Matching in the rest of a text. -/
theorem matchString_later (text : Bytes) (n : Nat) (hn : n ≤ text.length) (p : Nat) (b : Bytes) :
    (Stream.ofText text).matchString (p + n) b = ((Stream.ofText (text.drop n)).matchString p b).map fun x => (x.1, x.2 + n) := by
  show (do let (r, c) ← (runeAt text (p + n)).matchString b; return (r, c.pos)) =
    (do let (r, c) ← (runeAt (text.drop n) p).matchString b; return (r, c.pos) : Except Panic (Option Bytes × Nat)).map _
  unfold RuneStream.matchString
  have h1 : (runeAt text (p + n)).text = text := rfl
  have h2 : (runeAt text (p + n)).pos = p + n := rfl
  have h3 : (runeAt (text.drop n) p).text = text.drop n := rfl
  have h4 : (runeAt (text.drop n) p).pos = p := rfl
  rw [h1, h2, h3, h4]
  have e : goSlice text ((p + n : Nat) : Int) (goMin ((p + n : Nat) + b.length) text.length) =
      goSlice (text.drop n) (p : Int) (goMin (p + b.length) (text.drop n).length) := by
    rw [← goSlice_later text n hn _ _ (Int.natCast_nonneg p), ← goMin_later]
    have e1 : ((p + n : Nat) : Int) = (p : Int) + n := by omega
    have e2 : ((p + n : Nat) : Int) + (b.length : Int) = (p : Int) + b.length + n := by omega
    have e3 : (text.length : Int) = ((text.drop n).length : Int) + n := by rw [List.length_drop]; omega
    rw [e2, e3, e1]
  rw [e]
  cases goSlice (text.drop n) (p : Int) (goMin (p + b.length) (text.drop n).length) with
  | error x => rfl
  | ok piece =>
    by_cases hb : b ≠ piece
    · simp only [bind, Except.bind, if_pos hb]
      rfl
    · simp only [bind, Except.bind, if_neg hb]
      show Except.ok (some b, p + n + b.length) = Except.ok (some b, p + b.length + n)
      rw [Nat.add_right_comm]

theorem matchRegexp_later (text : Bytes) (n : Nat) (hn : n ≤ text.length) (p : Nat) (re : Regex) :
    (Stream.ofText text).matchRegexp (p + n) re = ((Stream.ofText (text.drop n)).matchRegexp p re).map fun x => (x.1, x.2 + n) := by
  show (do let (r, c) ← (runeAt text (p + n)).matchRegexp re; return (r, c.pos)) =
    (do let (r, c) ← (runeAt (text.drop n) p).matchRegexp re; return (r, c.pos) : Except Panic (Option Bytes × Nat)).map _
  unfold RuneStream.matchRegexp
  have h1 : (runeAt text (p + n)).text = text := rfl
  have h2 : (runeAt text (p + n)).pos = p + n := rfl
  have h3 : (runeAt (text.drop n) p).text = text.drop n := rfl
  have h4 : (runeAt (text.drop n) p).pos = p := rfl
  rw [h1, h2, h3, h4]
  have e3 : (text.length : Int) = ((text.drop n).length : Int) + n := by rw [List.length_drop]; omega
  have e1 : ((p + n : Nat) : Int) = (p : Int) + n := by omega
  rw [e3, e1, goSlice_later text n hn _ _ (Int.natCast_nonneg p)]
  cases goSlice (text.drop n) (p : Int) (text.drop n).length with
  | error x => rfl
  | ok rest =>
    simp only [bind, Except.bind]
    cases re.find rest with
    | none => rfl
    | some ab =>
      obtain ⟨a, b⟩ := ab
      by_cases ha : a ≠ 0
      · simp only [if_pos ha]
        rfl
      · simp only [if_neg ha]
        have e4 : (p : Int) + n + (a : Int) = (p : Int) + a + n := by omega
        have e5 : (p : Int) + n + (b : Int) = (p : Int) + b + n := by omega
        rw [e4, e5, goMin_later, goSlice_later text n hn _ _ (by omega)]
        cases goSlice (text.drop n) ((p : Int) + a) (goMin (p + b) (text.drop n).length) with
        | error x => rfl
        | ok s =>
          show Except.ok (some s, p + n + b) = Except.ok (some s, p + b + n)
          rw [Nat.add_right_comm]

/-- A token stream and the rest of its work text. -/
theorem tokens_moved (ops : Ops V H) (g : Grammar) (tr : Trace) (skip skip' : Bool) (c : TokenStream) (n : Nat) (hn : n ≤ c.work.length)
    (hop : ∀ v o h l, ops.origin v { o with line := l } h = ops.origin v o h)
    (hs : tr.stack = false) (hl : tr.loop = false) (hd : ∀ n ∈ g.rules, n.info.debug = false) :
    Moved n { ops := ops, st := Stream.ofTokens c, g := g, trace := tr, skipLog := skip }
      { ops := ops.moved n 0, st := Stream.ofText (c.work.drop n), g := g, trace := tr, skipLog := skip' } := by
  refine ⟨?_, ?_, ?_, rfl, ⟨hs, hl, hs, hl⟩, hd, rfl, rfl, rfl, rfl, fun _ _ _ _ _ => rfl, fun _ _ _ => rfl, fun _ _ _ _ => rfl, ?_⟩
  · show c.work.length = (c.work.drop n).length + n
    rw [List.length_drop]; omega
  · intro p b
    show (Stream.ofTokens c).matchString (p + n) b = _
    rw [tokens_matchString]
    exact matchString_later c.work n hn p b
  · intro p b
    show (Stream.ofTokens c).matchRegexp (p + n) b = _
    rw [tokens_matchRegexp]
    exact matchRegexp_later c.work n hn p b
  · intro v a p nm h
    have h1 := hop v ⟨a + n, p + n, 0, nm⟩ h
    exact (h1 _).trans (h1 _).symm

variable {n : Nat} {s s' : St V H}

theorem scanRow_mv (h : Mv n s s') (p : Nat) : ∀ k, scanRow s (p + n) k = scanRow s' p k
  | 0 => rfl
  | k + 1 => by
    rw [scanRow, scanRow, scanRow_mv h p k, h.table p k]
    cases s'.table p k with
    | none => rfl
    | some a => dsimp only; rw [h.result a]

theorem scanRows_mv (h : Mv n s s') (k : Nat) : ∀ cnt p att suc,
    scanRows s k (p + n) cnt (att + n, suc + n) = ((scanRows s' k p cnt (att, suc)).1 + n, (scanRows s' k p cnt (att, suc)).2 + n)
  | 0, _, _, _ => rfl
  | cnt + 1, p, att, suc => by
    rw [scanRows, scanRows, scanRow_mv h p k]
    have h1 := scanRows_mv h k cnt (p + 1)
    have hp : p + n + 1 = p + 1 + n := by omega
    rw [hp]
    obtain ⟨a, b⟩ := scanRow s' p k
    cases a <;> cases b <;> exact h1 _ _

end Joeson
