import Verif.Model.Colors
import Verif.Model.RuneStream
import Verif.Proofs.Utf8
/-!
# The regular expressions of rule texts

`newRegexFromString` (parser_regex.go:19-27) gives `"(" + s + ")"` to Go's `regexp.Compile`. This file models the part of
`regexp` that rule texts and `StripAnsi` use: literals, `.`, classes, escapes, `^`, groups, `|` and the greedy `*`, `+`,
`?`, `{n}` and `{n,m}`. What is outside of that part (`{n,}`, lazy repetitions, `$`, `\b`, flags, POSIX and Unicode
classes, numeric escapes, unbounded repetitions of something that can match nothing) is answered with `none`, as an
invalid regular expression is. So the theorems say nothing about those.

The syntax is that of `regexp/syntax` with the flags of `regexp.Compile` (`syntax.Perl`). The match is the leftmost one,
and among those the one a backtracking search finds first, as the documentation of `regexp` has it.
-/

namespace Joeson

/-- A class of runes: what the ranges cover, or everything else. -/
structure RuneClass where
  neg : Bool
  ranges : List (Nat × Nat)
deriving DecidableEq, Repr

/-- Whether a rune belongs to the class. -/
def RuneClass.has (c : RuneClass) (r : Nat) : Bool :=
  c.neg != c.ranges.any fun p => decide (p.1 ≤ r) && decide (r ≤ p.2)

/-- Regular expressions. -/
inductive Rx where
  | empty
  | cls (c : RuneClass)
  | bol
  | seq (a b : Rx)
  | alt (a b : Rx)
  | star (a : Rx)
  | plus (a : Rx)
  | opt (a : Rx)
deriving DecidableEq, Repr

/-- Whether it can match without consuming anything. -/
def Rx.nullable : Rx → Bool
  | .empty | .bol | .star _ | .opt _ => true
  | .cls _ => false
  | .seq a b => a.nullable && b.nullable
  | .alt a b => a.nullable || b.nullable
  | .plus a => a.nullable

/-- What is left of the text after a match at its beginning: all possibilities, preferred ones first. `n` is the length
of the whole text. A byte that is not UTF-8 is read as the rune U+FFFD, one byte wide. -/
def Rx.run (n : Nat) : Rx → Bytes → List Bytes
  | .empty, s => [s]
  | .cls c, s => if s = [] then [] else if c.has (decodeRune s).1 then [s.drop (decodeRune s).2] else []
  | .bol, s => if s.length = n then [s] else []
  | .seq a b, s => (a.run n s).flatMap (b.run n)
  | .alt a b, s => a.run n s ++ b.run n s
  | .star a, s => Re.stars (a.run n) s.length s
  | .plus a, s => (a.run n s).flatMap fun r => Re.stars (a.run n) r.length r
  | .opt a, s => a.run n s ++ [s]

/-- `regexp.Regexp.FindStringIndex`: tries a match at each rune from the left. `k` bounds the number of runes. -/
def Rx.findFrom (r : Rx) (n : Nat) : Nat → Nat → Bytes → Option (Nat × Nat)
  | k, off, s =>
    match (r.run n s).head? with
    | some rest => some (off, off + (s.length - rest.length))
    | none => match k with
      | 0 => none
      | k + 1 => if s = [] then none else r.findFrom n k (off + (decodeRune s).2) (s.drop (decodeRune s).2)

/-! ## Syntax -/

/-- Letters and digits of ASCII. -/
def isAlnum (b : UInt8) : Bool :=
  (0x61 ≤ b.toNat && b.toNat ≤ 0x7A) || (0x41 ≤ b.toNat && b.toNat ≤ 0x5A) || (0x30 ≤ b.toNat && b.toNat ≤ 0x39)

/-- `syntax.parser.parseEscape`, after the backslash, without the numeric escapes. -/
def rxEscape : Bytes → Option (Nat × Bytes)
  | [] => none
  | b :: s =>
    if b = 0x61 then some (0x07, s)
    else if b = 0x66 then some (0x0C, s)
    else if b = 0x6E then some (0x0A, s)
    else if b = 0x72 then some (0x0D, s)
    else if b = 0x74 then some (0x09, s)
    else if b = 0x76 then some (0x0B, s)
    else if b.toNat < 0x80 && !isAlnum b then some (b.toNat, s)
    else none

/-- `syntax.nextRune`, with the error for text that is not UTF-8 -/
def rxRune (s : Bytes) : Option (Nat × Bytes) :=
  if s = [] then none
  else if (decodeRune s).1 = runeError ∧ (decodeRune s).2 = 1 then none
  else some ((decodeRune s).1, s.drop (decodeRune s).2)

/-- `syntax.parser.parseClassChar` -/
def rxClassChar : Bytes → Option (Nat × Bytes)
  | 0x5C :: s => rxEscape s
  | s => rxRune s

/-- The ranges of `\d`, `\s` and `\w`, and of their complements. -/
def rxPerl (b : UInt8) : Option (List (Nat × Nat)) :=
  if b = 0x64 then some [(0x30, 0x39)]
  else if b = 0x73 then some [(0x09, 0x0A), (0x0C, 0x0D), (0x20, 0x20)]
  else if b = 0x77 then some [(0x30, 0x39), (0x41, 0x5A), (0x5F, 0x5F), (0x61, 0x7A)]
  else if b = 0x44 then some [(0x00, 0x2F), (0x3A, 0x10FFFF)]
  else if b = 0x53 then some [(0x00, 0x08), (0x0B, 0x0B), (0x0E, 0x1F), (0x21, 0x10FFFF)]
  else if b = 0x57 then some [(0x00, 0x2F), (0x3A, 0x40), (0x5B, 0x5E), (0x60, 0x60), (0x7B, 0x10FFFF)]
  else none

/-- `syntax.parser.parsePerlClassEscape` -/
def rxPerlEscape : Bytes → Option (List (Nat × Nat) × Bytes)
  | 0x5C :: b :: s => (rxPerl b).map fun rs => (rs, s)
  | _ => none

/-- The loop of `syntax.parser.parseClass`. `first`: nothing was read yet, so that `]` is a character. The first
argument bounds the number of steps. -/
def rxClassItems : Nat → Bool → Bytes → Option (List (Nat × Nat) × Bytes)
  | 0, _, _ => none
  | k + 1, first, t =>
    match t with
    | [] => none
    | b :: r =>
      if b = 0x5D && !first then some ([], r)
      else if b = 0x5B && r.head? == some 0x3A then none
      else match rxPerlEscape t with
        | some (rs, t') => (rxClassItems k false t').map fun q => (rs ++ q.1, q.2)
        | none => match rxClassChar t with
          | none => none
          | some (lo, t1) => match t1 with
            | 0x2D :: c :: t2 =>
              if c = 0x5D then (rxClassItems k false t1).map fun q => ((lo, lo) :: q.1, q.2)
              else match rxClassChar (c :: t2) with
                | none => none
                | some (hi, t3) =>
                  if hi < lo then none
                  else (rxClassItems k false t3).map fun q => ((lo, hi) :: q.1, q.2)
            | _ => (rxClassItems k false t1).map fun q => ((lo, lo) :: q.1, q.2)

/-- `syntax.parser.parseClass`, after the `[`. -/
def rxClass (s : Bytes) : Option (RuneClass × Bytes) :=
  match s with
  | 0x5E :: t => (rxClassItems (t.length + 1) true t).map fun q => (⟨true, q.1⟩, q.2)
  | _ => (rxClassItems (s.length + 1) true s).map fun q => (⟨false, q.1⟩, q.2)

/-- This rune. -/
def Rx.lit (r : Nat) : Rx := .cls ⟨false, [(r, r)]⟩

/-- The bytes that repeat what is before them. -/
def isRepeat (b : UInt8) : Bool := b == 0x2A || b == 0x2B || b == 0x3F

/-- At most `k` times: `(a(a...)?)?` -/
def Rx.upTo (a : Rx) : Nat → Rx
  | 0 => .empty
  | 1 => .opt a
  | k + 2 => .opt (.seq a (a.upTo (k + 1)))

/-- At least `n` times, and at most `k` times more. -/
def Rx.times (a : Rx) : Nat → Nat → Rx
  | 0, k => a.upTo k
  | n + 1, k => .seq a (a.times n k)

/-- `syntax.parser.parseInt`: decimal digits without superfluous zeros. -/
def rxInt (s : Bytes) : Option (Nat × Bytes) :=
  let ds := s.takeWhile fun b => 0x30 ≤ b.toNat && b.toNat ≤ 0x39
  if ds = [] ∨ (2 ≤ ds.length ∧ ds.head? = some 0x30) then none
  else some (ds.foldl (fun n b => 10 * n + (b.toNat - 0x30)) 0, s.drop ds.length)

/-- `syntax.parser.parseRepeat`, after the `{`, without `{n,}`. -/
def rxBraces (s : Bytes) : Option ((Nat × Nat) × Bytes) :=
  match rxInt s with
  | some (n, 0x7D :: s) => if n ≤ 1000 then some ((n, n), s) else none
  | some (n, 0x2C :: s) => match rxInt s with
    | some (m, 0x7D :: s) => if n ≤ m ∧ m ≤ 1000 then some ((n, m), s) else none
    | _ => none
  | _ => none

/-- No other repetition follows. -/
def rxOnce (a : Rx) (s : Bytes) : Option (Rx × Bytes) :=
  if (s.head?.map isRepeat).getD false || s.head? == some 0x7B then none else some (a, s)

/-- `*`, `+`, `?` and `{n,m}` after an expression (`syntax.parser.repeat`): one of them at most. -/
def rxRepeat (a : Rx) : Bytes → Option (Rx × Bytes)
  | b :: s =>
    if b = 0x7B then (rxBraces s).bind fun q => rxOnce (a.times q.1.1 (q.1.2 - q.1.1)) q.2
    else if isRepeat b then
      if b = 0x3F then rxOnce (.opt a) s
      else if a.nullable then none
      else if b = 0x2A then rxOnce (.star a) s else rxOnce (.plus a) s
    else some (a, b :: s)
  | [] => some (a, [])

/-- What the parser of expressions reads. -/
inductive RxKind where
  | alt
  | seq
  | atom

/-- `syntax.Parse`, as a recursive descent: alternatives, sequences, or what a repetition applies to. The first argument
bounds the number of steps. -/
def rxParse : Nat → RxKind → Bytes → Option (Rx × Bytes)
  | 0, _, _ => none
  | k + 1, .alt, s => do
    let (a, s) ← rxParse k .seq s
    match s with
    | 0x7C :: s => do
      let (b, s) ← rxParse k .alt s
      return (.alt a b, s)
    | s => return (a, s)
  | k + 1, .seq, s =>
    match s with
    | [] => some (.empty, [])
    | b :: t =>
      if b = 0x7C || b = 0x29 then some (.empty, b :: t)
      else do
        let (a, s) ← rxParse k .atom (b :: t)
        let (a, s) ← rxRepeat a s
        let (c, s) ← rxParse k .seq s
        return (.seq a c, s)
  | k + 1, .atom, s =>
    match s with
    | [] => none
    | b :: t =>
      if b = 0x28 then
        let t? := match t with
          | 0x3F :: 0x3A :: t => some t
          | 0x3F :: _ => none
          | t => some t
        match t?.bind (rxParse k .alt) with
          | some (a, 0x29 :: s) => some (a, s)
          | _ => none
      else if b = 0x5B then (rxClass t).map fun q => (.cls q.1, q.2)
      else if b = 0x2E then some (.cls ⟨true, [(0x0A, 0x0A)]⟩, t)
      else if b = 0x5E then some (.bol, t)
      else if b = 0x24 || b = 0x7B || isRepeat b then none
      else if b = 0x5C then match rxPerlEscape s with
        | some (rs, s) => some (.cls ⟨false, rs⟩, s)
        | none => (rxEscape t).map fun q => (.lit q.1, q.2)
      else (rxRune s).map fun q => (.lit q.1, q.2)

/-- `regexp.Compile` -/
def rxCompile (s : Bytes) : Option Rx :=
  match rxParse (4 * s.length + 4) .alt s with
  | some (r, []) => some r
  | _ => none

theorem Re.stars_length {a : Bytes → List Bytes} : ∀ {k : Nat} {s r : Bytes}, r ∈ Re.stars a k s → r.length ≤ s.length
  | 0, s, r, h => by simp only [Re.stars, List.mem_singleton] at h; exact Nat.le_of_eq (congrArg _ h)
  | k + 1, s, r, h => by
    simp only [Re.stars, List.mem_append, List.mem_flatMap, List.mem_filter, decide_eq_true_eq, List.mem_singleton] at h
    rcases h with ⟨m, ⟨_, hm⟩, h⟩ | h
    · exact Nat.le_trans (Re.stars_length h) (Nat.le_of_lt hm)
    · exact Nat.le_of_eq (congrArg _ h)

theorem Rx.run_length {n : Nat} : ∀ {x : Rx} {s r : Bytes}, r ∈ x.run n s → r.length ≤ s.length
  | .empty, s, r, h => by simp only [run, List.mem_singleton] at h; exact Nat.le_of_eq (congrArg _ h)
  | .cls c, s, r, h => by
    simp only [run] at h
    split at h
    · cases h
    · split at h
      · simp only [List.mem_singleton] at h; rw [h, List.length_drop]; omega
      · cases h
  | .bol, s, r, h => by
    simp only [run] at h
    split at h
    · simp only [List.mem_singleton] at h; exact Nat.le_of_eq (congrArg _ h)
    · cases h
  | .seq a b, s, r, h => by
    simp only [run, List.mem_flatMap] at h
    obtain ⟨m, h1, h2⟩ := h
    exact Nat.le_trans (run_length h2) (run_length h1)
  | .alt a b, s, r, h => by
    simp only [run, List.mem_append] at h
    rcases h with h | h <;> exact run_length h
  | .star a, s, r, h => Re.stars_length h
  | .plus a, s, r, h => by
    simp only [run, List.mem_flatMap] at h
    obtain ⟨m, h1, h2⟩ := h
    exact Nat.le_trans (Re.stars_length h2) (run_length h1)
  | .opt a, s, r, h => by
    simp only [run, List.mem_append, List.mem_singleton] at h
    rcases h with h | h
    · exact run_length h
    · exact Nat.le_of_eq (congrArg _ h)

theorem Rx.findFrom_bounds {r : Rx} {n : Nat} : ∀ {k off : Nat} {s : Bytes} {a b : Nat}, r.findFrom n k off s = some (a, b) →
    off ≤ a ∧ a ≤ b ∧ (b ≤ off + s.length)
  | k, off, s, a, b, h => by
    unfold findFrom at h
    split at h
    · cases h
      rename_i rest hr
      have := run_length (List.mem_of_head? hr)
      omega
    · split at h
      · cases h
      · split at h
        · cases h
        · rename_i hs
          obtain ⟨h1, h2, h3⟩ := findFrom_bounds h
          rw [List.length_drop] at h3
          have := decodeRune_width_le s
          omega

/-- A compiled regular expression. -/
def Rx.regex (r : Rx) : Regex where
  find s := r.findFrom s.length s.length 0 s
  bounds := fun s a b h => by
    have := Rx.findFrom_bounds h
    omega

/-- `regexp.Regexp.ReplaceAllString(s, "")` for an expression that has no `^` and does not match the empty text. The first
argument bounds the length. -/
def Rx.removeAll (x : Rx) : Nat → Bytes → Bytes
  | 0, s => s
  | k + 1, s =>
    if s = [] then []
    else match (x.run 0 s).head? with
      | some r => x.removeAll k r
      | none => s.take (decodeRune s).2 ++ x.removeAll k (s.drop (decodeRune s).2)

/-- parser_regex.go:20 -/
def goRx (s : Bytes) : Option Regex := (rxCompile ([0x28] ++ s ++ [0x29])).map Rx.regex

end Joeson
