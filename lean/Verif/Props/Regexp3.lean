import Verif.Props.Regexp
/-!
# C88: backslashes outside of classes
-/

namespace Joeson

/-- What `\b` stands for outside of a class: the characters it matches. -/
inductive EscapeOf : UInt8 → List (Nat × Nat) → Prop
  /-- `\a \f \n \r \t \v` -/
  | control (b : UInt8) (c : Nat) : (b, c) ∈ List.zip (asc "afnrtv") [0x07, 0x0C, 0x0A, 0x0D, 0x09, 0x0B] → EscapeOf b [(c, c)]
  /-- ASCII characters that are neither letters nor digits stand for themselves -/
  | self (b : UInt8) : b < 0x80 → b ∉ asc "abcdefghijklmnopqrstuvwxyzABCDEFGHIJKLMNOPQRSTUVWXYZ0123456789" → EscapeOf b [(b.toNat, b.toNat)]

/-- C88: outside of a class `\` and a character match the character that it stands for, and nothing else; `\d`, `\s`, `\w` match digits, blanks, and
letters, digits and `_`, in capitals everything else. -/
theorem C88_escapes : (∀ b l, EscapeOf b l → rxCompile ([0x28] ++ [0x5C, b] ++ [0x29]) = some (.seq (.seq (.cls ⟨false, l⟩) .empty) .empty)) ∧
    ∀ b neg p, (b, neg, p) ∈ [((0x64 : UInt8), false, fun r => 0x30 ≤ r ∧ r ≤ 0x39), (0x44, true, fun r => 0x30 ≤ r ∧ r ≤ 0x39),
        (0x73, false, fun r => r ∈ [0x09, 0x0A, 0x0C, 0x0D, 0x20]), (0x53, true, fun r => r ∈ [0x09, 0x0A, 0x0C, 0x0D, 0x20]),
        (0x77, false, fun r => (0x30 ≤ r ∧ r ≤ 0x39) ∨ (0x41 ≤ r ∧ r ≤ 0x5A) ∨ r = 0x5F ∨ (0x61 ≤ r ∧ r ≤ 0x7A)),
        (0x57, true, fun r => (0x30 ≤ r ∧ r ≤ 0x39) ∨ (0x41 ≤ r ∧ r ≤ 0x5A) ∨ r = 0x5F ∨ (0x61 ≤ r ∧ r ≤ 0x7A))] →
      ∃ c : RuneClass, rxCompile ([0x28] ++ [0x5C, b] ++ [0x29]) = some (.seq (.seq (.cls c) .empty) .empty) ∧
        ∀ r, r ≤ 0x10FFFF → (c.has r = true ↔ if neg then ¬ p r else p r) := by
  refine ⟨?_, ?_⟩
  · intro b l h
    cases h with
    | control c h =>
      have : ∀ x ∈ List.zip (asc "afnrtv") [0x07, 0x0C, 0x0A, 0x0D, 0x09, 0x0B],
          rxCompile ([0x28] ++ [0x5C, x.1] ++ [0x29]) = some (.seq (.seq (.cls ⟨false, [(x.2, x.2)]⟩) .empty) .empty) := by decide +kernel
      exact this (b, c) h
    | self h1 h2 =>
      have : ∀ n : Fin 128, UInt8.ofNat n.val ∉ asc "abcdefghijklmnopqrstuvwxyzABCDEFGHIJKLMNOPQRSTUVWXYZ0123456789" →
          rxCompile ([0x28] ++ [0x5C, UInt8.ofNat n.val] ++ [0x29]) =
            some (.seq (.seq (.cls ⟨false, [((UInt8.ofNat n.val).toNat, (UInt8.ofNat n.val).toNat)]⟩) .empty) .empty) := by decide +kernel
      have hb : UInt8.ofNat b.toNat = b := UInt8.ofNat_toNat
      have := this ⟨b.toNat, UInt8.lt_iff_toNat_lt.mp h1⟩
      simp only [hb] at this
      exact this h2
  · intro b neg p h
    simp only [List.mem_cons, List.not_mem_nil, or_false, Prod.mk.injEq] at h
    rcases h with ⟨rfl, rfl, rfl⟩ | ⟨rfl, rfl, rfl⟩ | ⟨rfl, rfl, rfl⟩ | ⟨rfl, rfl, rfl⟩ | ⟨rfl, rfl, rfl⟩ | ⟨rfl, rfl, rfl⟩
    · refine ⟨⟨false, [(0x30, 0x39)]⟩, by decide +kernel, fun r hr => ?_⟩
      simp [RuneClass.has]
    · refine ⟨⟨false, [(0x00, 0x2F), (0x3A, 0x10FFFF)]⟩, by decide +kernel, fun r hr => ?_⟩
      simp [RuneClass.has]
      omega
    · refine ⟨⟨false, [(0x09, 0x0A), (0x0C, 0x0D), (0x20, 0x20)]⟩, by decide +kernel, fun r hr => ?_⟩
      simp [RuneClass.has]
      omega
    · refine ⟨⟨false, [(0x00, 0x08), (0x0B, 0x0B), (0x0E, 0x1F), (0x21, 0x10FFFF)]⟩, by decide +kernel, fun r hr => ?_⟩
      simp [RuneClass.has]
      omega
    · refine ⟨⟨false, [(0x30, 0x39), (0x41, 0x5A), (0x5F, 0x5F), (0x61, 0x7A)]⟩, by decide +kernel, fun r hr => ?_⟩
      simp [RuneClass.has]
      omega
    · refine ⟨⟨false, [(0x00, 0x2F), (0x3A, 0x40), (0x5B, 0x5E), (0x60, 0x60), (0x7B, 0x10FFFF)]⟩, by decide +kernel, fun r hr => ?_⟩
      simp [RuneClass.has]
      omega

/-- C88: no other letter or digit may follow a backslash, if it may not in Go: such a rule text is refused. -/
theorem C88_bad_escapes : ∀ b ∈ asc "ceghijklmoquyFGHIJKLMNORTUVXYZ123456789", goRx [0x5C, b] = none := by
  have : ∀ b ∈ asc "ceghijklmoquyFGHIJKLMNORTUVXYZ123456789", rxCompile ([0x28] ++ [0x5C, b] ++ [0x29]) = none := by decide +kernel
  intro b hb
  unfold goRx
  rw [this b hb]
  rfl

example : EscapeOf 0x6E [(0x0A, 0x0A)] ∧ EscapeOf 0x2E [(0x2E, 0x2E)] ∧ (0x5A : UInt8) ∈ asc "ceghijklmoquyFGHIJKLMNORTUVXYZ123456789" :=
  ⟨.control _ _ (by decide), .self _ (by decide) (by decide), by decide⟩

end Joeson
