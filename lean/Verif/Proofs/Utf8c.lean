import Verif.Proofs.Utf8b
/-!
# Soundness of decoding: what decodes without error is well formed
-/

namespace Joeson
open Spec

theorem leadInfo_exact {b : UInt8} {w lo hi : Nat} (h : leadInfo b = some (w, lo, hi)) :
    (w = 2 ∧ 0xC2 ≤ b.toNat ∧ b.toNat ≤ 0xDF ∧ lo = 0x80 ∧ hi = 0xBF) ∨
    (w = 3 ∧ 0xE0 ≤ b.toNat ∧ b.toNat ≤ 0xEF ∧ 0x80 ≤ lo ∧ hi ≤ 0xBF ∧
      (b.toNat ≠ 0xE0 ∨ lo = 0xA0) ∧ (b.toNat ≠ 0xED ∨ hi = 0x9F)) ∨
    (w = 4 ∧ 0xF0 ≤ b.toNat ∧ b.toNat ≤ 0xF4 ∧ 0x80 ≤ lo ∧ hi ≤ 0xBF ∧
      (b.toNat ≠ 0xF0 ∨ lo = 0x90) ∧ (b.toNat ≠ 0xF4 ∨ hi = 0x8F)) := by
  unfold leadInfo at h
  simp only [] at h
  repeat' split at h
  all_goals first
    | (simp at h; done)
    | (simp only [Option.some.injEq, Prod.mk.injEq] at h
       obtain ⟨rfl, rfl, rfl⟩ := h
       simp only [Bool.and_eq_true, decide_eq_true_eq, beq_iff_eq, true_and, or_true, and_true] at *
       omega)

theorem ofNat_eq_of_toNat {b : UInt8} {n : Nat} (h : n = b.toNat) : UInt8.ofNat n = b := by
  subst h; simp

/-- What decodes without error is the encoding of a scalar value. -/
theorem decodeRune_sound {s : Bytes} (h : (decodeRune s).1 ≠ runeError) :
    Scalar (decodeRune s).1 ∧ s.take (decodeRune s).2 = encodeRune (decodeRune s).1 := by
  cases s with
  | nil => simp [decodeRune] at h
  | cons b s =>
    simp only [decodeRune] at h ⊢
    by_cases hlt : b.toNat < 0x80
    · simp only [hlt, if_true] at h ⊢
      refine ⟨Or.inl (by omega), ?_⟩
      unfold encodeRune
      simp [hlt]
    simp only [hlt, if_false] at h ⊢
    cases hl : leadInfo b with
    | none => simp [hl] at h
    | some t =>
      obtain ⟨w, lo, hi⟩ := t
      have hc := leadInfo_exact hl
      simp only [hl] at h ⊢
      cases s with
      | nil => simp at h
      | cons b1 r1 =>
        simp only at h ⊢
        by_cases h1 : inRange b1 lo hi = true
        swap
        · simp [h1] at h
        simp only [h1, Bool.not_true, Bool.false_eq_true, if_false] at h ⊢
        simp only [inRange, Bool.and_eq_true, decide_eq_true_eq] at h1
        by_cases hw2 : w = 2
        · subst hw2
          simp only [beq_self_eq_true, if_true] at h ⊢
          have hsc : Scalar ((b.toNat - 0xC0) * 64 + (b1.toNat - 0x80)) := Or.inl (by omega)
          refine ⟨hsc, ?_⟩
          rw [encodeRune_eq_utf8 hsc]
          unfold utf8Nat
          rw [if_neg (by omega), if_pos (by omega)]
          simp only [List.take_succ_cons, List.take_zero, List.map_cons, List.map_nil]
          rw [ofNat_eq_of_toNat (b := b) (by omega), ofNat_eq_of_toNat (b := b1) (by omega)]
        have hw2' : (w == 2) = false := by simpa using hw2
        simp only [hw2', Bool.false_eq_true, if_false] at h ⊢
        cases r1 with
        | nil => simp at h
        | cons b2 r2 =>
          simp only at h ⊢
          by_cases h2 : inRange b2 0x80 0xBF = true
          swap
          · simp [h2] at h
          simp only [h2, Bool.not_true, Bool.false_eq_true, if_false] at h ⊢
          simp only [inRange, Bool.and_eq_true, decide_eq_true_eq] at h2
          by_cases hw3 : w = 3
          · subst hw3
            simp only [beq_self_eq_true, if_true] at h ⊢
            have hsc : Scalar ((b.toNat - 0xE0) * 4096 + (b1.toNat - 0x80) * 64 + (b2.toNat - 0x80)) := by
              unfold Scalar; omega
            refine ⟨hsc, ?_⟩
            rw [encodeRune_eq_utf8 hsc]
            unfold utf8Nat
            rw [if_neg (by omega), if_neg (by omega), if_pos (by omega)]
            simp only [List.take_succ_cons, List.take_zero, List.map_cons, List.map_nil]
            rw [ofNat_eq_of_toNat (b := b) (by omega), ofNat_eq_of_toNat (b := b1) (by omega),
              ofNat_eq_of_toNat (b := b2) (by omega)]
          have hw3' : (w == 3) = false := by simpa using hw3
          simp only [hw3', Bool.false_eq_true, if_false] at h ⊢
          cases r2 with
          | nil => simp at h
          | cons b3 r3 =>
            simp only at h ⊢
            by_cases h3 : inRange b3 0x80 0xBF = true
            swap
            · simp [h3] at h
            simp only [h3, Bool.not_true, Bool.false_eq_true, if_false] at h ⊢
            simp only [inRange, Bool.and_eq_true, decide_eq_true_eq] at h3
            have hsc : Scalar ((b.toNat - 0xF0) * 262144 + (b1.toNat - 0x80) * 4096
                + (b2.toNat - 0x80) * 64 + (b3.toNat - 0x80)) := by
              unfold Scalar; omega
            refine ⟨hsc, ?_⟩
            rw [encodeRune_eq_utf8 hsc]
            unfold utf8Nat
            rw [if_neg (by omega), if_neg (by omega), if_neg (by omega)]
            simp only [List.take_succ_cons, List.take_zero, List.map_cons, List.map_nil]
            rw [ofNat_eq_of_toNat (b := b) (by omega), ofNat_eq_of_toNat (b := b1) (by omega),
              ofNat_eq_of_toNat (b := b2) (by omega), ofNat_eq_of_toNat (b := b3) (by omega)]

/-- What decodes backwards without error ends with the encoding of a scalar value. -/
theorem decodeLastRune_sound {s : Bytes} (h : (decodeLastRune s).1 ≠ runeError) :
    Scalar (decodeLastRune s).1 ∧ (decodeLastRune s).2 ≤ s.length ∧
    s.drop (s.length - (decodeLastRune s).2) = encodeRune (decodeLastRune s).1 := by
  unfold decodeLastRune at h ⊢
  rcases List.eq_nil_or_concat s with rfl | ⟨s', b, rfl⟩
  · simp at h
  · simp only [List.concat_eq_append, List.getLast?_append, List.getLast?_singleton, Option.some_or] at h ⊢
    by_cases hlt : b.toNat < 0x80
    · simp only [hlt, if_true] at h ⊢
      refine ⟨Or.inl (by omega), by simp, ?_⟩
      unfold encodeRune
      simp [hlt]
    · simp only [hlt, if_false] at h ⊢
      generalize lastStart (s' ++ [b]) ((s' ++ [b]).length - 4) 4 ((s' ++ [b]).length - 1) = st at h ⊢
      by_cases he : (st + (decodeRune ((s' ++ [b]).drop st)).2 == (s' ++ [b]).length) = true
      · simp only [he, if_true] at h ⊢
        have hs := decodeRune_sound h
        simp only [beq_iff_eq] at he
        refine ⟨hs.1, by omega, ?_⟩
        rw [← he, Nat.add_sub_cancel]
        rw [← hs.2, List.take_of_length_le]
        rw [List.length_drop]; omega
      · rw [if_neg he] at h; exact absurd rfl h

end Joeson
