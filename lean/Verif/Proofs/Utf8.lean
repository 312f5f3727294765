import Verif.Model.Utf8
import Verif.Spec.CodePoints
import Mathlib.Tactic.Linarith

namespace Joeson

theorem leadInfo_cases {b : UInt8} {w lo hi : Nat} (h : leadInfo b = some (w, lo, hi)) :
    0xC2 ≤ b.toNat ∧ 0x80 ≤ lo ∧ hi ≤ 0xBF ∧
    ((w = 2 ∧ b.toNat ≤ 0xDF) ∨ (w = 3 ∧ 0xE0 ≤ b.toNat ∧ b.toNat ≤ 0xEF ∧ (b.toNat ≠ 0xE0 ∨ lo = 0xA0)) ∨
     (w = 4 ∧ 0xF0 ≤ b.toNat ∧ (b.toNat ≠ 0xF0 ∨ lo = 0x90))) := by
  unfold leadInfo at h
  simp only [] at h
  repeat' split at h
  all_goals first
    | (simp at h; done)
    | (simp only [Option.some.injEq, Prod.mk.injEq] at h
       obtain ⟨rfl, rfl, rfl⟩ := h
       simp only [Bool.and_eq_true, decide_eq_true_eq, beq_iff_eq, true_and, or_true, and_true] at *
       omega)

theorem decodeRune_nil : decodeRune [] = (runeError, 0) := rfl

/-- Facts about one decoding step on non empty input. -/
theorem decodeRune_cons (b : UInt8) (s : Bytes) :
    let d := decodeRune (b :: s)
    1 ≤ d.2 ∧ d.2 ≤ 4 ∧ d.2 ≤ (b :: s).length ∧
    (∀ i, 1 ≤ i → i < d.2 → ∃ c, (b :: s)[i]? = some c ∧ 0x80 ≤ c.toNat) ∧
    (d.1 = 0x0A ↔ b = 0x0A) ∧ (b.toNat < 0x80 → d = (b.toNat, 1)) ∧ (0x80 ≤ b.toNat → 0x80 ≤ d.1) := by
  have hb0A : b = 0x0A ↔ b.toNat = 0x0A := by
    constructor
    · rintro rfl; rfl
    · intro h; exact UInt8.toNat_inj.mp (by simpa using h)
  simp only [decodeRune]
  by_cases hlt : b.toNat < 0x80
  · simp only [hlt, if_true]
    refine ⟨by omega, by omega, by simp, ?_, hb0A.symm, by simp, by omega⟩
    intro i h1 h2; omega
  · simp only [hlt, if_false]
    have err : ∀ n : Nat, n = runeError → (n = 0x0A ↔ b = 0x0A) := by
      intro n hn; rw [hb0A, hn]; simp [runeError]; omega
    have errCase : 1 ≤ (runeError, 1).2 ∧ (runeError, 1).2 ≤ 4 ∧ (runeError, 1).2 ≤ (b :: s).length ∧
        (∀ i, 1 ≤ i → i < (runeError, 1).2 → ∃ c, (b :: s)[i]? = some c ∧ 0x80 ≤ c.toNat) ∧
        ((runeError, 1).1 = 0x0A ↔ b = 0x0A) ∧ (False → ((runeError, 1) : Nat × Nat) = (b.toNat, 1)) ∧
        (0x80 ≤ b.toNat → 0x80 ≤ (runeError, 1).1) := by
      refine ⟨by simp, by simp, by simp, ?_, err _ rfl, by simp, by simp [runeError]⟩
      intro i h1 h2; simp at h2; omega
    cases hl : leadInfo b with
    | none => exact errCase
    | some t =>
      obtain ⟨w, lo, hi⟩ := t
      have hc := leadInfo_cases hl
      simp only
      cases s with
      | nil => exact errCase
      | cons b1 r1 =>
        simp only
        by_cases h1 : inRange b1 lo hi = true
        · simp only [h1, Bool.not_true, Bool.false_eq_true, if_false]
          simp only [inRange, Bool.and_eq_true, decide_eq_true_eq] at h1
          by_cases hw2 : w = 2
          · subst hw2
            simp only [beq_self_eq_true, if_true]
            refine ⟨by omega, by omega, by simp, ?_, ?_, by simp, by omega⟩
            · intro i hi1 hi2
              obtain rfl : i = 1 := by omega
              exact ⟨b1, by simp, by omega⟩
            · rw [hb0A]; omega
          · have : (w == 2) = false := by simpa using hw2
            simp only [this, Bool.false_eq_true, if_false]
            cases r1 with
            | nil => exact errCase
            | cons b2 r2 =>
              simp only
              by_cases h2 : inRange b2 0x80 0xBF = true
              · simp only [h2, Bool.not_true, Bool.false_eq_true, if_false]
                simp only [inRange, Bool.and_eq_true, decide_eq_true_eq] at h2
                by_cases hw3 : w = 3
                · subst hw3
                  simp only [beq_self_eq_true, if_true]
                  refine ⟨by omega, by omega, by simp, ?_, ?_, by simp, by omega⟩
                  · intro i hi1 hi2
                    have : i = 1 ∨ i = 2 := by omega
                    rcases this with rfl | rfl
                    · exact ⟨b1, by simp, by omega⟩
                    · exact ⟨b2, by simp, by omega⟩
                  · rw [hb0A]; omega
                · have : (w == 3) = false := by simpa using hw3
                  simp only [this, Bool.false_eq_true, if_false]
                  cases r2 with
                  | nil => exact errCase
                  | cons b3 r3 =>
                    simp only
                    by_cases h3 : inRange b3 0x80 0xBF = true
                    · simp only [h3, Bool.not_true, Bool.false_eq_true, if_false]
                      simp only [inRange, Bool.and_eq_true, decide_eq_true_eq] at h3
                      refine ⟨by omega, by omega, by simp, ?_, ?_, by simp, by omega⟩
                      · intro i hi1 hi2
                        have : i = 1 ∨ i = 2 ∨ i = 3 := by omega
                        rcases this with rfl | rfl | rfl
                        · exact ⟨b1, by simp, by omega⟩
                        · exact ⟨b2, by simp, by omega⟩
                        · exact ⟨b3, by simp, by omega⟩
                      · rw [hb0A]; omega
                    · simp only [Bool.not_eq_true] at h3
                      simp only [h3, Bool.not_false, if_true]; exact errCase
              · simp only [Bool.not_eq_true] at h2
                simp only [h2, Bool.not_false, if_true]; exact errCase
        · simp only [Bool.not_eq_true] at h1
          simp only [h1, Bool.not_false, if_true]; exact errCase

theorem decodeRune_width_pos {s : Bytes} (h : s ≠ []) : 1 ≤ (decodeRune s).2 := by
  cases s with
  | nil => exact absurd rfl h
  | cons b s => exact (decodeRune_cons b s).1

theorem decodeRune_width_le (s : Bytes) : (decodeRune s).2 ≤ s.length := by
  cases s with
  | nil => simp [decodeRune]
  | cons b s => exact (decodeRune_cons b s).2.2.1

/-- More fuel does not change a `for range` loop. -/
theorem rangeRunesAux_fuel (f : Nat) : ∀ (s : Bytes) (off : Nat), s.length ≤ f →
    rangeRunesAux f off s = rangeRunesAux s.length off s := by
  induction f using Nat.strong_induction_on with
  | _ f ih =>
    intro s off h
    cases s with
    | nil => cases f <;> simp [rangeRunesAux]
    | cons b s =>
      cases f with
      | zero => simp at h
      | succ f =>
        have hw := decodeRune_cons b s
        simp only at hw
        obtain ⟨h1, _, h3, _⟩ := hw
        simp only [List.length_cons, rangeRunesAux]
        have hl : ((b :: s).drop (decodeRune (b :: s)).2).length ≤ s.length := by
          simp only [List.length_drop, List.length_cons]; omega
        have hf : s.length ≤ f := by simpa using h
        rw [ih f (by omega) _ _ (by omega)]
        congr 1
        by_cases hsf : s.length = f
        · rw [ih s.length (by omega) _ _ hl]
        · rw [ih s.length (by omega) _ _ hl]

theorem rangeRunes_nil : rangeRunes [] = [] := rfl

/-- Unfolding of a `for range` loop with offsets relative to `off`. -/
theorem rangeRunesAux_cons (off : Nat) (b : UInt8) (s : Bytes) :
    rangeRunesAux (b :: s).length off (b :: s) =
      (off, (decodeRune (b :: s)).1) ::
        rangeRunesAux ((b :: s).drop (decodeRune (b :: s)).2).length (off + (decodeRune (b :: s)).2)
          ((b :: s).drop (decodeRune (b :: s)).2) := by
  have hw := (decodeRune_cons b s).1
  conv_lhs => simp only [List.length_cons, rangeRunesAux]
  rw [rangeRunesAux_fuel s.length]
  simp only [List.length_drop, List.length_cons]; omega

/-- Offsets after each newline byte: the specification of line starts. -/
def newlineEnds : Nat → Bytes → List Nat
  | _, [] => []
  | off, b :: s => if b = 0x0A then (off + 1) :: newlineEnds (off + 1) s else newlineEnds (off + 1) s

theorem newlineEnds_append (off : Nat) (a b : Bytes) :
    newlineEnds off (a ++ b) = newlineEnds off a ++ newlineEnds (off + a.length) b := by
  induction a generalizing off with
  | nil => simp [newlineEnds]
  | cons x a ih =>
    simp only [List.cons_append, newlineEnds, ih, List.length_cons]
    split <;> simp [Nat.add_assoc, Nat.add_comm 1]

theorem newlineEnds_of_no_newline (off : Nat) (a : Bytes) (h : ∀ x ∈ a, x ≠ 0x0A) :
    newlineEnds off a = [] := by
  induction a generalizing off with
  | nil => rfl
  | cons x a ih =>
    simp only [newlineEnds]
    rw [if_neg (h x (by simp)), ih _ (fun y hy => h y (by simp [hy]))]

/-- The rune loop sees exactly the newline bytes. -/
theorem rangeRunes_newlines (s : Bytes) : ∀ off,
    ((rangeRunesAux s.length off s).filter (fun p => p.2 == 0x0A)).map (fun p => (p.1 + 1))
      = newlineEnds off s := by
  induction hn : s.length using Nat.strong_induction_on generalizing s with
  | _ n ih =>
    intro off
    subst hn
    cases s with
    | nil => rfl
    | cons b s =>
      rw [rangeRunesAux_cons]
      have hc := decodeRune_cons b s
      simp only at hc
      obtain ⟨h1, h4, hle, hcont, hnl, -, -⟩ := hc
      generalize hd : decodeRune (b :: s) = d at *
      obtain ⟨r, w⟩ := d
      simp only at *
      have hsplit : b :: s = ((b :: s).take w) ++ (b :: s).drop w := (List.take_append_drop _ _).symm
      have hrec := ih ((b :: s).drop w).length (by simp only [List.length_drop, List.length_cons]; omega)
        ((b :: s).drop w) rfl (off + w)
      have htake : (b :: s).take w = b :: s.take (w - 1) := by
        obtain ⟨w', rfl⟩ : ∃ w', w = w' + 1 := ⟨w - 1, by omega⟩
        simp
      have hnone : newlineEnds (off + 1) (s.take (w - 1)) = [] := by
        apply newlineEnds_of_no_newline
        intro x hx
        obtain ⟨i, hi, rfl⟩ := List.getElem_of_mem hx
        simp only [List.length_take] at hi
        obtain ⟨c, hc1, hc2⟩ := hcont (i + 1) (by omega) (by omega)
        simp only [List.getElem?_cons_succ] at hc1
        rw [List.getElem_take]
        have : s[i]? = some s[i] := List.getElem?_eq_getElem (by omega)
        rw [this] at hc1
        simp only [Option.some.injEq] at hc1
        rw [hc1]
        rintro rfl
        simp at hc2
      conv_rhs => rw [hsplit]
      rw [newlineEnds_append]
      have hlen : ((b :: s).take w).length = w := by rw [List.length_take]; omega
      rw [hlen]
      rw [← hrec, htake]
      simp only [newlineEnds, hnone, List.filter_cons]
      by_cases hb : b = 0x0A
      · have : r = 0x0A := hnl.mpr hb
        simp [hb, this]
      · have : r ≠ 0x0A := fun h => hb (hnl.mp h)
        simp [hb, this]

end Joeson
