import Verif.Proofs.Utf8
/-!
# Encoding and decoding round trips
-/

namespace Joeson
open Spec

theorem toNat_ofNat_small {n : Nat} (h : n < 256) : (UInt8.ofNat n).toNat = n := by
  simp [Nat.mod_eq_of_lt h]

theorem encodeRune_eq_utf8 {r : Nat} (h : Scalar r) : encodeRune r = (utf8Nat r).map UInt8.ofNat := by
  unfold Scalar at h
  unfold encodeRune utf8Nat
  by_cases h1 : r < 0x80
  · simp [h1]
  by_cases h2 : r < 0x800
  · simp [h1, h2]
  have h3 : (decide (r > 0x10FFFF) || (decide (0xD800 ≤ r) && decide (r ≤ 0xDFFF))) = false := by
    simp only [Bool.or_eq_false_iff, decide_eq_false_iff_not, Bool.and_eq_false_iff]
    omega
  simp only [h1, h2, h3, if_false, Bool.false_eq_true]
  by_cases h4 : r < 0x10000
  · simp [h4]
  · simp [h4]

theorem encodeRune_ne_nil (r : Nat) : encodeRune r ≠ [] := by
  unfold encodeRune
  repeat' split
  all_goals simp

theorem decodeRune_encodeRune {r : Nat} (h : Scalar r) (rest : Bytes) :
    decodeRune (encodeRune r ++ rest) = (r, (encodeRune r).length) := by
  rw [encodeRune_eq_utf8 h]
  unfold Scalar at h
  unfold utf8Nat
  by_cases h1 : r < 0x80
  · simp only [h1, if_true, List.map_cons, List.map_nil, List.cons_append, List.nil_append, decodeRune,
      List.length_cons, List.length_nil]
    rw [toNat_ofNat_small (by omega), if_pos h1]
  by_cases h2 : r < 0x800
  · simp only [h1, h2, if_true, if_false, List.map_cons, List.map_nil, List.cons_append, List.nil_append,
      decodeRune, List.length_cons, List.length_nil]
    have e0 : (UInt8.ofNat (0xC0 + r / 0x40)).toNat = 0xC0 + r / 0x40 := toNat_ofNat_small (by omega)
    have e1 : (UInt8.ofNat (0x80 + r % 0x40)).toNat = 0x80 + r % 0x40 := toNat_ofNat_small (by omega)
    have hl : leadInfo (UInt8.ofNat (0xC0 + r / 0x40)) = some (2, 0x80, 0xBF) := by
      unfold leadInfo
      rw [e0]
      simp only []
      rw [if_pos (by simp; omega)]
    rw [e0, if_neg (by omega), hl]
    simp only [inRange, e1]
    rw [if_neg (by simp; omega)]
    simp
    omega
  by_cases h4 : r < 0x10000
  · simp only [h1, h2, h4, if_true, if_false, List.map_cons, List.map_nil, List.cons_append, List.nil_append,
      decodeRune, List.length_cons, List.length_nil]
    have e0 : (UInt8.ofNat (0xE0 + r / 0x1000)).toNat = 0xE0 + r / 0x1000 := toNat_ofNat_small (by omega)
    have e1 : (UInt8.ofNat (0x80 + r / 0x40 % 0x40)).toNat = 0x80 + r / 0x40 % 0x40 := toNat_ofNat_small (by omega)
    have e2 : (UInt8.ofNat (0x80 + r % 0x40)).toNat = 0x80 + r % 0x40 := toNat_ofNat_small (by omega)
    have hl : ∃ lo hi, leadInfo (UInt8.ofNat (0xE0 + r / 0x1000)) = some (3, lo, hi) ∧
        lo ≤ 0x80 + r / 0x40 % 0x40 ∧ 0x80 + r / 0x40 % 0x40 ≤ hi := by
      unfold leadInfo
      rw [e0]
      simp only []
      rw [if_neg (by simp; omega)]
      by_cases ha : r / 0x1000 = 0
      · rw [if_pos (by simp; omega)]; exact ⟨_, _, rfl, by omega, by omega⟩
      rw [if_neg (by simp; omega)]
      by_cases hb : r / 0x1000 = 0xD
      · rw [if_pos (by simp; omega)]; exact ⟨_, _, rfl, by omega, by omega⟩
      rw [if_neg (by simp; omega), if_pos (by simp; omega)]
      exact ⟨_, _, rfl, by omega, by omega⟩
    obtain ⟨lo, hi, hl, hlo, hhi⟩ := hl
    rw [e0, if_neg (by omega), hl]
    simp only [inRange, e1, e2]
    rw [if_neg (by simp; omega)]
    simp only [show ((3:Nat) == 2) = false from rfl, Bool.false_eq_true, if_false]
    rw [if_neg (by simp; omega)]
    simp
    omega
  · simp only [h1, h2, h4, if_false, List.map_cons, List.map_nil, List.cons_append, List.nil_append,
      decodeRune, List.length_cons, List.length_nil]
    have e0 : (UInt8.ofNat (0xF0 + r / 0x40000)).toNat = 0xF0 + r / 0x40000 := toNat_ofNat_small (by omega)
    have e1 : (UInt8.ofNat (0x80 + r / 0x1000 % 0x40)).toNat = 0x80 + r / 0x1000 % 0x40 := toNat_ofNat_small (by omega)
    have e2 : (UInt8.ofNat (0x80 + r / 0x40 % 0x40)).toNat = 0x80 + r / 0x40 % 0x40 := toNat_ofNat_small (by omega)
    have e3 : (UInt8.ofNat (0x80 + r % 0x40)).toNat = 0x80 + r % 0x40 := toNat_ofNat_small (by omega)
    have hl : ∃ lo hi, leadInfo (UInt8.ofNat (0xF0 + r / 0x40000)) = some (4, lo, hi) ∧
        lo ≤ 0x80 + r / 0x1000 % 0x40 ∧ 0x80 + r / 0x1000 % 0x40 ≤ hi := by
      unfold leadInfo
      rw [e0]
      simp only []
      rw [if_neg (by simp; omega), if_neg (by simp; omega), if_neg (by simp; omega), if_neg (by simp; omega)]
      by_cases ha : r / 0x40000 = 0
      · rw [if_pos (by simp; omega)]; exact ⟨_, _, rfl, by omega, by omega⟩
      rw [if_neg (by simp; omega)]
      by_cases hb : r / 0x40000 = 4
      · rw [if_pos (by simp; omega)]; exact ⟨_, _, rfl, by omega, by omega⟩
      rw [if_neg (by simp; omega), if_pos (by simp; omega)]
      exact ⟨_, _, rfl, by omega, by omega⟩
    obtain ⟨lo, hi, hl, hlo, hhi⟩ := hl
    rw [e0, if_neg (by omega), hl]
    simp only [inRange, e1, e2, e3]
    rw [if_neg (by simp; omega)]
    simp only [show ((4:Nat) == 2) = false from rfl, show ((4:Nat) == 3) = false from rfl, Bool.false_eq_true, if_false]
    rw [if_neg (by simp; omega), if_neg (by simp; omega)]
    simp
    omega

/-- Shape of an encoded rune: a start byte followed by at most three continuation bytes; a single
byte is ASCII. -/
theorem encodeRune_shape {r : Nat} (h : Scalar r) :
    ∃ b cs, encodeRune r = b :: cs ∧ runeStart b = true ∧ cs.length ≤ 3 ∧
      (∀ c ∈ cs, runeStart c = false) ∧ (cs = [] → b.toNat < 0x80 ∧ r = b.toNat) := by
  rw [encodeRune_eq_utf8 h]
  unfold Scalar at h
  unfold utf8Nat
  have cont : ∀ n, n < 64 → runeStart (UInt8.ofNat (0x80 + n)) = false := by
    intro n hn
    unfold runeStart
    rw [toNat_ofNat_small (by omega)]
    simp; omega
  have start : ∀ n, n < 256 → (n < 0x80 ∨ 0xC0 ≤ n) → runeStart (UInt8.ofNat n) = true := by
    intro n hn h
    unfold runeStart
    rw [toNat_ofNat_small hn]
    simp; omega
  by_cases h1 : r < 0x80
  · simp only [h1, if_true]
    refine ⟨_, _, rfl, start _ (by omega) (by omega), by simp, by simp, fun _ => ?_⟩
    rw [toNat_ofNat_small (by omega)]; exact ⟨h1, rfl⟩
  by_cases h2 : r < 0x800
  · simp only [h1, h2, if_true, if_false]
    refine ⟨_, _, rfl, start _ (by omega) (by omega), by simp, ?_, by simp⟩
    intro c hc; simp only [List.map_cons, List.map_nil, List.mem_cons, List.not_mem_nil, or_false] at hc; subst hc; exact cont _ (by omega)
  by_cases h4 : r < 0x10000
  · simp only [h1, h2, h4, if_true, if_false]
    refine ⟨_, _, rfl, start _ (by omega) (by omega), by simp, ?_, by simp⟩
    intro c hc; simp only [List.map_cons, List.map_nil, List.mem_cons, List.not_mem_nil, or_false] at hc
    rcases hc with rfl | rfl <;> exact cont _ (by omega)
  · simp only [h1, h2, h4, if_false]
    refine ⟨_, _, rfl, start _ (by omega) (by omega), by simp, ?_, by simp⟩
    intro c hc; simp only [List.map_cons, List.map_nil, List.mem_cons, List.not_mem_nil, or_false] at hc
    rcases hc with rfl | rfl | rfl <;> exact cont _ (by omega)

/-- The backward search skips continuation bytes down to the start byte. -/
theorem lastStart_spec (s : Bytes) (lim k : Nat) (b : UInt8)
    (hb : s[k]? = some b) (hs : runeStart b = true) (hlim : lim ≤ k) :
    ∀ fuel start, k < start → start ≤ k + fuel →
      (∀ i, k < i → i < start → ∃ c, s[i]? = some c ∧ runeStart c = false) →
      lastStart s lim fuel start = k := by
  intro fuel
  induction fuel with
  | zero => intro start h1 h2; omega
  | succ fuel ih =>
    intro start h1 h2 hc
    obtain ⟨start, rfl⟩ : ∃ m, start = m + 1 := ⟨start - 1, by omega⟩
    simp only [lastStart]
    rw [if_neg (by omega)]
    by_cases hk : start = k
    · subst hk; rw [hb]; simp [hs]
    · obtain ⟨c, h3, h4⟩ := hc start (by omega) (by omega)
      rw [h3]
      simp only [h4]
      exact ih start (by omega) (by omega) (fun i a b => hc i a (by omega))

theorem decodeLastRune_encodeRune {r : Nat} (h : Scalar r) (pre : Bytes) :
    decodeLastRune (pre ++ encodeRune r) = (r, (encodeRune r).length) := by
  obtain ⟨b, cs, he, hs, h3, hc, hascii⟩ := encodeRune_shape h
  have hdec := decodeRune_encodeRune h []
  rw [List.append_nil] at hdec
  unfold decodeLastRune
  rcases List.eq_nil_or_concat cs with hcs | ⟨cs', c, hcs⟩
  · obtain ⟨h5, h6⟩ := hascii hcs
    rw [he, hcs]
    simp [h5, h6]
  · have hlast : (pre ++ encodeRune r).getLast? = some c := by
      rw [he, hcs, List.concat_eq_append, ← List.cons_append, ← List.append_assoc, List.getLast?_append]; rfl
    have hcc := hc c (by rw [hcs]; simp)
    rw [hlast]
    simp only
    have hc80 : ¬ c.toNat < 0x80 := by
      intro hlt
      unfold runeStart at hcc
      simp at hcc; omega
    rw [if_neg hc80]
    have hlen : (pre ++ encodeRune r).length = pre.length + 1 + cs.length := by
      rw [he]; simp; omega
    have hcslen : 1 ≤ cs.length := by rw [hcs]; simp
    have hst : lastStart (pre ++ encodeRune r) ((pre ++ encodeRune r).length - 4) 4
        ((pre ++ encodeRune r).length - 1) = pre.length := by
      rw [hlen]
      apply lastStart_spec _ _ _ b _ hs
      · omega
      · omega
      · omega
      · intro i h7 h8
        obtain ⟨j, rfl⟩ : ∃ j, i = pre.length + (j + 1) := ⟨i - pre.length - 1, by omega⟩
        rw [he, List.getElem?_append_right (by omega)]
        have : pre.length + (j + 1) - pre.length = j + 1 := by omega
        rw [this, List.getElem?_cons_succ]
        have hj : j < cs.length := by omega
        exact ⟨cs[j], List.getElem?_eq_getElem hj, hc _ (List.getElem_mem hj)⟩
      · rw [he]; simp
    simp only [hst, List.drop_left, hdec]
    rw [if_pos]
    simp

theorem utf8_nil : utf8 [] = [] := rfl
theorem utf8_cons (r : Nat) (rs : List Nat) :
    utf8 (r :: rs) = (utf8Nat r).map UInt8.ofNat ++ utf8 rs := rfl
theorem utf8_append (a b : List Nat) : utf8 (a ++ b) = utf8 a ++ utf8 b := by
  simp [utf8, List.flatMap_append]

/-- Encoded code points decode, in order, to themselves. -/
theorem rangeRunesAux_utf8 (rs : List Nat) (h : ∀ r ∈ rs, Scalar r) : ∀ off,
    (rangeRunesAux (utf8 rs).length off (utf8 rs)).map Prod.snd = rs := by
  induction rs with
  | nil => intro off; rfl
  | cons r rs ih =>
    intro off
    have hr := h r (by simp)
    rw [utf8_cons, ← encodeRune_eq_utf8 hr]
    obtain ⟨b, cs, he, -⟩ := encodeRune_shape hr
    have hd := decodeRune_encodeRune hr (utf8 rs)
    have hcons : encodeRune r ++ utf8 rs = b :: (cs ++ utf8 rs) := by rw [he]; rfl
    rw [hcons, rangeRunesAux_cons, ← hcons, hd]
    simp only [List.map_cons, List.drop_left]
    rw [ih (fun x hx => h x (by simp [hx]))]

theorem rangeRunes_utf8 (rs : List Nat) (h : ∀ r ∈ rs, Scalar r) :
    (rangeRunes (utf8 rs)).map Prod.snd = rs := rangeRunesAux_utf8 rs h 0

end Joeson
