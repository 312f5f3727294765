import Verif.Model.GrammarParse
import Verif.Proofs.Streams
import Verif.Props.Helpers
/-! # The error report never panics; which rows it selects -/

namespace Joeson
open Spec
variable {V H : Type}

theorem scanRow_spec (s : St V H) (pos : Nat) : ∀ n,
    ((scanRow s pos n).1 = true ↔ ∃ i, i < n ∧ (s.table pos i).isSome) ∧
    ((scanRow s pos n).2 = true ↔ ∃ i a, i < n ∧ s.table pos i = some a ∧ (s.heap a).result.isSome)
  | 0 => by simp [scanRow]
  | n + 1 => by
    obtain ⟨h1, h2⟩ := scanRow_spec s pos n
    rw [scanRow]
    cases ht : s.table pos n with
    | none =>
      dsimp only
      constructor
      · rw [h1]
        constructor
        · rintro ⟨i, hi, h⟩; exact ⟨i, by omega, h⟩
        · rintro ⟨i, hi, h⟩
          refine ⟨i, ?_, h⟩
          rcases Nat.lt_succ_iff_lt_or_eq.mp hi with h' | h'
          · exact h'
          · subst h'; rw [ht] at h; simp at h
      · rw [h2]
        constructor
        · rintro ⟨i, a, hi, h⟩; exact ⟨i, a, by omega, h⟩
        · rintro ⟨i, a, hi, h⟩
          refine ⟨i, a, ?_, h⟩
          rcases Nat.lt_succ_iff_lt_or_eq.mp hi with h' | h'
          · exact h'
          · subst h'; rw [ht] at h; simp at h
    | some x =>
      dsimp only
      constructor
      · simp only [true_iff]
        exact ⟨n, by omega, by rw [ht]; rfl⟩
      · rw [Bool.or_eq_true, h2]
        constructor
        · rintro (⟨i, a, hi, h⟩ | h)
          · exact ⟨i, a, by omega, h⟩
          · exact ⟨n, x, by omega, ht, h⟩
        · rintro ⟨i, a, hi, hta, h⟩
          rcases Nat.lt_succ_iff_lt_or_eq.mp hi with h' | h'
          · exact Or.inl ⟨i, a, h', hta, h⟩
          · subst h'; rw [ht] at hta; injection hta with hta; subst hta; exact Or.inr h

/-- A frame exists at `p`. -/
def Attempted (s : St V H) (n p : Nat) : Prop := ∃ i, i < n ∧ (s.table p i).isSome

/-- A frame with a result exists at `p`. -/
def Succeeded (s : St V H) (n p : Nat) : Prop :=
  ∃ i a, i < n ∧ s.table p i = some a ∧ (s.heap a).result.isSome

theorem scanRows_spec (s : St V H) (n : Nat) : ∀ (cnt pos att suc : Nat), suc ≤ att → att ≤ pos →
    let r := scanRows s n pos cnt (att, suc)
    suc ≤ r.2 ∧ r.2 ≤ r.1 ∧ att ≤ r.1 ∧ (r.1 = att ∨ (pos ≤ r.1 ∧ r.1 < pos + cnt ∧ Attempted s n r.1)) ∧
    (r.2 = suc ∨ (pos ≤ r.2 ∧ r.2 < pos + cnt ∧ Succeeded s n r.2)) ∧
    (∀ q, pos ≤ q → q < pos + cnt → Attempted s n q → q ≤ r.1) ∧
    (∀ q, pos ≤ q → q < pos + cnt → Succeeded s n q → q ≤ r.2)
  | 0, pos, att, suc, h1, h2 => by
    simp only [scanRows]
    refine ⟨Nat.le_refl _, h1, Nat.le_refl _, Or.inl trivial, Or.inl trivial, ?_, ?_⟩ <;> intro q _ _ <;> omega
  | cnt + 1, pos, att, suc, h1, h2 => by
    obtain ⟨ha, hb⟩ := scanRow_spec s pos n
    simp only [scanRows]
    have himp : (scanRow s pos n).2 = true → (scanRow s pos n).1 = true := by
      rw [ha, hb]
      rintro ⟨i, a, hi, ht, _⟩
      exact ⟨i, hi, by rw [ht]; rfl⟩
    generalize (scanRow s pos n).1 = A at *
    generalize (scanRow s pos n).2 = B at *
    have hle : (if B = true then pos else suc) ≤ (if A = true then pos else att) := by
      cases B <;> cases A <;> simp_all <;> omega
    have hle2 : (if A = true then pos else att) ≤ pos + 1 := by cases A <;> simp <;> omega
    have ih := scanRows_spec s n cnt (pos + 1) _ _ hle hle2
    generalize scanRows s n (pos + 1) cnt (if A = true then pos else att, if B = true then pos else suc) = r at *
    obtain ⟨i1, i2, i3, i4, i5, i6, i7⟩ := ih
    refine ⟨?_, i2, ?_, ?_, ?_, ?_, ?_⟩
    · cases B <;> simp at i1 <;> omega
    · cases A <;> simp at i3 <;> omega
    · rcases i4 with h | ⟨h, h', h''⟩
      · cases hA : A with
        | true => rw [hA] at h; simp at h; right; rw [h]; exact ⟨Nat.le_refl _, by omega, ha.mp hA⟩
        | false => rw [hA] at h; simp at h; exact Or.inl h
      · exact Or.inr ⟨by omega, by omega, h''⟩
    · rcases i5 with h | ⟨h, h', h''⟩
      · cases hB : B with
        | true => rw [hB] at h; simp at h; right; rw [h]; exact ⟨Nat.le_refl _, by omega, hb.mp hB⟩
        | false => rw [hB] at h; simp at h; exact Or.inl h
      · exact Or.inr ⟨by omega, by omega, h''⟩
    · intro q hq hq' hatt
      by_cases hqp : q = pos
      · subst hqp
        have := ha.mpr hatt
        subst this
        simp at i3
        omega
      · exact i6 q (by omega) (by omega) hatt
    · intro q hq hq' hsuc
      by_cases hqp : q = pos
      · subst hqp
        have := hb.mpr hsuc
        subst this
        simp at i1
        omega
      · exact i7 q (by omega) (by omega) hsuc

theorem lines_length (t : Bytes) : (lines t).length = newlines t + 1 := by
  induction t with
  | nil => simp [lines, newlines]
  | cons b t ih =>
    unfold lines newlines
    rw [List.count_cons]
    unfold newlines at ih
    by_cases hb : b = 0x0A
    · subst hb; simp [ih]
    · rw [if_neg hb]
      have hb' : (b == 0x0A) = false := by simpa using hb
      cases hl : lines t with
      | nil => exact absurd hl (lines_ne_nil t)
      | cons l ls => rw [hl] at ih; simp only [List.length_cons] at ih ⊢; rw [hb']; simp; omega

theorem newlines_take_le (t : Bytes) (p : Nat) : newlines (t.take p) ≤ newlines t :=
  List.Sublist.count_le _ (List.take_sublist p t)

theorem peekLines_one_ok (c : RuneStream) (hc : c.Valid) (n : Int) (hn : n = -2 ∨ n = 2) :
    ∃ r, c.peekLines [n] = .ok r := by
  have := C08_peekLines_partial c hc n []
  simp only [if_true, List.foldl_cons, List.foldl_nil] at this
  have hl := lines_length c.text
  have hle := newlines_take_le c.text c.pos
  refine ⟨_, this ?_ ?_⟩
  · rw [hl]; rcases hn with h | h <;> subst h <;> omega
  · rcases hn with h | h <;> subst h <;> omega

theorem peekRunes_nonneg_ok (c : RuneStream) (hc : c.Valid) (n : Int) (hn : 0 ≤ n) :
    ∃ r, c.peekRunes n = .ok r := by
  by_cases h : n = 0
  · subst h
    unfold RuneStream.peekRunes
    have hs : goSlice c.text 0 (c.pos : Int) = .ok (c.text.take c.pos) := by
      have := goSlice_ok c.text 0 c.pos (by omega) hc.inside
      simpa using this
    rw [if_pos (by omega), hs]
    exact ⟨_, rfl⟩
  · exact C07_peek_forward_total c hc n (by omega)

theorem runeReport_ok (text : Bytes) (pos suc att : Nat) (h1 : pos ≤ suc) (h2 : suc ≤ att)
    (h3 : att ≤ text.length) : ∃ r, runeReport text pos suc att = .ok r ∧ r.char = suc ∧
      r.line = newlines (text.take suc) ∧ r.col = ((afterLastNewline (text.take suc)).length : Int) := by
  have hv := runeAt_valid text (p := pos) (by omega)
  unfold runeReport
  extract_lets c
  subst c
  obtain ⟨hline, hcol⟩ := C02_line_col (runeAt text pos) hv suc (by show suc ≤ text.length; omega)
  rw [hcol]
  unfold RuneStream.printSlices
  simp only [C14_sliceString_js]
  obtain ⟨ok, hok⟩ := peekLines_one_ok _ hv (-2) (Or.inl rfl)
  rw [hok]
  obtain ⟨par, hpar⟩ := peekRunes_nonneg_ok _ hv ((suc : Int) - (pos : Int)) (by omega)
  rw [hpar]
  have hset : ∀ p q : Nat, q ≤ text.length → (runeAt text p).setPos (q : Int) = .ok (runeAt text q) := by
    intro p q hq
    unfold RuneStream.setPos
    rw [if_neg]
    · rfl
    · have : (runeAt text p).text = text := rfl
      rw [this]; omega
  rw [hset pos suc (by omega)]
  have hv2 := runeAt_valid text (p := suc) (by omega)
  obtain ⟨sus, hsus⟩ := peekRunes_nonneg_ok _ hv2 ((att : Int) - ((runeAt text suc).pos : Int)) (by
    show 0 ≤ (att : Int) - (suc : Int); omega)
  simp only [bind, Except.bind]
  rw [hsus]
  dsimp only
  rw [hset suc att (by omega)]
  obtain ⟨unk, hunk⟩ := peekLines_one_ok _ (runeAt_valid text h3) 2 (Or.inr rfl)
  dsimp only
  rw [hunk]
  exact ⟨_, rfl, rfl, hline, rfl⟩

/-- Tracing a rune stream can only fail in `LastNRunes`. -/
theorem renderRune_error (text : Bytes) {p : Nat} (hp : p ≤ text.length) (e : Panic)
    (h : renderRune text p = .error e) : e = .runeError := by
  have hv := runeAt_valid text hp
  unfold renderRune at h
  extract_lets c at h
  subst c
  have hcol := (C02_line_col (runeAt text p) hv p hp).2
  have hcol' : (runeAt text p).col = .ok ((afterLastNewline (text.take p)).length : Int) := hcol
  rw [hcol'] at h
  simp only [C14_sliceString_js, bind, Except.bind] at h
  obtain ⟨b, hb⟩ := peekRunes_nonneg_ok _ hv 20 (by omega)
  rw [hb] at h
  cases ha : (runeAt text p).peekRunes (-5) with
  | ok a => rw [ha] at h; cases h
  | error e' =>
    rw [ha] at h
    injection h with h
    subst h
    unfold RuneStream.peekRunes at ha
    have hs : goSlice (runeAt text p).text 0 ((runeAt text p).pos : Int) = .ok ((runeAt text p).text.take (runeAt text p).pos) := by
      have := goSlice_ok (runeAt text p).text 0 (runeAt text p).pos (by omega) hv.inside
      simpa using this
    rw [if_pos (by omega), hs] at ha
    simp only [bind, Except.bind] at ha
    unfold lastNRunes at ha
    have key : ∀ n s e, lastNRunesLoop n s = .error e → e = .runeError := by
      intro n
      induction n with
      | zero => intro s e h; cases h
      | succ n ih =>
        intro s e h
        unfold lastNRunesLoop at h
        split at h
        · cases h
        · dsimp only at h
          split at h
          · injection h with h; exact h.symm
          · cases hr : lastNRunesLoop n (s.take (s.length - (decodeLastRune s).2)) with
            | ok t => rw [hr] at h; cases h
            | error e' => rw [hr] at h; injection h with h; subst h; exact ih _ _ hr
    cases hr : lastNRunesLoop (- -5 : Int).toNat ((runeAt text p).text.take (runeAt text p).pos) with
    | ok t => rw [hr] at ha; cases ha
    | error e'' => rw [hr] at ha; injection ha with ha; subst ha; exact key _ _ _ hr

end Joeson
