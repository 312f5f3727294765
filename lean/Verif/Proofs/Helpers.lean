import Verif.Model.Helpers
import Verif.Proofs.Utf8c
/-!
# Lemmas about helpers/*.go
-/

namespace Joeson
open Spec

/-- `sort.Search` on a monotone predicate returns the least index where it holds. -/
theorem sortSearchLoop_spec (f : Nat → Bool) (n : Nat)
    (mono : ∀ i j, i ≤ j → j < n → f i = true → f j = true) :
    ∀ d i j, j - i = d → i ≤ j → j ≤ n → (∀ k, k < i → f k = false) → (∀ k, j ≤ k → k < n → f k = true) →
      i ≤ sortSearchLoop f i j ∧ sortSearchLoop f i j ≤ j ∧
      (∀ k, k < sortSearchLoop f i j → f k = false) ∧
      (∀ k, sortSearchLoop f i j ≤ k → k < n → f k = true) := by
  intro d
  induction d using Nat.strong_induction_on with
  | _ d ih =>
    intro i j hd hij hjn hlo hhi
    unfold sortSearchLoop
    by_cases h : i < j
    · simp only [h, dite_true]
      cases hm : f ((i + j) / 2) with
      | false =>
        simp only [Bool.not_false, if_true]
        have := ih (j - ((i + j) / 2 + 1)) (by omega) ((i + j) / 2 + 1) j rfl (by omega) hjn (by
          intro k hk
          cases hfk : f k with
          | false => rfl
          | true =>
            have := mono k ((i + j) / 2) (by omega) (by omega) hfk
            rw [hm] at this; cases this) hhi
        refine ⟨by omega, this.2.1, this.2.2.1, this.2.2.2⟩
      | true =>
        simp only [Bool.not_true, Bool.false_eq_true, if_false]
        have := ih ((i + j) / 2 - i) (by omega) i ((i + j) / 2) rfl (by omega) (by omega) hlo (by
          intro k hk1 hk2
          exact mono _ _ hk1 hk2 hm)
        refine ⟨this.1, by omega, this.2.2.1, this.2.2.2⟩
    · simp only [h, dite_false]
      have : i = j := by omega
      subst this
      exact ⟨le_refl _, le_refl _, hlo, hhi⟩

theorem sortSearch_spec (f : Nat → Bool) (n : Nat)
    (mono : ∀ i j, i ≤ j → j < n → f i = true → f j = true) :
    sortSearch n f ≤ n ∧ (∀ k, k < sortSearch n f → f k = false) ∧
      (∀ k, sortSearch n f ≤ k → k < n → f k = true) := by
  have := sortSearchLoop_spec f n mono n 0 n rfl (by omega) (le_refl _) (by omega) (by omega)
  exact ⟨this.2.1, this.2.2.1, this.2.2.2⟩

theorem sortSearchLoop_le (f : Nat → Bool) : ∀ d i j, j - i = d → i ≤ j → sortSearchLoop f i j ≤ j := by
  intro d
  induction d using Nat.strong_induction_on with
  | _ d ih =>
    intro i j hd hij
    unfold sortSearchLoop
    by_cases h : i < j
    · simp only [h, dite_true]
      split
      · exact ih (j - ((i + j) / 2 + 1)) (by omega) _ _ rfl (by omega)
      · have := ih ((i + j) / 2 - i) (by omega) i _ rfl (by omega)
        omega
    · simp only [h, dite_false]; exact hij

theorem sorted_getElem {a : List Int} (h : a.Pairwise (· ≤ ·)) {i j : Nat} {x y : Int} (hij : i ≤ j)
    (hi : a[i]? = some x) (hj : a[j]? = some y) : x ≤ y := by
  rw [List.getElem?_eq_some_iff] at hi hj
  obtain ⟨hi1, rfl⟩ := hi
  obtain ⟨hj1, rfl⟩ := hj
  rcases Nat.lt_or_eq_of_le hij with h1 | h1
  · exact List.pairwise_iff_getElem.mp h i j hi1 hj1 h1
  · subst h1; exact le_refl _

theorem bisectRight_spec {a : List Int} (h : a.Pairwise (· ≤ ·)) (n : Int) :
    bisectRight a n ≤ a.length ∧ (∀ k x, k < bisectRight a n → a[k]? = some x → x ≤ n) ∧
      (∀ k x, bisectRight a n ≤ k → a[k]? = some x → n < x) := by
  unfold bisectRight
  have := sortSearch_spec (fun i => match a[i]? with | some x => decide (x > n) | none => false) a.length (by
    intro i j hij hj hi
    rw [List.getElem?_eq_getElem hj, List.getElem?_eq_getElem (by omega)] at *
    simp only [decide_eq_true_eq] at *
    have := sorted_getElem h hij (List.getElem?_eq_getElem (by omega)) (List.getElem?_eq_getElem hj)
    omega)
  obtain ⟨h1, h2, h3⟩ := this
  refine ⟨h1, ?_, ?_⟩
  · intro k x hk hx
    have := h2 k hk
    rw [hx] at this
    simpa using this
  · intro k x hk hx
    have hkl : k < a.length := by
      rw [List.getElem?_eq_some_iff] at hx; exact hx.1
    have := h3 k hk hkl
    rw [hx] at this
    simpa using this

theorem bisectLeft_spec {a : List Int} (h : a.Pairwise (· ≤ ·)) (n : Int) :
    bisectLeft a n ≤ a.length ∧ (∀ k x, k < bisectLeft a n → a[k]? = some x → x < n) ∧
      (∀ k x, bisectLeft a n ≤ k → a[k]? = some x → n ≤ x) := by
  unfold bisectLeft
  have := sortSearch_spec (fun i => match a[i]? with | some x => decide (x ≥ n) | none => false) a.length (by
    intro i j hij hj hi
    rw [List.getElem?_eq_getElem hj, List.getElem?_eq_getElem (by omega)] at *
    simp only [decide_eq_true_eq] at *
    have := sorted_getElem h hij (List.getElem?_eq_getElem (by omega)) (List.getElem?_eq_getElem hj)
    omega)
  obtain ⟨h1, h2, h3⟩ := this
  refine ⟨h1, ?_, ?_⟩
  · intro k x hk hx
    have := h2 k hk
    rw [hx] at this
    simpa using this
  · intro k x hk hx
    have hkl : k < a.length := by
      rw [List.getElem?_eq_some_iff] at hx; exact hx.1
    have := h3 k hk hkl
    rw [hx] at this
    simpa using this

theorem insertAt_sorted {a : List Int} (h : a.Pairwise (· ≤ ·)) (x : Int) (k : Nat)
    (hlo : ∀ i y, i < k → a[i]? = some y → y ≤ x) (hhi : ∀ i y, k ≤ i → a[i]? = some y → x ≤ y) :
    (insertAt a k x).Pairwise (· ≤ ·) := by
  unfold insertAt
  have h0 := h
  rw [← List.take_append_drop k a, List.pairwise_append] at h0
  have hA : ∀ y ∈ a.take k, y ≤ x := by
    intro y hy
    obtain ⟨i, hi, rfl⟩ := List.getElem_of_mem hy
    rw [List.length_take] at hi
    rw [List.getElem_take]
    exact hlo i _ (by omega) (List.getElem?_eq_getElem (by omega))
  have hB : ∀ y ∈ a.drop k, x ≤ y := by
    intro y hy
    obtain ⟨i, hi, rfl⟩ := List.getElem_of_mem hy
    rw [List.length_drop] at hi
    rw [List.getElem_drop]
    exact hhi (k + i) _ (by omega) (List.getElem?_eq_getElem (by omega))
  rw [List.pairwise_append, List.pairwise_cons]
  refine ⟨h0.1, ⟨hB, h0.2.1⟩, ?_⟩
  intro y hy z hz
  rcases List.mem_cons.mp hz with rfl | hz
  · exact hA y hy
  · exact h0.2.2 y hy z hz

theorem insertAt_perm (a : List Int) (x : Int) (k : Nat) : (insertAt a k x).Perm (x :: a) := by
  unfold insertAt
  refine List.perm_middle.trans ?_
  rw [List.take_append_drop]

/-! ## LastNRunes -/

theorem lastNRunesLoop_utf8 (n : Nat) : ∀ (rs : List Nat) (_ : ∀ r ∈ rs, Scalar r ∧ r ≠ 0xFFFD),
    lastNRunesLoop n (utf8 rs) = .ok (utf8 (rs.drop (rs.length - n))).length := by
  induction n with
  | zero => intro rs h; simp [lastNRunesLoop, utf8]
  | succ n ih =>
    intro rs h
    rcases List.eq_nil_or_concat rs with rfl | ⟨rs', r, rfl⟩
    · simp [lastNRunesLoop, utf8]
    · rw [List.concat_eq_append] at *
      have hr := h r (by simp)
      have hsplit : utf8 (rs' ++ [r]) = utf8 rs' ++ encodeRune r := by
        rw [utf8_append, encodeRune_eq_utf8 hr.1]; simp [utf8]
      have hd := decodeLastRune_encodeRune hr.1 (utf8 rs')
      have hne : (utf8 rs' ++ encodeRune r).length ≠ 0 := by
        have := encodeRune_ne_nil r
        simp [List.length_eq_zero_iff, this]
      unfold lastNRunesLoop
      rw [hsplit, if_neg hne, hd]
      simp only
      rw [if_neg (by unfold runeError; exact hr.2)]
      have : (utf8 rs' ++ encodeRune r).length - (encodeRune r).length = (utf8 rs').length := by simp
      rw [this, List.take_left, ih rs' (fun x hx => h x (by simp [hx]))]
      simp only [bind, Except.bind, pure, Except.pure, Except.ok.injEq, List.length_append, List.length_cons,
        List.length_nil]
      have e : (rs' ++ [r]).drop (rs'.length + (0 + 1) - (n + 1)) = rs'.drop (rs'.length - n) ++ [r] := by
        rw [List.drop_append_of_le_length (by omega)]
        congr 2; omega
      rw [e, utf8_append, List.length_append, ← show encodeRune r = utf8 [r] by
        rw [encodeRune_eq_utf8 hr.1]; simp [utf8]]
      omega

theorem lastNRunesReversedLoop_utf8 (n : Nat) : ∀ (rs : List Nat) (_ : ∀ r ∈ rs, Scalar r ∧ r ≠ 0xFFFD),
    lastNRunesReversedLoop n (utf8 rs) = utf8 (rs.reverse.take n) := by
  induction n with
  | zero => intro rs h; simp [lastNRunesReversedLoop, utf8]
  | succ n ih =>
    intro rs h
    rcases List.eq_nil_or_concat rs with rfl | ⟨rs', r, rfl⟩
    · simp [lastNRunesReversedLoop, utf8, decodeLastRune]
    · rw [List.concat_eq_append] at *
      have hr := h r (by simp)
      have hsplit : utf8 (rs' ++ [r]) = utf8 rs' ++ encodeRune r := by
        rw [utf8_append, encodeRune_eq_utf8 hr.1]; simp [utf8]
      have hd := decodeLastRune_encodeRune hr.1 (utf8 rs')
      unfold lastNRunesReversedLoop
      rw [hsplit, hd]
      simp only
      rw [if_neg (by unfold runeError; exact hr.2)]
      have : (utf8 rs' ++ encodeRune r).length - (encodeRune r).length = (utf8 rs').length := by simp
      rw [this, List.take_left, ih rs' (fun x hx => h x (by simp [hx]))]
      rw [List.reverse_append, List.reverse_singleton, List.singleton_append, List.take_succ_cons, utf8_cons,
        encodeRune_eq_utf8 hr.1]

/-- If the backward loop succeeds, what it walked over is well formed text without U+FFFD. -/
theorem lastNRunesLoop_ok (n : Nat) : ∀ (s : Bytes) (t : Nat), lastNRunesLoop n s = .ok t →
    ∃ pre rs, s = pre ++ utf8 rs ∧ (utf8 rs).length = t ∧ (∀ r ∈ rs, Scalar r ∧ r ≠ 0xFFFD) ∧
      rs.length ≤ n ∧ (rs.length = n ∨ pre = []) := by
  induction n with
  | zero =>
    intro s t h
    simp only [lastNRunesLoop, Except.ok.injEq] at h
    exact ⟨s, [], by simp [utf8], by simpa [utf8] using h, by simp, by simp, by simp⟩
  | succ n ih =>
    intro s t h
    unfold lastNRunesLoop at h
    by_cases hs : s.length = 0
    · rw [if_pos hs] at h
      simp only [Except.ok.injEq] at h
      have : s = [] := List.length_eq_zero_iff.mp hs
      exact ⟨[], [], by simp [utf8, this], by simpa [utf8] using h, by simp, by simp, by simp⟩
    · rw [if_neg hs] at h
      by_cases hr : (decodeLastRune s).1 = runeError
      · simp [hr] at h
      · simp only [hr, if_false] at h
        obtain ⟨h1, h2, h3⟩ := decodeLastRune_sound hr
        cases hrec : lastNRunesLoop n (s.take (s.length - (decodeLastRune s).2)) with
        | error e => rw [hrec] at h; simp [bind, Except.bind] at h
        | ok t' =>
          rw [hrec] at h
          simp only [bind, Except.bind, pure, Except.pure, Except.ok.injEq] at h
          obtain ⟨pre, rs, e1, e2, e3, e4, e5⟩ := ih _ _ hrec
          have hu : utf8 (rs ++ [(decodeLastRune s).1]) = utf8 rs ++ encodeRune (decodeLastRune s).1 := by
            rw [utf8_append, encodeRune_eq_utf8 h1]; simp [utf8]
          refine ⟨pre, rs ++ [(decodeLastRune s).1], ?_, ?_, ?_, ?_, ?_⟩
          · rw [hu, ← List.append_assoc, ← e1, ← h3, List.take_append_drop]
          · rw [hu, List.length_append, e2, ← h3, List.length_drop]; omega
          · intro r hr'
            rcases List.mem_append.mp hr' with h' | h'
            · exact e3 r h'
            · simp only [List.mem_singleton] at h'; subst h'; exact ⟨h1, hr⟩
          · simp; omega
          · rcases e5 with e5 | e5
            · left; simp [e5]
            · right; exact e5

theorem utf8_length_pos {r : Nat} {rs : List Nat} : 0 < (utf8 (r :: rs)).length := by
  rw [utf8_cons]
  have : 0 < (utf8Nat r).length := by unfold utf8Nat; repeat' split
                                      all_goals simp
  simp; omega

end Joeson
