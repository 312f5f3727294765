import Verif.Proofs.Regexp
import Verif.Proofs.Utf8c
/-! # Regular expressions on characters and on bytes: the one of `StripAnsi` -/

namespace Joeson

/-- The same possibilities in the same order. -/
def SameRx (x : Rx) (r : Re) : Prop := ∀ n s, x.run n s = r.run s

theorem SameRx.seq {a b : Rx} {a' b' : Re} (h1 : SameRx a a') (h2 : SameRx b b') : SameRx (.seq a b) (.seq a' b') := fun n s => by
  simp only [Rx.run, Re.run, h1 n s]
  congr 1
  funext t
  exact h2 n t

theorem SameRx.alt {a b : Rx} {a' b' : Re} (h1 : SameRx a a') (h2 : SameRx b b') : SameRx (.alt a b) (.alt a' b') := fun n s => by
  simp only [Rx.run, Re.run, h1 n s, h2 n s]

theorem SameRx.star {a : Rx} {a' : Re} (h : SameRx a a') : SameRx (.star a) (.star a') := fun n s => by
  have : a.run n = a'.run := funext fun t => h n t
  simp only [Rx.run, Re.run, this]

theorem SameRx.opt {a : Rx} {a' : Re} (h : SameRx a a') : SameRx (.opt a) (.opt a') := fun n s => by
  simp only [Rx.run, Re.run, h n s]

theorem SameRx.last {a : Rx} {a' : Re} (h : SameRx a a') : SameRx (.seq a .empty) a' := fun n s => by
  rw [Rx.run_seq_empty, h n s]

theorem SameRx.cls {c : RuneClass} {f : UInt8 → Bool} (hc : c.Ascii) (h : ∀ b, c.has b.toNat = f b) : SameRx (.cls c) (.cls f) := fun n s => by
  match s with
  | [] => rfl
  | b :: t => rw [hc.run, h]; rfl

/-- U+001B or U+009B -/
theorem sameRx_intro : SameRx (.cls ⟨false, [(0x1B, 0x1B), (0x9B, 0x9B)]⟩) (.alt (byte 0x1B) (.seq (byte 0xC2) (byte 0x9B))) := fun n s => by
  have hhas : ∀ r, RuneClass.has ⟨false, [(0x1B, 0x1B), (0x9B, 0x9B)]⟩ r = true ↔ r = 0x1B ∨ r = 0x9B := by
    intro r
    simp only [RuneClass.has, List.any_cons, List.any_nil, Bool.or_eq_true, Bool.and_eq_true, decide_eq_true_eq, Bool.false_bne, Bool.or_false]
    omega
  match s with
  | [] => rfl
  | b :: t =>
    by_cases h1 : b = 0x1B
    · subst h1
      have hd : decodeRune (0x1B :: t) = (0x1B, 1) := rfl
      rw [RuneClass.run _ _ _ (by simp) (by rw [hd]; decide), hd]
      simp [Re.run, byte]
    · by_cases h2 : ∃ u, b :: t = 0xC2 :: 0x9B :: u
      · obtain ⟨u, hu⟩ := h2
        rw [hu]
        have hd : decodeRune (0xC2 :: 0x9B :: u) = (0x9B, 2) := rfl
        rw [RuneClass.run _ _ _ (by simp) (by rw [hd]; decide), hd]
        simp [Re.run, byte]
      · have hr : (Re.alt (byte 0x1B) (.seq (byte 0xC2) (byte 0x9B))).run (b :: t) = [] := by
          simp only [Re.run, byte, beq_iff_eq, if_neg h1, List.nil_append]
          by_cases hb : b = 0xC2
          · subst hb
            simp only [if_true, List.flatMap_cons, List.flatMap_nil, List.append_nil]
            match t with
            | [] => rfl
            | c :: u =>
              simp only
              rw [if_neg]
              rintro rfl
              exact h2 ⟨u, rfl⟩
          · rw [if_neg hb]; rfl
        rw [hr]
        refine RuneClass.run_not _ _ _ (.inr ?_)
        cases hc : RuneClass.has ⟨false, [(0x1B, 0x1B), (0x9B, 0x9B)]⟩ (decodeRune (b :: t)).1 with
        | false => rfl
        | true =>
          exfalso
          have hne : (decodeRune (b :: t)).1 ≠ runeError := by
            intro h; rw [h] at hc; revert hc; decide
          obtain ⟨_, hs⟩ := decodeRune_sound hne
          rcases (hhas _).mp hc with h | h
          · rw [h] at hs
            have e : encodeRune 0x1B = [0x1B] := by decide
            rw [e] at hs
            have h1' := (decodeRune_cons b t).1
            obtain ⟨w, hw⟩ : ∃ w, (decodeRune (b :: t)).2 = w + 1 := ⟨(decodeRune (b :: t)).2 - 1, by omega⟩
            rw [hw, List.take_succ_cons] at hs
            exact h1 (List.cons.inj hs).1
          · rw [h] at hs
            have e : encodeRune 0x9B = [0xC2, 0x9B] := by decide
            rw [e] at hs
            refine h2 ⟨(b :: t).drop (decodeRune (b :: t)).2, ?_⟩
            have := List.take_append_drop (decodeRune (b :: t)).2 (b :: t)
            rw [hs] at this
            exact this.symm

/-- The bytes of a character after the first are continuation bytes. -/
theorem decodeRune_tail (b : UInt8) (s : Bytes) : ∀ i, 1 ≤ i → i < (decodeRune (b :: s)).2 → ∃ c, (b :: s)[i]? = some c ∧ 0x80 ≤ c.toNat ∧ c.toNat ≤ 0xBF := by
  intro i h1 h2
  have one : ∀ {n : Nat}, i < n → n = 1 → ∃ c, (b :: s)[i]? = some c ∧ 0x80 ≤ c.toNat ∧ c.toNat ≤ 0xBF := fun h e => by omega
  simp only [decodeRune] at h2
  split at h2
  · exact one h2 rfl
  · cases hl : leadInfo b with
    | none => rw [hl] at h2; exact one h2 rfl
    | some t =>
      obtain ⟨w, lo, hi⟩ := t
      have hc := leadInfo_cases hl
      rw [hl] at h2
      simp only at h2
      cases s with
      | nil => exact one h2 rfl
      | cons b1 r1 =>
        simp only at h2
        split at h2
        · exact one h2 rfl
        · rename_i e1
          simp only [inRange, Bool.not_eq_true', Bool.not_eq_false, Bool.and_eq_true, decide_eq_true_eq] at e1
          split at h2
          · have : i = 1 := by dsimp only at h2; omega
            subst this
            exact ⟨b1, rfl, by omega, by omega⟩
          · cases r1 with
            | nil => exact one h2 rfl
            | cons b2 r2 =>
              simp only at h2
              split at h2
              · exact one h2 rfl
              · rename_i e2
                simp only [inRange, Bool.not_eq_true', Bool.not_eq_false, Bool.and_eq_true, decide_eq_true_eq] at e2
                split at h2
                · dsimp only at h2
                  have : i = 1 ∨ i = 2 := by omega
                  rcases this with rfl | rfl
                  · exact ⟨b1, rfl, by omega, by omega⟩
                  · exact ⟨b2, rfl, by omega, by omega⟩
                · cases r2 with
                  | nil => exact one h2 rfl
                  | cons b3 r3 =>
                    simp only at h2
                    split at h2
                    · exact one h2 rfl
                    · rename_i e3
                      simp only [inRange, Bool.not_eq_true', Bool.not_eq_false, Bool.and_eq_true, decide_eq_true_eq] at e3
                      dsimp only at h2
                      have : i = 1 ∨ i = 2 ∨ i = 3 := by omega
                      rcases this with rfl | rfl | rfl
                      · exact ⟨b1, rfl, by omega, by omega⟩
                      · exact ⟨b2, rfl, by omega, by omega⟩
                      · exact ⟨b3, rfl, by omega, by omega⟩

/-! ## Removing -/

theorem ansi_begins {b : UInt8} {s : Bytes} (h : ansi.run (b :: s) ≠ []) : b = 0x1B ∨ b = 0xC2 := by
  by_cases h1 : b = 0x1B
  · exact .inl h1
  · by_cases h2 : b = 0xC2
    · exact .inr h2
    · refine absurd ?_ h
      simp [ansi, Re.run, byte, h1, h2]

theorem removeAll_skip : ∀ (w k : Nat) (s : Bytes), w ≤ s.length → w ≤ k → (∀ i < w, ∃ c, s[i]? = some c ∧ ansi.run (s.drop i) = []) →
    removeAll ansi k s = s.take w ++ removeAll ansi (k - w) (s.drop w)
  | 0, k, s, _, _, _ => by simp
  | w + 1, k + 1, b :: s, h1, h2, h3 => by
    obtain ⟨_, _, h0⟩ := h3 0 (by omega)
    have ih := removeAll_skip w k s (by simpa using h1) (by omega) fun i hi => by simpa using h3 (i + 1) (by omega)
    have h0 : ansi.run (b :: s) = [] := h0
    have e : removeAll ansi (k + 1) (b :: s) = b :: removeAll ansi k s := by
      show (match ansi.run (b :: s) with | r :: _ => removeAll ansi k r | [] => b :: removeAll ansi k s) = _
      rw [h0]
    rw [e, ih, List.take_succ_cons, List.drop_succ_cons, List.cons_append, Nat.add_sub_add_right]

/-- What is not nullable consumes something. -/
theorem Rx.run_consumes {n : Nat} : ∀ {x : Rx} {s r : Bytes}, x.nullable = false → r ∈ x.run n s → r.length < s.length
  | .empty, _, _, h, _ | .bol, _, _, h, _ | .star _, _, _, h, _ | .opt _, _, _, h, _ => by cases h
  | .cls c, s, r, _, h => by
    simp only [run] at h
    split at h
    · cases h
    · rename_i hs
      split at h
      · simp only [List.mem_singleton] at h
        have := decodeRune_width_pos hs
        have := decodeRune_width_le s
        rw [h, List.length_drop]
        omega
      · cases h
  | .seq a b, s, r, hn, h => by
    simp only [run, List.mem_flatMap] at h
    obtain ⟨m, h1, h2⟩ := h
    simp only [nullable, Bool.and_eq_false_iff] at hn
    rcases hn with hn | hn
    · exact Nat.lt_of_le_of_lt (run_length h2) (run_consumes hn h1)
    · exact Nat.lt_of_lt_of_le (run_consumes hn h2) (run_length h1)
  | .alt a b, s, r, hn, h => by
    simp only [run, List.mem_append] at h
    simp only [nullable, Bool.or_eq_false_iff] at hn
    rcases h with h | h
    · exact run_consumes hn.1 h
    · exact run_consumes hn.2 h
  | .plus a, s, r, hn, h => by
    simp only [run, List.mem_flatMap] at h
    obtain ⟨m, h1, h2⟩ := h
    exact Nat.lt_of_le_of_lt (Re.stars_length h2) (run_consumes (x := a) (by simpa only [nullable] using hn) h1)

section
variable {x : Rx} (hx : SameRx x ansi) (hn : x.nullable = false)
include hx hn

theorem ansi_consumes {s r : Bytes} (h : r ∈ ansi.run s) : r.length < s.length := by
  rw [← hx 0 s] at h
  exact Rx.run_consumes hn h

theorem removeAll_fuel : ∀ (k : Nat) (s : Bytes), s.length ≤ k → removeAll ansi k s = removeAll ansi s.length s := by
  intro k
  induction k using Nat.strongRecOn with
  | _ k ih =>
    intro s hs
    match k, s, hs with
    | 0, [], _ => rfl
    | k + 1, [], _ => rfl
    | k + 1, b :: s, hs =>
      have hs : s.length ≤ k := by simpa using hs
      show (match ansi.run (b :: s) with | r :: _ => removeAll ansi k r | [] => b :: removeAll ansi k s) =
        (match ansi.run (b :: s) with | r :: _ => removeAll ansi s.length r | [] => b :: removeAll ansi s.length s)
      cases h : ansi.run (b :: s) with
      | nil => simp only; rw [ih k (by omega) s hs]
      | cons r l =>
        simp only
        have hr := ansi_consumes hx hn (s := b :: s) (r := r) (by rw [h]; exact List.mem_cons_self ..)
        rw [List.length_cons] at hr
        rw [ih k (by omega) r (by omega), ih s.length (by omega) r (by omega)]

/-- Character by character or byte by byte, the same is removed. -/
theorem removeAll_same : ∀ (k : Nat) (s : Bytes), s.length ≤ k → x.removeAll k s = removeAll ansi k s := by
  intro k
  induction k using Nat.strongRecOn with
  | _ k ih =>
    intro s hs
    match k, s, hs with
    | 0, [], _ => rfl
    | k + 1, [], _ => rfl
    | k + 1, b :: s, hs =>
      have hs : s.length ≤ k := by simpa using hs
      have e : x.removeAll (k + 1) (b :: s) = match (ansi.run (b :: s)).head? with
          | some r => x.removeAll k r
          | none => (b :: s).take (decodeRune (b :: s)).2 ++ x.removeAll k ((b :: s).drop (decodeRune (b :: s)).2) := by
        rw [Rx.removeAll, if_neg (by simp), hx 0]
        rfl
      rw [e]
      cases h : ansi.run (b :: s) with
      | cons r l =>
        have hr := ansi_consumes hx hn (s := b :: s) (r := r) (by rw [h]; exact List.mem_cons_self ..)
        rw [List.length_cons] at hr
        show x.removeAll k r = (match ansi.run (b :: s) with | r :: _ => removeAll ansi k r | [] => b :: removeAll ansi k s)
        rw [h]
        exact ih k (by omega) r (by omega)
      | nil =>
        simp only [List.head?_nil]
        obtain ⟨h1, _, h3, _, _, _, _⟩ := decodeRune_cons b s
        have hskip : ∀ i < (decodeRune (b :: s)).2, ∃ c, (b :: s)[i]? = some c ∧ ansi.run ((b :: s).drop i) = [] := by
          intro i hi
          match i, hi with
          | 0, _ => exact ⟨b, rfl, h⟩
          | i + 1, hi =>
            obtain ⟨c, hc, hc1, hc2⟩ := decodeRune_tail b s (i + 1) (by omega) hi
            refine ⟨c, hc, ?_⟩
            obtain ⟨hlt, hg⟩ := List.getElem?_eq_some_iff.mp hc
            rw [List.drop_eq_getElem_cons hlt, hg]
            by_contra hne
            rcases ansi_begins hne with rfl | rfl
            · revert hc1; decide
            · revert hc2; decide
        rw [removeAll_skip _ (k + 1) (b :: s) h3 (by rw [List.length_cons] at h3; omega) hskip]
        have hl : ((b :: s).drop (decodeRune (b :: s)).2).length = s.length + 1 - (decodeRune (b :: s)).2 := by rw [List.length_drop, List.length_cons]
        rw [ih k (by omega) _ (by omega), removeAll_fuel hx hn k _ (by omega), ← removeAll_fuel hx hn (k + 1 - (decodeRune (b :: s)).2) _ (by omega)]

end

end Joeson
