import Verif.Proofs.Regexp
import Verif.Model.Joeson
/-! # Regular expressions: what those of rule texts find -/

namespace Joeson

/-- One class, for all that matters. -/
def Rx.IsCls (x : Rx) (c : RuneClass) : Prop := ∀ n s, x.run n s = (Rx.cls c).run n s

theorem Rx.isCls_group (c : RuneClass) : (Rx.seq (.seq (.cls c) .empty) .empty).IsCls c := fun n s => by
  rw [run_seq_empty, run_seq_empty]

theorem Rx.IsCls.find {x : Rx} {c : RuneClass} (h : x.IsCls c) (s : Bytes) (m : Nat) :
    x.regex.find s = some (0, m) ↔ s ≠ [] ∧ c.has (decodeRune s).1 = true ∧ m = (decodeRune s).2 := by
  rw [find_zero, h]
  constructor
  · rintro ⟨rest, h1, h2⟩
    simp only [run] at h1
    split at h1
    · cases h1
    · split at h1
      · cases h1
        have := decodeRune_width_le s
        rw [List.length_drop] at h2
        exact ⟨‹_›, ‹_›, by omega⟩
      · cases h1
  · rintro ⟨h1, h2, h3⟩
    have := decodeRune_width_le s
    refine ⟨_, by rw [RuneClass.run c _ s h1 h2]; rfl, ?_⟩
    rw [List.length_drop]
    omega

/-! ## `[A][B]*` -/

theorem scan_eq (f : UInt8 → Bool) (s : Bytes) : s.drop (scan f s) = s.dropWhile f := by
  induction s with
  | nil => rfl
  | cons b s ih =>
    unfold scan
    rw [List.dropWhile_cons]
    split
    · exact ih
    · rfl

theorem scan_skip {f : UInt8 → Bool} : ∀ (w : Nat) (s : Bytes), w ≤ s.length → (∀ i < w, ∃ b, s[i]? = some b ∧ f b = true) → scan f s = w + scan f (s.drop w)
  | 0, s, _, _ => by simp
  | w + 1, [], h, _ => by simp at h
  | w + 1, b :: s, h, hf => by
    obtain ⟨b', hb, hfb⟩ := hf 0 (by omega)
    cases hb
    have := scan_skip w s (by simpa using h) fun i hi => by simpa using hf (i + 1) (by omega)
    have e : scan f (b :: s) = scan f s + 1 := by show (if f b = true then _ else _) = _; rw [if_pos hfb]
    rw [e, this, List.drop_succ_cons]
    omega

/-- `[A][B]*` behaves as the model of the handwritten grammar has it. -/
theorem runRegex_eq {x : Rx} {A B : RuneClass} {first more : UInt8 → Bool} (hA : A.Ascii)
    (hf : ∀ b, first b = A.has b.toNat) (hm : ∀ b, more b = B.has b.toNat) (hB : B.Ascii)
    (hx : ∀ n s, (x.run n s).head? = (((Rx.cls A).run n s).flatMap ((Rx.star (.cls B)).run n)).head?) : x.regex = runRegex first more := by
  have hfind : ∀ n k off (s : Bytes), s.length ≤ k → x.findFrom n k off s =
      ((runRegex first more).find s).map fun p => (off + p.1, off + p.2) := by
    intro n k
    induction k using Nat.strongRecOn with
    | _ k ih =>
      intro off s hk
      unfold Rx.findFrom
      rw [hx]
      match s, hk with
      | [], _ =>
        have : (Rx.cls A).run n [] = [] := rfl
        rw [this]
        simp only [List.flatMap_nil, List.head?_nil, if_true]
        cases k <;> rfl
      | b :: t, hk =>
        rw [hA.run]
        by_cases hb : A.has b.toNat = true
        · have e : scan (fun b => !first b) (b :: t) = 0 := by
            unfold scan; rw [if_neg]; simp [hf, hb]
          simp only [hb, if_true, List.flatMap_cons, List.flatMap_nil, List.append_nil]
          rw [show (Rx.star (.cls B)).run n t = Re.stars ((Rx.cls B).run n) t.length t from rfl, hB.stars n _ _ (Nat.le_refl _)]
          have e2 : (t.dropWhile fun b => B.has b.toNat) = t.drop (scan more t) := by
            rw [scan_eq]; congr 1; funext b; rw [hm]
          have hl := scan_le more t
          simp only [runRegex, e, List.length_cons, Nat.zero_add, Nat.zero_lt_succ, if_true, Option.map_some, e2, List.length_drop, List.drop_succ_cons, List.drop_zero, Nat.add_zero]
          congr 2
          omega
        · simp only [hb, Bool.false_eq_true, if_false, List.flatMap_nil, List.head?_nil, List.cons_ne_nil]
          obtain ⟨h1, _, h3, h4, _, _, _⟩ := decodeRune_cons b t
          match k, hk with
          | k + 1, hk =>
            dsimp only
            have hs : scan (fun b => !first b) (b :: t) = (decodeRune (b :: t)).2 + scan (fun b => !first b) ((b :: t).drop (decodeRune (b :: t)).2) := by
              refine scan_skip _ _ h3 fun i hi => ?_
              match i, hi with
              | 0, _ => exact ⟨b, rfl, by simp [hf, hb]⟩
              | i + 1, hi =>
                obtain ⟨c, hc, hc2⟩ := h4 (i + 1) (by omega) hi
                refine ⟨c, hc, ?_⟩
                rw [hf]
                cases hh : A.has c.toNat with
                | false => rfl
                | true => have := hA.lt hh; omega
            rw [ih k (by omega) _ _ (by rw [List.length_drop]; simp only [List.length_cons] at hk ⊢; omega)]
            generalize hw : (decodeRune (b :: t)).2 = w at *
            generalize hy : (b :: t) = y at *
            generalize hsc : scan (fun b => !first b) (y.drop w) = a at *
            simp only [runRegex, hs, hsc, List.length_drop, List.drop_drop]
            have e : w + (a + 1) = w + a + 1 := by omega
            by_cases hlt : a < y.length - w
            · rw [if_pos hlt, if_pos (by omega), Option.map_some, Option.map_some, e]
              congr 2 <;> omega
            · rw [if_neg hlt, if_neg (by omega)]
              rfl
  have : x.regex.find = (runRegex first more).find := by
    funext s
    show x.findFrom s.length s.length 0 s = _
    rw [hfind _ _ _ _ (Nat.le_refl _)]
    cases (runRegex first more).find s <;> simp
  generalize hg : x.regex = r1 at *
  generalize runRegex first more = r2 at *
  cases r1; cases r2
  simp only at this
  subst this
  rfl

end Joeson
