import Verif.Props.Regexp
import Verif.Props.Native
/-!
# C88: counted repetitions
-/

namespace Joeson
open Spec

/-- `j` matches of the expression, one after the other. -/
inductive Rx.Repeats (N : Nat) (a : Rx) : Nat → Bytes → Bytes → Prop
  | none (s : Bytes) : Repeats N a 0 s s
  | more {j : Nat} {s m r : Bytes} : a.Matches N s m → Repeats N a j m r → Repeats N a (j + 1) s r

/-- How the count of a repetition is written. -/
inductive CountText : Nat → Nat → Bytes → Prop
  /-- `{n}` -/
  | exact (n : Nat) : CountText n n (asc "{" ++ itoa n ++ asc "}")
  /-- `{n,m}` -/
  | range (n m : Nat) : CountText n m (asc "{" ++ itoa n ++ asc "," ++ itoa m ++ asc "}")

theorem itoaNat_plain : ∀ (f n : Nat), n < f → ∃ ds : List Nat, ds ≠ [] ∧ (∀ d ∈ ds, d < 10) ∧
    itoaNat f n = ds.map digitByte ∧ decimal ds = n ∧ (ds.head? = some 0 → n = 0 ∧ ds.length = 1) := by
  intro f
  induction f with
  | zero => intro n h; omega
  | succ f ih =>
    intro n h
    rw [itoaNat]
    by_cases hn : n < 10
    · rw [if_pos hn]
      exact ⟨[n], by simp, by simpa using hn, rfl, by simp [decimal], by simp⟩
    · rw [if_neg hn]
      obtain ⟨ds, h1, h2, h3, h4, h5⟩ := ih (n / 10) (by omega)
      refine ⟨ds ++ [n % 10], by simp, ?_, ?_, ?_, ?_⟩
      · intro d hd
        rcases List.mem_append.mp hd with hd | hd
        · exact h2 d hd
        · rw [List.mem_singleton.mp hd]; omega
      · rw [h3, List.map_append]; rfl
      · rw [decimal_append, h4]; omega
      · intro h
        rw [List.head?_append_of_ne_nil _ h1] at h
        have := (h5 h).1
        omega

theorem foldl_digits (ds : List Nat) (h : ∀ d ∈ ds, d < 10) (a : Nat) :
    (ds.map digitByte).foldl (fun n b => 10 * n + (b.toNat - 0x30)) a = a * 10 ^ ds.length + decimal ds := by
  induction ds generalizing a with
  | nil => simp [decimal]
  | cons d ds ih =>
    rw [List.map_cons, List.foldl_cons, ih fun x hx => h x (List.mem_cons_of_mem _ hx), digitByte_toNat (h d (List.mem_cons_self ..)),
      Nat.add_sub_cancel_left, decimal, List.length_cons, Nat.pow_succ, Nat.add_mul, Nat.add_assoc, Nat.mul_comm 10 a, Nat.mul_assoc, Nat.mul_comm 10 (10 ^ _)]

theorem rxInt_itoa (n : Nat) (c : UInt8) (s : Bytes) (hc : c.toNat < 0x30 ∨ 0x39 < c.toNat) : rxInt (itoa n ++ c :: s) = some (n, c :: s) := by
  obtain ⟨ds, h1, h2, h3, h4, h5⟩ := itoaNat_plain (n + 1) n (by omega)
  have e : itoa n = ds.map digitByte := by
    unfold itoa
    rw [if_neg (by omega)]
    exact h3
  have ht : (ds.map digitByte ++ c :: s).takeWhile (fun b => decide (0x30 ≤ b.toNat) && decide (b.toNat ≤ 0x39)) = ds.map digitByte := by
    rw [List.takeWhile_append_of_pos]
    · rw [List.takeWhile_cons_of_neg, List.append_nil]
      simp only [Bool.and_eq_true, decide_eq_true_eq]
      omega
    · intro b hb
      obtain ⟨d, hd, rfl⟩ := List.mem_map.mp hb
      rw [digitByte_toNat (h2 d hd)]
      have := h2 d hd
      simp only [Bool.and_eq_true, decide_eq_true_eq]
      omega
  unfold rxInt
  rw [e, ht]
  dsimp only
  rw [if_neg, foldl_digits ds h2, h4, List.drop_left, Nat.zero_mul, Nat.zero_add]
  rintro (h | ⟨h, h'⟩)
  · exact h1 (by simpa using h)
  · obtain ⟨d, ds', rfl⟩ := List.exists_cons_of_ne_nil h1
    simp only [List.map_cons, List.head?_cons, Option.some.injEq] at h'
    have hd := digitByte_toNat (h2 d (List.mem_cons_self ..))
    rw [h'] at hd
    have : d = 0 := by
      have : (0x30 : UInt8).toNat = 0x30 := rfl
      omega
    subst this
    have := (h5 rfl).2
    simp only [List.length_cons, List.length_map] at h this
    omega

theorem rxRepeat_count (a : Rx) {n m : Nat} {t : Bytes} (h : CountText n m t) (s : Bytes) :
    rxRepeat a (t ++ s) = if n ≤ m ∧ m ≤ 1000 then rxOnce (a.times n (m - n)) s else none := by
  cases h with
  | exact =>
    have e : asc "{" ++ itoa n ++ asc "}" ++ s = 0x7B :: (itoa n ++ 0x7D :: s) := by
      rw [show asc "{" = [0x7B] from rfl, show asc "}" = [0x7D] from rfl]; simp
    rw [e, rxRepeat, if_pos rfl, rxBraces, rxInt_itoa n 0x7D s (.inr (by decide))]
    show ((if n ≤ 1000 then some ((n, n), s) else none).bind fun q => rxOnce (a.times q.1.1 (q.1.2 - q.1.1)) q.2) = _
    by_cases h : n ≤ 1000
    · rw [if_pos h, if_pos ⟨Nat.le_refl _, h⟩]; rfl
    · rw [if_neg h, if_neg fun h' => h h'.2]; rfl
  | range =>
    have e : asc "{" ++ itoa n ++ asc "," ++ itoa m ++ asc "}" ++ s = 0x7B :: (itoa n ++ 0x2C :: (itoa m ++ 0x7D :: s)) := by
      rw [show asc "{" = [0x7B] from rfl, show asc "}" = [0x7D] from rfl, show asc "," = [0x2C] from rfl]; simp
    rw [e, rxRepeat, if_pos rfl, rxBraces, rxInt_itoa n 0x2C _ (.inl (by decide))]
    simp only [rxInt_itoa m 0x7D s (.inr (by decide))]
    by_cases h : n ≤ m ∧ m ≤ 1000
    · rw [if_pos h, if_pos h]; rfl
    · rw [if_neg h, if_neg h]; rfl

theorem Rx.upTo_matches (N : Nat) (a : Rx) : ∀ (k : Nat) (s r : Bytes), (a.upTo k).Matches N s r ↔ ∃ j, j ≤ k ∧ a.Repeats N j s r
  | 0, s, r => by
    constructor
    · intro h
      cases h
      exact ⟨0, Nat.le_refl _, .none _⟩
    · rintro ⟨j, hj, h⟩
      obtain rfl : j = 0 := by omega
      cases h
      exact .empty
  | 1, s, r => by
    constructor
    · intro h
      cases h with
      | some h => exact ⟨1, Nat.le_refl _, .more h (.none _)⟩
      | skip => exact ⟨0, by omega, .none _⟩
    · rintro ⟨j, hj, h⟩
      cases h with
      | none => exact .skip
      | more h h' =>
        cases h' with
        | none => exact .some h
        | more => omega
  | k + 2, s, r => by
    constructor
    · intro h
      cases h with
      | some h =>
        cases h with
        | seq h1 h2 =>
          obtain ⟨j, hj, h⟩ := (Rx.upTo_matches N a (k + 1) _ _).mp h2
          exact ⟨j + 1, by omega, .more h1 h⟩
      | skip => exact ⟨0, by omega, .none _⟩
    · rintro ⟨j, hj, h⟩
      cases h with
      | none => exact .skip
      | more h h' => exact .some (.seq h ((Rx.upTo_matches N a (k + 1) _ _).mpr ⟨_, by omega, h'⟩))

theorem Rx.times_matches (N : Nat) (a : Rx) (k : Nat) : ∀ (n : Nat) (s r : Bytes), (a.times n k).Matches N s r ↔ ∃ j, n ≤ j ∧ j ≤ n + k ∧ a.Repeats N j s r
  | 0, s, r => by
    rw [Rx.times, Rx.upTo_matches]
    simp
  | n + 1, s, r => by
    rw [Rx.times]
    constructor
    · intro h
      cases h with
      | seq h1 h2 =>
        obtain ⟨j, h3, h4, h⟩ := (Rx.times_matches N a k n _ _).mp h2
        exact ⟨j + 1, by omega, by omega, .more h1 h⟩
    · rintro ⟨j, h1, h2, h⟩
      cases h with
      | none => omega
      | more h h' => exact .seq h ((Rx.times_matches N a k n _ _).mpr ⟨_, by omega, by omega, h'⟩)

theorem rxCompile_count (neg : Bool) (l : List CItem) (h : ∀ i ∈ l, i.Ok) (h0 : l ≠ []) {n m : Nat} {t : Bytes} (ht : CountText n m t) :
    rxCompile ([0x28] ++ (classText neg l ++ t) ++ [0x29]) =
      if n ≤ m ∧ m ≤ 1000 then some (.seq (.seq ((Rx.cls ⟨neg, l.map CItem.pair⟩).times n (m - n)) .empty) .empty) else none := by
  have hc := rxClass_text neg l h h0 (t ++ [0x29])
  have e : [0x28] ++ (classText neg l ++ t) ++ [0x29] = 0x28 :: 0x5B :: ((if neg then [0x5E] else []) ++ l.flatMap CItem.text ++ 0x5D :: (t ++ [0x29])) := by
    simp [classText]
  rw [e]
  generalize (if neg then [0x5E] else []) ++ l.flatMap CItem.text ++ 0x5D :: (t ++ [0x29]) = s at *
  have hr := rxRepeat_count (Rx.cls ⟨neg, l.map CItem.pair⟩) ht [0x29]
  have key : ∀ k, rxParse (k + 8) .alt (0x28 :: 0x5B :: s) =
      if n ≤ m ∧ m ≤ 1000 then some (.seq (.seq ((Rx.cls ⟨neg, l.map CItem.pair⟩).times n (m - n)) .empty) .empty, []) else none := by
    intro k
    by_cases hnm : n ≤ m ∧ m ≤ 1000
    · rw [if_pos hnm] at hr ⊢
      have hr : rxRepeat (Rx.cls ⟨neg, l.map CItem.pair⟩) (t ++ [0x29]) = some ((Rx.cls ⟨neg, l.map CItem.pair⟩).times n (m - n), [0x29]) := hr
      have hn : ∀ z, rxRepeat z [] = some (z, []) := fun _ => rfl
      simp [rxParse, hc, hr, hn, isRepeat]
    · rw [if_neg hnm] at hr ⊢
      simp [rxParse, hc, hr, isRepeat]
  unfold rxCompile
  obtain ⟨k, hk⟩ : ∃ k, 4 * (0x28 :: 0x5B :: s).length + 4 = k + 8 := ⟨4 * s.length + 4, by simp; omega⟩
  rw [hk, key]
  by_cases hnm : n ≤ m ∧ m ≤ 1000
  · rw [if_pos hnm, if_pos hnm]
  · rw [if_neg hnm, if_neg hnm]

/-- C88: a class followed by `{n}` or `{n,m}` matches what is made of at least `n` and at most `m` characters of the class, one after the other. It compiles
only if `n` is not above `m`, and `m` not above 1000. -/
theorem C88_counts (neg : Bool) (l : List CItem) (h : ∀ i ∈ l, i.Ok) (h0 : l ≠ []) (n m : Nat) (t : Bytes) (ht : CountText n m t) :
    (n ≤ m ∧ m ≤ 1000 → ∃ x, rxCompile ([0x28] ++ (classText neg l ++ t) ++ [0x29]) = some x ∧
      ∃ c : RuneClass, (∀ r, c.has r = true ↔ ClassHas neg l r) ∧
        ∀ N s r, x.Matches N s r ↔ ∃ j, n ≤ j ∧ j ≤ m ∧ (Rx.cls c).Repeats N j s r) ∧
    (¬ (n ≤ m ∧ m ≤ 1000) → goRx (classText neg l ++ t) = none) := by
  have hx := rxCompile_count neg l h h0 ht
  constructor
  · intro hnm
    rw [if_pos hnm] at hx
    refine ⟨_, hx, ⟨neg, l.map CItem.pair⟩, class_has neg l, fun N s r => ?_⟩
    have := Rx.times_matches N (.cls ⟨neg, l.map CItem.pair⟩) (m - n) n s r
    rw [show n + (m - n) = m by omega] at this
    rw [← this]
    constructor
    · intro h
      cases h with
      | seq h h' =>
        cases h' with
        | empty => cases h with
          | seq h h' => cases h' with
            | empty => exact h
    · intro h
      exact .seq (.seq h .empty) .empty
  · intro hnm
    rw [if_neg hnm] at hx
    unfold goRx
    rw [hx]
    rfl

/-- `[a-f]{2,3}` compiles; `[a-f]{3,2}` and `[a-f]{1001}` do not. -/
example : classText false [.range false 0x61 false 0x66] = asc "[a-f]" ∧ (∀ i ∈ [CItem.range false 0x61 false 0x66], i.Ok) ∧
    CountText 2 3 (asc "{2,3}") ∧ CountText 3 2 (asc "{3,2}") ∧ CountText 1001 1001 (asc "{1001}") ∧
    ((goRx (asc "[a-f]{2,3}")).map fun x => x.find (asc "abcde")) = some (some (0, 3)) ∧
    (goRx (asc "[a-f]{3,2}")).isNone ∧ (goRx (asc "[a-f]{1001}")).isNone := by
  refine ⟨by kernel_rfl, ?_, CountText.range 2 3, CountText.range 3 2, CountText.exact 1001, by kernel_rfl, by kernel_rfl, by kernel_rfl⟩
  intro i hi
  rw [List.mem_singleton.mp hi]
  exact ⟨⟨.inl (by decide), by decide⟩, ⟨.inl (by decide), by decide⟩, by decide⟩

end Joeson
