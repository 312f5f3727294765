import Verif.Spec.Joins
import Verif.Proofs.Deriv
/-! # Repetitions of a string: what they match -/

namespace Joeson
open RuleText

variable {V : Type} {P : PureOps V} {N : Nat} {L : List GLine} {d : Nat}

/-- `n` times `y` and `x`. -/
def tails (x y : Bytes) : Nat → Bytes
  | 0 => []
  | n + 1 => y ++ x ++ tails x y n

theorem tails_succ' (x y : Bytes) : ∀ n, tails x y (n + 1) = tails x y n ++ y ++ x
  | 0 => by simp [tails]
  | n + 1 => by
    have ih := tails_succ' x y n
    show y ++ x ++ tails x y (n + 1) = y ++ x ++ tails x y n ++ y ++ x
    rw [ih]
    simp

theorem joined_eq (x y : Bytes) : ∀ n, joined x y n = x ++ tails x y n
  | 0 => by simp [joined, tails]
  | n + 1 => by rw [joined, joined_eq x y n, tails_succ']; simp

/-- How many more of `n` there is room for. -/
def roomFor (mx : Option Nat) (k n : Nat) : Nat := match mx with
  | none => n
  | some m => min n (max m 2 - k)

theorem room_iff {mx : Option Nat} {k : Nat} : Room mx k ↔ ∀ n, roomFor mx k (n + 1) = roomFor mx (k + 1) n + 1 := by
  cases mx with
  | none => simp [Room, roomFor]
  | some m =>
    simp only [Room, Option.some.injEq, roomFor, forall_eq']
    constructor
    · intro h n
      omega
    · intro h
      have := h 0
      omega

theorem room_not {mx : Option Nat} {k : Nat} (h : ¬ Room mx k) (n : Nat) : roomFor mx k n = 0 := by
  cases mx with
  | none => exact absurd Room.none h
  | some m =>
    simp only [Room, Option.some.injEq, forall_eq'] at h
    simp only [roomFor]
    omega

/-- The separator, if any. -/
def sepOf (y : Option Bytes) : Option VP := y.map (.lit "")

theorem sep_hit (y : Option Bytes) (s : Bytes) : ∃ v, Yields P N L d (.sep (sepOf y)) (y.getD [] ++ s) (.ok (some (v, s))) := by
  cases y with
  | none => exact ⟨_, .sepNone⟩
  | some y => exact ⟨_, .sepSome Yields.plit⟩

theorem sep_miss {y : Option Bytes} {s : Bytes} (h : ∀ s', s ≠ y.getD [] ++ s') : Yields P N L d (.sep (sepOf y)) s (.ok none) := by
  cases y with
  | none => exact absurd rfl (h s)
  | some y => exact .sepSome (Yields.plitMiss h)

theorem more_strs {x : Bytes} {y : Option Bytes} {mn : Nat} {mx : Option Nat} {s : Bytes} (hs : ∀ s', s ≠ y.getD [] ++ x ++ s') : ∀ (n k : Nat),
    Yields P N L d (.more (.lit "" x) (sepOf y) mn mx (List.replicate k (P.str x))) (tails x (y.getD []) n ++ s)
      (vstop P mn (List.replicate (k + roomFor mx k n) (P.str x)) (tails x (y.getD []) (n - roomFor mx k n) ++ s))
  | 0, k => by
    have h0 : roomFor mx k 0 = 0 := by cases mx <;> simp [roomFor]
    rw [h0]
    simp only [tails, List.nil_append, Nat.add_zero]
    by_cases hr : Room mx k
    · have hr : Room mx (List.replicate k (P.str x)).length := by simpa using hr
      by_cases hy : ∃ s', s = y.getD [] ++ s'
      · obtain ⟨s', rfl⟩ := hy
        obtain ⟨v, hv⟩ := sep_hit (P := P) (N := N) (L := L) (d := d) y s'
        refine .noMore hr hv (Yields.plitMiss fun s'' h => hs s'' ?_)
        rw [h, List.append_assoc]
      · exact .noSep hr (sep_miss fun s' h => hy ⟨s', h⟩)
    · exact .full (by simpa using hr)
  | n + 1, k => by
    by_cases hr : Room mx k
    · have ih := more_strs (mn := mn) (mx := mx) hs n (k + 1)
      rw [room_iff.mp hr n]
      obtain ⟨v, hv⟩ := sep_hit (P := P) (N := N) (L := L) (d := d) y (x ++ (tails x (y.getD []) n ++ s))
      have : tails x (y.getD []) (n + 1) ++ s = y.getD [] ++ (x ++ (tails x (y.getD []) n ++ s)) := by simp [tails]
      rw [this]
      refine .more (by simpa using hr) hv Yields.plit ?_
      rw [show List.replicate k (P.str x) ++ [P.str x] = List.replicate (k + 1) (P.str x) from (List.replicate_succ' ..).symm]
      rw [show k + (roomFor mx (k + 1) n + 1) = k + 1 + roomFor mx (k + 1) n by omega, show n + 1 - (roomFor mx (k + 1) n + 1) = n - roomFor mx (k + 1) n by omega]
      exact ih
    · rw [room_not hr]
      exact .full (by simpa using hr)

/-- A repeated string. -/
theorem rep_strs {x : Bytes} {y : Option Bytes} {mn : Nat} {mx : Option Nat} {s : Bytes} (hs : ∀ s', s ≠ y.getD [] ++ x ++ s') (n : Nat) :
    Yields P N L d (.part false (.rep "" (.lit "" x) (sepOf y) mn mx)) (x ++ (tails x (y.getD []) n ++ s))
      (vstop P mn (List.replicate (1 + roomFor mx 1 n) (P.str x)) (tails x (y.getD []) (n - roomFor mx 1 n) ++ s)) :=
  Yields.bare (.inr rfl) (.rep Yields.plit (more_strs hs n 1))

theorem rep_none {x : Bytes} {y : Option Bytes} {mn : Nat} {mx : Option Nat} {s : Bytes} (hs : ∀ s', s ≠ x ++ s') :
    Yields P N L d (.part false (.rep "" (.lit "" x) (sepOf y) mn mx)) s (vstop P mn [] s) :=
  Yields.bare (.inr rfl) (.repMiss (Yields.plitMiss hs))

/-- As many as there are. -/
theorem tails_split {x y : Bytes} (hx : y ++ x ≠ []) (t : Bytes) : ∃ n s, t = tails x y n ++ s ∧ ∀ s', s ≠ y ++ x ++ s' := by
  by_cases h : ∃ s', t = y ++ x ++ s'
  · obtain ⟨s', rfl⟩ := h
    have hl : 0 < (y ++ x).length := List.length_pos_iff.mpr hx
    obtain ⟨n, s, rfl, hs⟩ := tails_split hx s'
    exact ⟨n + 1, s, by simp [tails], hs⟩
  · exact ⟨0, t, rfl, fun s' hs => h ⟨s', hs⟩⟩
termination_by t.length
decreasing_by subst_vars; simp only [List.length_append] at *; omega

theorem stringRep_vp {e : Deco} {x : Bytes} {y : Option Bytes} {mn : Nat} {mx : Option Nat} (h : StringRep e x y mn mx) :
    (Expr.single (.one [] none e) []).vp = .rep "" (.lit "" x) (sepOf y) mn mx := by
  cases h <;> rfl

theorem stringRep_noAt {e : Deco} {x : Bytes} {y : Option Bytes} {mn : Nat} {mx : Option Nat} (h : StringRep e x y mn mx) :
    (Expr.single (.one [] none e) []).NoAt ∧ (Expr.single (.one [] none e) []).nest ≤ 72 := by
  cases h <;> simp [Expr.NoAt, Units.NoAt, Deco.NoAt, Prim.NoAt, OtherLabel, Expr.nest, Units.nest, Deco.nest, Prim.nest]

end Joeson
