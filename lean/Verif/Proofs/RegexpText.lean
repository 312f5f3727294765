import Verif.Spec.RegexpText
import Verif.Props.Regexp4
/-! # Regular expressions: reading the text of a tree -/

namespace Joeson.RegexpText
open Joeson

theorem decodeRune_le (s : Bytes) : (decodeRune s).1 ≤ 0x10FFFF := by
  match s with
  | [] => decide
  | b :: s =>
    have hb := b.toNat_lt
    simp only [decodeRune]
    by_cases h : b.toNat < 0x80
    · rw [if_pos h]; dsimp only; omega
    · rw [if_neg h]
      have he : runeError ≤ 0x10FFFF := by decide
      match hl : leadInfo b with
      | none => exact he
      | some (w, lo, hi) =>
        have hw : b.toNat < 0xF5 ∧ (w ≠ 2 → w ≠ 3 → b.toNat = 0xF4 → hi ≤ 0x8F) ∧ hi ≤ 0xBF ∧ (w = 3 → b.toNat < 0xF0) := by
          unfold leadInfo at hl
          simp only [Bool.and_eq_true, decide_eq_true_eq, beq_iff_eq] at hl
          split at hl
          · simp only [Option.some.injEq, Prod.mk.injEq] at hl; omega
          split at hl
          · simp only [Option.some.injEq, Prod.mk.injEq] at hl; omega
          split at hl
          · simp only [Option.some.injEq, Prod.mk.injEq] at hl; omega
          split at hl
          · simp only [Option.some.injEq, Prod.mk.injEq] at hl; omega
          split at hl
          · simp only [Option.some.injEq, Prod.mk.injEq] at hl; omega
          split at hl
          · simp only [Option.some.injEq, Prod.mk.injEq] at hl; omega
          split at hl
          · simp only [Option.some.injEq, Prod.mk.injEq] at hl; omega
          · cases hl
        dsimp only
        match s with
        | [] => exact he
        | b1 :: s =>
          dsimp only
          by_cases h1 : inRange b1 lo hi = true
          · have h1' := h1
            simp only [inRange, Bool.and_eq_true, decide_eq_true_eq] at h1'
            rw [h1]
            simp only [Bool.not_true, Bool.false_eq_true, if_false]
            by_cases h2 : w = 2
            · rw [if_pos (by simp [h2])]; dsimp only; omega
            · rw [if_neg (by simp [h2])]
              match s with
              | [] => exact he
              | b2 :: s =>
                dsimp only
                by_cases h3 : inRange b2 0x80 0xBF = true
                · have h3' := h3
                  simp only [inRange, Bool.and_eq_true, decide_eq_true_eq] at h3'
                  rw [h3]
                  simp only [Bool.not_true, Bool.false_eq_true, if_false]
                  by_cases h4 : w = 3
                  · rw [if_pos (by simp [h4])]; dsimp only; omega
                  · rw [if_neg (by simp [h4])]
                    match s with
                    | [] => exact he
                    | b3 :: s =>
                      dsimp only
                      by_cases h5 : inRange b3 0x80 0xBF = true
                      · have h5' := h5
                        simp only [inRange, Bool.and_eq_true, decide_eq_true_eq] at h5'
                        rw [h5]
                        simp only [Bool.not_true, Bool.false_eq_true, if_false]
                        omega
                      · rw [Bool.not_eq_true] at h5
                        rw [h5]; exact he
                · rw [Bool.not_eq_true] at h3
                  rw [h3]; exact he
          · rw [Bool.not_eq_true] at h1
            rw [h1]; exact he

/-- What a count compiles to. -/
def Count.rx (a : Rx) : Count → Rx
  | once => a
  | star => .star a
  | plus => .plus a
  | opt => .opt a
  | exact n => a.times n 0
  | range n m => a.times n (m - n)

/-- The class of a backslash and a character. -/
def escClass (b : UInt8) : RuneClass :=
  match rxPerl b with
  | some l => ⟨false, l⟩
  | none => ⟨false, [(((rxEscape [b]).getD (0, [])).1, ((rxEscape [b]).getD (0, [])).1)]⟩

/-- What a tree compiles to. -/
def Tree.rx {k : RxKind} : Tree k → Rx
  | last s => s.rx
  | or s a => .alt s.rx a.rx
  | nil => .empty
  | cons a q s => .seq (q.rx a.rx) s.rx
  | char r => .cls ⟨false, [(r, r)]⟩
  | esc b => .cls (escClass b)
  | cls neg l => .cls ⟨neg, l.map CItem.pair⟩
  | dot => .cls ⟨true, [(0x0A, 0x0A)]⟩
  | start => .bol
  | group _ a => a.rx

/-- The steps the parser needs. -/
def Tree.need {k : RxKind} : Tree k → Nat
  | last s => s.need + 1
  | or s a => s.need + a.need + 1
  | nil => 1
  | cons a _ s => a.need + s.need + 1
  | group _ a => a.need + 1
  | _ => 1

theorem times_nullable (a : Rx) (k : Nat) : ∀ n, (a.times n k).nullable = (n == 0 || a.nullable)
  | 0 => by
    rw [Rx.times]
    match k with
    | 0 => rfl
    | 1 => rfl
    | k + 2 => rfl
  | n + 1 => by
    rw [Rx.times, Rx.nullable, times_nullable a k n]
    cases a.nullable <;> simp

theorem Tree.nullable {k : RxKind} : ∀ w : Tree k, w.rx.nullable = w.mayBeNone
  | last s => by rw [rx, mayBeNone]; exact s.nullable
  | or s a => by rw [rx, mayBeNone, Rx.nullable, s.nullable, a.nullable]
  | nil => rfl
  | cons a q s => by
    rw [rx, mayBeNone, Rx.nullable, s.nullable, ← a.nullable]
    congr 1
    cases q <;> simp [Count.rx, Count.mayBeNone, Rx.nullable, times_nullable]
  | char _ => rfl
  | esc _ => rfl
  | cls _ _ => rfl
  | dot => rfl
  | start => rfl
  | group _ a => by rw [rx, mayBeNone]; exact a.nullable

/-! ## What it means -/

theorem cls_takes (N : Nat) (c : RuneClass) (P : Nat → Prop) (h : ∀ r, r ≤ 0x10FFFF → (c.has r = true ↔ P r)) (s r : Bytes) :
    (Rx.cls c).Matches N s r ↔ Takes P s r := by
  constructor
  · intro hm
    cases hm with
    | cls h1 h2 => exact ⟨h1, (h _ (decodeRune_le s)).mp h2, rfl⟩
  · rintro ⟨h1, h2, rfl⟩
    exact .cls h1 ((h _ (decodeRune_le s)).mpr h2)

theorem repeats_again {N : Nat} {a : Rx} {L : Bytes → Bytes → Prop} (h : ∀ s r, a.Matches N s r ↔ L s r) (j : Nat) (s r : Bytes) :
    a.Repeats N j s r ↔ Again L j s r := by
  constructor
  · intro hr
    induction hr with
    | none s => exact .none s
    | more h1 _ ih => exact .more ((h _ _).mp h1) ih
  · intro hr
    induction hr with
    | none s => exact .none s
    | more h1 _ ih => exact .more ((h _ _).mpr h1) ih

theorem star_repeats {N : Nat} {a x : Rx} {s r : Bytes} (h : x.Matches N s r) (hx : x = .star a) : ∃ j, a.Repeats N j s r := by
  induction h with
  | done => exact ⟨0, .none _⟩
  | again h1 _ _ ih =>
    obtain ⟨j, hj⟩ := ih hx
    cases hx
    exact ⟨j + 1, .more h1 hj⟩
  | _ => cases hx

theorem star_matches (N : Nat) (a : Rx) (s r : Bytes) : (Rx.star a).Matches N s r ↔ ∃ j, a.Repeats N j s r := by
  refine ⟨fun h => star_repeats h rfl, ?_⟩
  rintro ⟨j, h⟩
  induction h with
  | none => exact .done
  | more h1 _ ih => exact .again h1 ih

theorem count_matches (N : Nat) (a : Rx) (q : Count) (hq : q.Ok) (s r : Bytes) :
    (q.rx a).Matches N s r ↔ ∃ j, q.Allows j ∧ a.Repeats N j s r := by
  cases q with
  | once =>
    constructor
    · intro h; exact ⟨1, rfl, .more h (.none _)⟩
    · rintro ⟨j, rfl, h⟩
      cases h with
      | more h h' => cases h' with
        | none => exact h
  | star =>
    simp only [Count.rx, Count.Allows, true_and]
    exact star_matches N a s r
  | plus =>
    constructor
    · intro h
      cases h with
      | plus h h' =>
        obtain ⟨j, hj⟩ := (star_matches ..).mp h'
        exact ⟨j + 1, Nat.succ_le_succ (Nat.zero_le _), .more h hj⟩
    · rintro ⟨j, hj, h⟩
      simp only [Count.Allows] at hj
      cases h with
      | none => omega
      | more h h' => exact .plus h ((star_matches ..).mpr ⟨_, h'⟩)
  | opt => exact Rx.upTo_matches N a 1 s r
  | exact n =>
    rw [Count.rx, Rx.times_matches]
    constructor
    · rintro ⟨j, h1, h2, h⟩; exact ⟨j, by simp only [Count.Allows]; omega, h⟩
    · rintro ⟨j, h1, h⟩
      simp only [Count.Allows] at h1
      exact ⟨j, by omega, by omega, h⟩
  | range n m =>
    simp only [Count.Ok] at hq
    rw [Count.rx, Rx.times_matches]
    constructor
    · rintro ⟨j, h1, h2, h⟩; exact ⟨j, ⟨h1, by omega⟩, h⟩
    · rintro ⟨j, ⟨h1, h2⟩, h⟩
      exact ⟨j, h1, by omega, h⟩

theorem EscOk.cases {b : UInt8} (h : EscOk b) :
    b ∈ asc "dDsSwWafnrtv" ∨ (b.toNat < 0x80 ∧ isAlnum b = false) := by
  rcases h with h | ⟨h1, h2⟩
  · exact .inl h
  · refine .inr ⟨UInt8.lt_iff_toNat_lt.mp h1, ?_⟩
    have : ∀ n : Fin 128, UInt8.ofNat n.val ∉ asc "abcdefghijklmnopqrstuvwxyzABCDEFGHIJKLMNOPQRSTUVWXYZ0123456789" → isAlnum (UInt8.ofNat n.val) = false := by
      decide +kernel
    have hb : UInt8.ofNat b.toNat = b := UInt8.ofNat_toNat
    have := this ⟨b.toNat, UInt8.lt_iff_toNat_lt.mp h1⟩
    simp only [hb] at this
    exact this h2

theorem escClass_has {b : UInt8} (h : EscOk b) (r : Nat) (hr : r ≤ 0x10FFFF) : (escClass b).has r = true ↔ EscHas b r := by
  rcases h.cases with h | ⟨h1, h2⟩
  · have e : asc "dDsSwWafnrtv" = [0x64, 0x44, 0x73, 0x53, 0x77, 0x57, 0x61, 0x66, 0x6E, 0x72, 0x74, 0x76] := by decide
    rw [e] at h
    simp only [List.mem_cons, List.not_mem_nil, or_false] at h
    have el : asc "d" = [0x64] ∧ asc "D" = [0x44] ∧ asc "s" = [0x73] ∧ asc "S" = [0x53] ∧ asc "w" = [0x77] ∧ asc "W" = [0x57] ∧
      asc "a" = [0x61] ∧ asc "f" = [0x66] ∧ asc "n" = [0x6E] ∧ asc "r" = [0x72] ∧ asc "t" = [0x74] ∧ asc "v" = [0x76] := by decide
    unfold EscHas
    simp only [el]
    rcases h with rfl | rfl | rfl | rfl | rfl | rfl | rfl | rfl | rfl | rfl | rfl | rfl <;>
      simp [escClass, rxPerl, rxEscape, RuneClass.has] <;> omega
  · have hp := rxPerl_plain h2
    have he := rxEscape_plain h1 h2 []
    have key : ∀ q : UInt8, isAlnum q = true → [b] ≠ [q] := by
      intro q hq hb
      cases hb
      rw [h2] at hq
      cases hq
    have el : asc "d" = [0x64] ∧ asc "D" = [0x44] ∧ asc "s" = [0x73] ∧ asc "S" = [0x53] ∧ asc "w" = [0x77] ∧ asc "W" = [0x57] ∧
      asc "a" = [0x61] ∧ asc "f" = [0x66] ∧ asc "n" = [0x6E] ∧ asc "r" = [0x72] ∧ asc "t" = [0x74] ∧ asc "v" = [0x76] := by decide
    unfold EscHas
    simp only [el]
    rw [if_neg (key _ (by decide)), if_neg (key _ (by decide)), if_neg (key _ (by decide)), if_neg (key _ (by decide)), if_neg (key _ (by decide)),
      if_neg (key _ (by decide)), if_neg (key _ (by decide)), if_neg (key _ (by decide)), if_neg (key _ (by decide)), if_neg (key _ (by decide)),
      if_neg (key _ (by decide)), if_neg (key _ (by decide))]
    simp [escClass, hp, he, RuneClass.has]
    omega

theorem Tree.matches (N : Nat) {k : RxKind} : ∀ (w : Tree k) (_ : w.Ok) (s r : Bytes), w.rx.Matches N s r ↔ w.Lang N s r
  | last t, h, s, r => by rw [rx, Lang]; exact t.matches N h s r
  | or t a, h, s, r => by
    rw [Ok] at h
    rw [rx, Lang]
    show _ ↔ t.Lang N s r ∨ a.Lang N s r
    rw [← t.matches N h.1, ← a.matches N h.2]
    constructor
    · intro hm
      cases hm with
      | left h => exact .inl h
      | right h => exact .inr h
    · rintro (h | h)
      · exact .left h
      · exact .right h
  | nil, _, s, r => by
    rw [rx, Lang]
    constructor
    · intro h; cases h; rfl
    · rintro rfl; exact .empty
  | cons a q t, h, s, r => by
    rw [Ok] at h
    obtain ⟨h1, h2, h3, _⟩ := h
    rw [rx, Lang]
    constructor
    · intro hm
      cases hm with
      | seq g1 g2 =>
        obtain ⟨j, hj, g⟩ := (count_matches N _ q h2 _ _).mp g1
        exact ⟨_, ⟨j, hj, (repeats_again (a.matches N h1) ..).mp g⟩, (t.matches N h3 _ _).mp g2⟩
    · rintro ⟨m, ⟨j, hj, g⟩, g2⟩
      exact .seq ((count_matches N _ q h2 _ _).mpr ⟨j, hj, (repeats_again (a.matches N h1) ..).mpr g⟩) ((t.matches N h3 _ _).mpr g2)
  | char c, _, s, r => by
    rw [rx, Lang]
    refine cls_takes N _ _ (fun x _ => ?_) s r
    simp [RuneClass.has]
    omega
  | esc b, h, s, r => by
    rw [rx, Lang]
    exact cls_takes N _ _ (escClass_has h) s r
  | cls neg l, _, s, r => by
    rw [rx, Lang]
    exact cls_takes N _ _ (fun x _ => class_has neg l x) s r
  | dot, _, s, r => by
    rw [rx, Lang]
    refine cls_takes N _ _ (fun x _ => ?_) s r
    simp [RuneClass.has]
  | start, _, s, r => by
    rw [rx, Lang]
    constructor
    · intro h; cases h with
      | bol h => exact ⟨h, rfl⟩
    · rintro ⟨h, rfl⟩; exact .bol h
  | group _ a, h, s, r => by rw [rx, Lang]; exact a.matches N h s r

end Joeson.RegexpText
