import Verif.Model.Colors
import Verif.Spec.Colors
/-!
# Stripping colours
-/

namespace Joeson
open Spec

theorem Re.stars_suffix {f : Bytes → List Bytes} (hf : ∀ s r, r ∈ f s → r <:+ s) : ∀ (k : Nat) (s r : Bytes),
    r ∈ Re.stars f k s → r <:+ s
  | 0, s, r, h => by
    rw [Re.stars, List.mem_singleton] at h
    exact h ▸ List.suffix_refl _
  | k + 1, s, r, h => by
    rw [Re.stars, List.mem_append, List.mem_flatMap, List.mem_singleton] at h
    rcases h with ⟨t, ht, hr⟩ | rfl
    · exact (Re.stars_suffix hf k t r hr).trans (hf s t (List.mem_filter.mp ht).1)
    · exact List.suffix_refl _

theorem Re.run_suffix : ∀ (re : Re) (s r : Bytes), r ∈ re.run s → r <:+ s
  | .cls f, s, r, h => by
    unfold Re.run at h
    split at h
    · cases h
    · rename_i b t
      split at h
      · rw [List.mem_singleton] at h
        exact h ▸ List.suffix_cons b t
      · cases h
  | .seq a b, s, r, h => by
    rw [Re.run, List.mem_flatMap] at h
    obtain ⟨t, h1, h2⟩ := h
    exact (Re.run_suffix b t r h2).trans (Re.run_suffix a s t h1)
  | .alt a b, s, r, h => by
    rw [Re.run, List.mem_append] at h
    rcases h with h | h
    · exact Re.run_suffix a s r h
    · exact Re.run_suffix b s r h
  | .star a, s, r, h => by
    rw [Re.run] at h
    exact Re.stars_suffix (Re.run_suffix a) _ s r h
  | .opt a, s, r, h => by
    rw [Re.run, List.mem_append, List.mem_singleton] at h
    rcases h with h | rfl
    · exact Re.run_suffix a s r h
    · exact List.suffix_refl _

/-- Without a bell in the text, what ends with a bell does not match. -/
theorem noBell (re : Re) (s : Bytes) (h : 0x07 ∉ s) : (Re.seq re (byte 0x07)).run s = [] := by
  rw [Re.run, List.flatMap_eq_nil_iff]
  intro t ht
  have hs := Re.run_suffix re s t ht
  cases t with
  | nil => rfl
  | cons b t =>
    have hb : b ≠ 0x07 := fun e => h (hs.subset (by rw [e]; exact List.mem_cons_self))
    simp [byte, Re.run, hb]

theorem run_byte (b x : UInt8) (s : Bytes) : (byte b).run (x :: s) = if x == b then [s] else [] := rfl
theorem run_cls (f : UInt8 → Bool) (x : UInt8) (s : Bytes) : (Re.cls f).run (x :: s) = if f x then [s] else [] := rfl

theorem star_cls_hit {f : UInt8 → Bool} {x : UInt8} (s : Bytes) (hx : f x = true) :
    (Re.star (.cls f)).run (x :: s) = (Re.star (.cls f)).run s ++ [x :: s] := by
  rw [Re.run, List.length_cons, Re.stars, run_cls, if_pos hx]
  simp [Re.run]

theorem star_cls_miss {f : UInt8 → Bool} {x : UInt8} (s : Bytes) (hx : f x = false) :
    (Re.star (.cls f)).run (x :: s) = [x :: s] := by
  rw [Re.run, List.length_cons, Re.stars, run_cls, hx]
  rfl

theorem star_seq_miss {b x : UInt8} {re : Re} (s : Bytes) (hx : (x == b) = false) :
    (Re.star (.seq (byte b) re)).run (x :: s) = [x :: s] := by
  rw [Re.run, List.length_cons, Re.stars, Re.run, run_byte, hx]
  rfl

/-- What `;` and up to four digits can match on `;3?m`. -/
theorem star_semi (d : UInt8) (s : Bytes) (hd : (0x30 ≤ d.toNat && d.toNat ≤ 0x39) = true) :
    ∃ l, (Re.star (.seq (byte 0x3B) digits04)).run (0x3B :: 0x33 :: d :: 0x6D :: s) = (0x6D :: s) :: l := by
  have h1 : (Re.seq (byte 0x3B) digits04).run (0x3B :: 0x33 :: d :: 0x6D :: s) =
      [0x6D :: s, d :: 0x6D :: s, 0x33 :: d :: 0x6D :: s] := by
    rw [Re.run, run_byte, if_pos (by decide)]
    simp [digits04, digit, Re.run]
    simp at hd
    simp [hd]
  rw [Re.run, List.length_cons, Re.stars, h1]
  rw [List.filter_cons_of_pos (by simp), List.flatMap_cons]
  have h2 : Re.stars (Re.seq (byte 0x3B) digits04).run (0x33 :: d :: 0x6D :: s).length (0x6D :: s) = [0x6D :: s] := by
    rw [List.length_cons, Re.stars]
    simp [Re.run, run_byte]
  rw [h2]
  exact ⟨_, rfl⟩

/-- The end of a match: the final byte after what is optional. -/
theorem run_ansi_of {d : UInt8} {t u : Bytes} (hd : (asc "[]()#;?").contains d = false) (hb : 0x07 ∉ d :: t)
    (h : ∃ l, (Re.opt (.seq digits14 (.star (.seq (byte 0x3B) digits04)))).run (d :: t) = (0x6D :: u) :: l) :
    ∃ l, ansi.run (0x1B :: 0x5B :: d :: t) = u :: l := by
  obtain ⟨l, h⟩ := h
  have h1 : (Re.alt (byte 0x1B) (.seq (byte 0xC2) (byte 0x9B))).run (0x1B :: 0x5B :: d :: t) = [0x5B :: d :: t] := rfl
  have h2 : (Re.star (oneOf "[]()#;?")).run (0x5B :: d :: t) = [d :: t, 0x5B :: d :: t] := by
    unfold oneOf
    rw [star_cls_hit _ (by decide), star_cls_miss _ hd]
    rfl
  have h3 : finalByte.run (0x6D :: u) = [u] := rfl
  rw [ansi, Re.run, h1, List.flatMap_cons, Re.run, h2, List.flatMap_cons, Re.run, noBell _ _ hb, Re.run, h,
    List.flatMap_cons, h3]
  exact ⟨_, rfl⟩

theorem bell_cons {b : UInt8} {t : Bytes} (h : 0x07 ≠ b) (ht : 0x07 ∉ t) : 0x07 ∉ b :: t := by
  rw [List.mem_cons, not_or]
  exact ⟨h, ht⟩

theorem run_code {c : String} (hc : c ∈ colourCodes) {a : Bytes} (hb : 0x07 ∉ a) : ∃ l, ansi.run (0x1B :: asc c ++ a) = a :: l := by
  have two : ∀ d e : UInt8, (0x30 ≤ d.toNat && d.toNat ≤ 0x39) = true → (0x30 ≤ e.toNat && e.toNat ≤ 0x39) = true →
      ∃ l, (Re.opt (.seq digits14 (.star (.seq (byte 0x3B) digits04)))).run (d :: e :: 0x6D :: a) = (0x6D :: a) :: l := by
    intro d e hd he
    have : digits14.run (d :: e :: 0x6D :: a) = [0x6D :: a, e :: 0x6D :: a] := by
      simp [digits14, digit, Re.run]
      simp at hd he
      simp [hd, he]
    rw [Re.run, Re.run, this, List.flatMap_cons, star_seq_miss _ (by decide)]
    exact ⟨_, rfl⟩
  have one : ∀ d : UInt8, (0x30 ≤ d.toNat && d.toNat ≤ 0x39) = true →
      ∃ l, (Re.opt (.seq digits14 (.star (.seq (byte 0x3B) digits04)))).run (d :: 0x6D :: a) = (0x6D :: a) :: l := by
    intro d hd
    have : digits14.run (d :: 0x6D :: a) = [0x6D :: a] := by
      simp [digits14, digit, Re.run]
      simp at hd
      simp [hd]
    rw [Re.run, Re.run, this, List.flatMap_cons, star_seq_miss _ (by decide)]
    exact ⟨_, rfl⟩
  have three : ∀ e : UInt8, (0x30 ≤ e.toNat && e.toNat ≤ 0x39) = true →
      ∃ l, (Re.opt (.seq digits14 (.star (.seq (byte 0x3B) digits04)))).run (0x31 :: 0x3B :: 0x33 :: e :: 0x6D :: a) =
        (0x6D :: a) :: l := by
    intro e he
    have : digits14.run (0x31 :: 0x3B :: 0x33 :: e :: 0x6D :: a) = [0x3B :: 0x33 :: e :: 0x6D :: a] := by
      simp [digits14, digit, Re.run]
    obtain ⟨l, hl⟩ := star_semi e a he
    rw [Re.run, Re.run, this, List.flatMap_cons, hl]
    exact ⟨_, rfl⟩
  simp only [colourCodes, List.mem_cons, List.not_mem_nil, or_false] at hc
  rcases hc with rfl | rfl | rfl | rfl | rfl | rfl | rfl | rfl | rfl | rfl | rfl | rfl | rfl | rfl | rfl | rfl | rfl | rfl
  iterate 8 exact run_ansi_of (d := 0x33) (by decide) (bell_cons (by decide) (bell_cons (by decide) (bell_cons (by decide) hb))) (two 0x33 _ (by decide) (by decide))
  iterate 8 exact run_ansi_of (d := 0x31) (by decide) (bell_cons (by decide) (bell_cons (by decide) (bell_cons (by decide) (bell_cons (by decide) (bell_cons (by decide) hb))))) (three _ (by decide))
  · exact run_ansi_of (d := 0x31) (by decide) (bell_cons (by decide) (bell_cons (by decide) hb)) (one 0x31 (by decide))
  · exact run_ansi_of (d := 0x30) (by decide) (bell_cons (by decide) (bell_cons (by decide) hb)) (one 0x30 (by decide))

theorem run_char {b : UInt8} {a : Bytes} (h1 : b ≠ 0x1B) (h2 : b = 0xC2 → a.head? ≠ some 0x9B) : ansi.run (b :: a) = [] := by
  have : (Re.alt (byte 0x1B) (.seq (byte 0xC2) (byte 0x9B))).run (b :: a) = [] := by
    rw [Re.run, Re.run, run_byte, run_byte]
    rw [if_neg (by simpa using h1), List.nil_append]
    split
    · rename_i h
      cases a with
      | nil => rfl
      | cons x a =>
        have := h2 (by simpa using h)
        rw [List.flatMap_cons, run_byte, if_neg (by simpa using this)]
        rfl
    · rfl
  rw [ansi, Re.run, this]
  rfl

theorem _root_.Joeson.Spec.Coloured.noBell {a p : Bytes} (h : Coloured a p) (hb : 0x07 ∉ p) : 0x07 ∉ a := by
  induction h with
  | nil => exact hb
  | char b _ ih =>
    rw [List.mem_cons, not_or] at hb ⊢
    exact ⟨hb.1, ih hb.2⟩
  | @code a p c hc _ ih =>
    have hc' : 0x07 ∉ asc c := by
      revert hc
      revert c
      decide
    rw [List.cons_append, List.mem_cons, List.mem_append, not_or, not_or]
    exact ⟨by decide, hc', ih hb⟩

theorem _root_.Joeson.Spec.Coloured.head {a p : Bytes} (h : Coloured a p) : a.head? = some 0x1B ∨ a.head? = p.head? := by
  cases h with
  | nil => exact Or.inr rfl
  | char b _ => exact Or.inr rfl
  | code _ _ => exact Or.inl rfl

theorem removeAll_coloured {a p : Bytes} (h : Coloured a p) : NoEscapes p → ∀ k, a.length ≤ k → removeAll ansi k a = p := by
  induction h with
  | nil => intro _ k _; cases k <;> rfl
  | @char a p b h ih =>
    intro hp k hk
    obtain ⟨h1, h2, h3⟩ := hp
    rw [List.mem_cons, not_or] at h1 h2
    cases k with
    | zero => simp at hk
    | succ k =>
      have hr : ansi.run (b :: a) = [] := by
        refine run_char (fun e => h1.1 e.symm) fun e he => ?_
        rcases h.head with hh | hh
        · rw [he] at hh; exact absurd hh (by decide)
        · rw [he] at hh
          cases p with
          | nil => cases hh
          | cons x p =>
            cases hh
            exact h3 ⟨[], p, by rw [e]; rfl⟩
      unfold removeAll
      rw [hr]
      dsimp only
      rw [ih ⟨h1.2, h2.2, fun h => h3 (h.trans (List.suffix_cons b p).isInfix)⟩ k (by simpa using hk)]
  | @code a p c hc h ih =>
    intro hp k hk
    obtain ⟨l, hl⟩ := run_code hc (h.noBell hp.2.1)
    cases k with
    | zero => simp at hk
    | succ k =>
      rw [List.cons_append] at hl ⊢
      unfold removeAll
      rw [hl]
      dsimp only
      refine ih hp k ?_
      rw [List.length_append, List.length_cons] at hk
      omega

theorem _root_.Joeson.Spec.Coloured.append {a p a' p' : Bytes} (h : Coloured a p) (h' : Coloured a' p') : Coloured (a ++ a') (p ++ p') := by
  induction h with
  | nil => exact h'
  | char b _ ih => exact .char b ih
  | code hc _ ih => rw [List.append_assoc]; exact .code hc ih

theorem _root_.Joeson.Spec.Coloured.plain : ∀ (p : Bytes), Coloured p p
  | [] => .nil
  | b :: p => .char b (Coloured.plain p)

theorem _root_.Joeson.Spec.Coloured.paint {c : String} {a p : Bytes} (hc : c ∈ colourCodes) (h : Coloured a p) : Coloured (paint c a) p := by
  unfold Joeson.paint
  have h1 : Coloured (escCode ++ asc c) [] := by simpa [escCode] using Coloured.code hc .nil
  have h2 : Coloured resetCode [] := Coloured.code (c := "[0m") (by decide) .nil
  simpa using (h1.append h).append h2

end Joeson
