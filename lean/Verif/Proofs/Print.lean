import Verif.Model.Print
import Verif.Spec.Print
import Verif.Proofs.Colors
import Verif.Proofs.Utf8b
import Verif.Props.Native
import Mathlib.Data.List.Chain
/-!
# Printed parsers are rule texts
-/

namespace Joeson
open Spec RuleText

/-! ## Texts without escape sequences, and how they are put together -/

/-- Neither escape characters nor BEL, and it does not start in the middle of a character. -/
def Clean (p : Bytes) : Prop :=
  (∀ b ∈ p, b ≠ 0x1B ∧ b ≠ 0x07) ∧ p.IsChain (fun a b => b = 0x9B → a ≠ 0xC2) ∧ p.head? ≠ some 0x9B

theorem Clean.append {a b : Bytes} (ha : Clean a) (hb : Clean b) : Clean (a ++ b) := by
  refine ⟨fun x hx => (List.mem_append.mp hx).elim (ha.1 x) (hb.1 x), ?_, ?_⟩
  · refine List.isChain_append.mpr ⟨ha.2.1, hb.2.1, fun x _ y hy e => ?_⟩
    subst e
    exact absurd hy hb.2.2
  · cases a with
    | nil => exact hb.2.2
    | cons x a => exact ha.2.2

theorem Clean.nil : Clean [] := ⟨fun _ h => (nomatch h), .nil, by simp⟩

theorem Clean.ascii {a : Bytes} (h : ∀ b ∈ a, b.toNat < 0x80 ∧ b ≠ 0x1B ∧ b ≠ 0x07) : Clean a := by
  induction a with
  | nil => exact .nil
  | cons x a ih =>
    have hx := h x (List.mem_cons_self ..)
    refine Clean.append (a := [x]) ⟨?_, .singleton _, ?_⟩ (ih fun b hb => h b (List.mem_cons_of_mem _ hb))
    · intro b hb
      rw [List.mem_singleton.mp hb]
      exact hx.2
    · intro e
      have : x = 0x9B := by simpa using e
      rw [this] at hx
      exact absurd hx.1 (by decide)

theorem infix_chain {p : Bytes} (h : p.IsChain (fun a b => b = 0x9B → a ≠ 0xC2)) : ¬ [0xC2, 0x9B] <:+: p := by
  rintro ⟨s, t, rfl⟩
  have := (List.isChain_append.mp (List.isChain_append.mp h).1).2.1
  simp at this

theorem Clean.noEscapes {p : Bytes} (h : Clean p) : NoEscapes p :=
  ⟨fun hm => (h.1 _ hm).1 rfl, fun hm => (h.1 _ hm).2 rfl, infix_chain h.2.1⟩

theorem clean_char {c : Nat} (h : PlainChar c) : Clean (utf8 [c]) := by
  obtain ⟨hs, -, h1, h2, h3⟩ := h
  have hlt : c ≤ 0x10FFFF := by unfold Scalar at hs; omega
  have ne : ∀ x y : Nat, x < 256 → y < 256 → x ≠ y → UInt8.ofNat x ≠ UInt8.ofNat y := by
    intro x y hx hy hxy e
    have := congrArg UInt8.toNat e
    rw [UInt8.toNat_ofNat', UInt8.toNat_ofNat'] at this
    omega
  unfold utf8 utf8Nat
  rw [List.flatMap_singleton]
  split
  · exact .ascii fun b hb => by
      rw [List.map_singleton, List.mem_singleton] at hb
      subst hb
      refine ⟨by rw [UInt8.toNat_ofNat']; omega, ne _ 0x1B (by omega) (by omega) h1, ne _ 7 (by omega) (by omega) (by omega)⟩
  · split
    · refine ⟨?_, ?_, ?_⟩
      · intro b hb
        simp only [List.map_cons, List.map_nil, List.mem_cons, List.not_mem_nil, or_false] at hb
        rcases hb with rfl | rfl
        all_goals exact ⟨ne _ 0x1B (by omega) (by omega) (by omega), ne _ 7 (by omega) (by omega) (by omega)⟩
      · simp only [List.map_cons, List.map_nil]
        refine .cons_cons (fun e e' => ?_) (.singleton _)
        have e1 : 0x80 + c % 0x40 = 0x9B := by
          by_contra hne
          exact ne _ 0x9B (by omega) (by omega) hne e
        have e2 : 0xC0 + c / 0x40 = 0xC2 := by
          by_contra hne
          exact ne _ 0xC2 (by omega) (by omega) hne e'
        omega
      · intro e
        simp only [List.map_cons, List.head?_cons, Option.some.injEq] at e
        exact ne _ 0x9B (by omega) (by omega) (by omega) e
    · split
      · refine ⟨?_, ?_, ?_⟩
        · intro b hb
          simp only [List.map_cons, List.map_nil, List.mem_cons, List.not_mem_nil, or_false] at hb
          rcases hb with rfl | rfl | rfl
          all_goals exact ⟨ne _ 0x1B (by omega) (by omega) (by omega), ne _ 7 (by omega) (by omega) (by omega)⟩
        · simp only [List.map_cons, List.map_nil]
          exact .cons_cons (fun _ => ne _ 0xC2 (by omega) (by omega) (by omega))
            (.cons_cons (fun _ => ne _ 0xC2 (by omega) (by omega) (by omega)) (.singleton _))
        · intro e
          simp only [List.map_cons, List.head?_cons, Option.some.injEq] at e
          exact ne _ 0x9B (by omega) (by omega) (by omega) e
      · refine ⟨?_, ?_, ?_⟩
        · intro b hb
          simp only [List.map_cons, List.map_nil, List.mem_cons, List.not_mem_nil, or_false] at hb
          rcases hb with rfl | rfl | rfl | rfl
          all_goals exact ⟨ne _ 0x1B (by omega) (by omega) (by omega), ne _ 7 (by omega) (by omega) (by omega)⟩
        · simp only [List.map_cons, List.map_nil]
          exact .cons_cons (fun _ => ne _ 0xC2 (by omega) (by omega) (by omega))
            (.cons_cons (fun _ => ne _ 0xC2 (by omega) (by omega) (by omega))
              (.cons_cons (fun _ => ne _ 0xC2 (by omega) (by omega) (by omega)) (.singleton _)))
        · intro e
          simp only [List.map_cons, List.head?_cons, Option.some.injEq] at e
          exact ne _ 0x9B (by omega) (by omega) (by omega) e

/-! ## Names -/

theorem asc_nameOf (w : Bytes) : asc (nameOf w) = w := by
  unfold asc nameOf
  rw [String.toList_ofList, List.map_map]
  conv_rhs => rw [← List.map_id w]
  refine List.map_congr_left fun x _ => ?_
  have hx : x.toNat < 256 := x.toNat_lt
  have hv : x.toNat.isValidChar := Or.inl (by omega)
  show UInt8.ofNat (Char.ofNat x.toNat).toNat = x
  have : (Char.ofNat x.toNat).toNat = x.toNat := by
    unfold Char.ofNat
    rw [dif_pos hv]
    rfl
  rw [this]
  exact UInt8.ofNat_toNat

theorem nameOf_ne {w : Bytes} (h : w ≠ []) : nameOf w ≠ "" := by
  intro e
  have := asc_nameOf w
  rw [e] at this
  exact h this.symm

theorem clean_word {w : Bytes} (h : Word w) : Clean w := by
  obtain ⟨x, l, rfl, hx, hl⟩ := h
  have letter : ∀ x, Letter x → x.toNat < 0x80 ∧ x ≠ 0x1B ∧ x ≠ 0x07 := by
    intro x hx
    rcases hx with h | h | rfl | rfl
    · refine ⟨by omega, ?_, ?_⟩ <;> (rintro rfl; revert h; decide)
    · refine ⟨by omega, ?_, ?_⟩ <;> (rintro rfl; revert h; decide)
    · decide
    · decide
  refine .ascii fun b hb => ?_
  rcases List.mem_cons.mp hb with rfl | hb
  · exact letter _ hx
  · rcases hl b hb with h | h
    · exact letter _ h
    · unfold Digit at h
      refine ⟨by omega, ?_, ?_⟩ <;> (rintro rfl; revert h; decide)

theorem clean_lab {lab : Option Bytes} (h : LabOk lab) : Clean (labText lab) := by
  cases lab with
  | none => exact .nil
  | some w =>
    refine Clean.append ?_ (.ascii (by decide))
    rcases h w rfl with rfl | rfl | h
    · exact .ascii (by decide)
    · exact .ascii (by decide)
    · exact clean_word h

theorem lab_ne {w : Bytes} (h : LabOk (some w)) : w ≠ [] := by
  rcases h w rfl with rfl | rfl | ⟨x, l, rfl, -⟩ <;> simp

/-! ## Numbers -/

theorem decimal_map (ds : List Nat) (h : ∀ d ∈ ds, d < 10) : ∀ n,
    (ds.map digitByte).foldl (fun n x => 10 * n + (x.toNat - 0x30)) n = n * 10 ^ ds.length + Spec.decimal ds := by
  induction ds with
  | nil => intro n; simp [Spec.decimal]
  | cons d ds ih =>
    intro n
    rw [List.map_cons, List.foldl_cons, ih fun x hx => h x (List.mem_cons_of_mem _ hx)]
    have hd : (digitByte d).toNat = 48 + d := digitByte_toNat (h d (List.mem_cons_self ..))
    rw [hd, Spec.decimal, List.length_cons, Nat.pow_succ]
    have : 48 + d - 0x30 = d := by omega
    rw [this, Nat.add_mul, Nat.mul_comm 10 n, Nat.mul_assoc, Nat.mul_comm 10, Nat.add_assoc]

theorem number_itoa {m : Int} (h0 : 0 ≤ m) (h1 : m < 2 ^ 63) : Number (itoa m) ∧ (RuleText.decimal (itoa m) : Int) = m := by
  obtain ⟨ds, hne, hd, he, hv⟩ := itoaNat_digits (m.natAbs + 1) m.natAbs (by omega)
  have e : itoa m = ds.map digitByte := by
    unfold itoa
    rw [if_neg (by omega), he]
  have hdec : RuleText.decimal (itoa m) = m.natAbs := by
    rw [e]
    unfold RuleText.decimal
    rw [decimal_map ds hd 0, hv]
    omega
  refine ⟨⟨?_, ?_, ?_⟩, ?_⟩
  · rw [e]
    simpa using hne
  · intro x hx
    rw [e] at hx
    obtain ⟨d, hd', rfl⟩ := List.mem_map.mp hx
    unfold Digit
    rw [digitByte_toNat (hd d hd')]
    have := hd d hd'
    omega
  · rw [hdec]
    omega
  · rw [hdec]
    omega

theorem clean_number {ds : Bytes} (h : Number ds) : Clean ds := by
  refine .ascii fun b hb => ?_
  have := h.2.1 b hb
  unfold Digit at this
  refine ⟨by omega, ?_, ?_⟩ <;> (rintro rfl; revert this; decide)

/-- The bounds of a printed repetition. -/
theorem print_bounds {mn mx : Int} (h1 : BoundOk mn) (h2 : BoundOk mx) :
    ∃ r : Option Bounds, (∀ b, r = some b → b.Ok) ∧ minOf r = mn ∧ maxOf r = mx ∧
      Coloured (printBounds mn mx) (boundsText r) ∧ Clean (boundsText r) := by
  have one : ∀ m, BoundOk m → ∃ o : Option Bytes, (∀ ds, o = some ds → Number ds) ∧ boundOf o = m ∧
      (if m > -1 then itoa m else []) = o.getD [] ∧ Clean (o.getD []) := by
    intro m hm
    rcases hm with rfl | ⟨h0, h1⟩
    · exact ⟨none, fun _ h => (nomatch h), rfl, rfl, .nil⟩
    · obtain ⟨hn, hv⟩ := number_itoa h0 h1
      refine ⟨some (itoa m), fun ds h => by cases h; exact hn, hv, ?_, clean_number hn⟩
      rw [if_pos (by omega)]
      rfl
  unfold printBounds
  split
  · rename_i h
    refine ⟨none, fun _ h => (nomatch h), ?_, ?_, Coloured.paint (by decide) .nil, .nil⟩
    · rcases h1 with rfl | h1
      · rfl
      · omega
    · rcases h2 with rfl | h2
      · rfl
      · omega
  · obtain ⟨o1, a1, b1, c1, d1⟩ := one mn h1
    obtain ⟨o2, a2, b2, c2, d2⟩ := one mx h2
    have hb : Blank [] := fun _ h => (nomatch h)
    refine ⟨some ⟨[], o1, [], [], o2, []⟩, ?_, b1, b2, ?_, ?_⟩
    · rintro b ⟨⟩
      exact ⟨hb, hb, hb, hb, a1, a2⟩
    · rw [c1, c2]
      refine Coloured.paint (by decide) ?_
      have : boundsText (some ⟨[], o1, [], [], o2, []⟩) = asc "{" ++ o1.getD [] ++ asc "," ++ o2.getD [] ++ asc "}" := by
        show [0x7B] ++ [] ++ o1.getD [] ++ [] ++ [0x2C] ++ [] ++ o2.getD [] ++ [] ++ [0x7D] = _
        simp only [List.append_nil]
        rfl
      rw [this]
      exact .plain _
    · exact (((((((Clean.ascii (a := [0x7B]) (by decide)).append .nil).append d1).append .nil).append
        (Clean.ascii (a := [0x2C]) (by decide))).append .nil).append d2).append .nil |>.append (.ascii (by decide))

/-! ## Strings -/

/-- How a character of a string is printed. -/
def printPiece (c : Nat) : Piece := ⟨c == 0x5C, c⟩

theorem escape_char {c : Nat} (h : PlainChar c) : escape (utf8 [c]) = (printPiece c).text := by
  obtain ⟨hs, h0, h1, h2, h3⟩ := h
  have hlt : c ≤ 0x10FFFF := by unfold Scalar at hs; omega
  have keep : ∀ x : Nat, x < 256 → x ≠ 0x5C → ¬ (7 ≤ x ∧ x ≤ 13) → escapeByte (UInt8.ofNat x) = [UInt8.ofNat x] := by
    intro x hx h5 h7
    have ne : ∀ y : UInt8, x ≠ y.toNat → UInt8.ofNat x ≠ y := by
      intro y hy e
      rw [← e, UInt8.toNat_ofNat'] at hy
      omega
    unfold escapeByte
    rw [if_neg (ne 0x0A (by simp; omega)), if_neg (ne 0x0D (by simp; omega)), if_neg (ne 0x09 (by simp; omega)),
      if_neg (ne 0x5C (by simp; omega)), if_neg (ne 0x07 (by simp; omega)), if_neg (ne 0x0C (by simp; omega)),
      if_neg (ne 0x08 (by simp; omega)), if_neg (ne 0x0B (by simp; omega))]
  by_cases h5 : c = 0x5C
  · subst h5; rfl
  have hp : (printPiece c).text = utf8 [c] := by
    unfold printPiece Piece.text
    dsimp only
    rw [if_neg (by simpa using h5), List.nil_append]
  rw [hp]
  unfold utf8 utf8Nat escape
  rw [List.flatMap_singleton]
  split
  · rw [List.map_singleton, List.flatMap_singleton, keep c (by omega) h5 h3]
  · split
    · simp only [List.map_cons, List.map_nil, List.flatMap_cons, List.flatMap_nil, List.append_nil]
      rw [keep _ (by omega) (by omega) (by omega), keep _ (by omega) (by omega) (by omega)]
      rfl
    · split
      · simp only [List.map_cons, List.map_nil, List.flatMap_cons, List.flatMap_nil, List.append_nil]
        rw [keep _ (by omega) (by omega) (by omega), keep _ (by omega) (by omega) (by omega),
          keep _ (by omega) (by omega) (by omega)]
        rfl
      · simp only [List.map_cons, List.map_nil, List.flatMap_cons, List.flatMap_nil, List.append_nil]
        rw [keep _ (by omega) (by omega) (by omega), keep _ (by omega) (by omega) (by omega),
          keep _ (by omega) (by omega) (by omega), keep _ (by omega) (by omega) (by omega)]
        rfl

theorem escape_string {cs : List Nat} (h : ∀ c ∈ cs, PlainChar c) : escape (utf8 cs) = pieces (cs.map printPiece) := by
  induction cs with
  | nil => rfl
  | cons c cs ih =>
    have e : utf8 (c :: cs) = utf8 [c] ++ utf8 cs := utf8_append [c] cs
    rw [e, escape, List.flatMap_append]
    show escape (utf8 [c]) ++ escape (utf8 cs) = _
    rw [escape_char (h c (List.mem_cons_self ..)), ih fun x hx => h x (List.mem_cons_of_mem _ hx)]
    rfl

theorem clean_pieces {cs : List Nat} (h : ∀ c ∈ cs, PlainChar c) : Clean (pieces (cs.map printPiece)) := by
  induction cs with
  | nil => exact .nil
  | cons c cs ih =>
    show Clean ((printPiece c).text ++ pieces (cs.map printPiece))
    refine Clean.append ?_ (ih fun x hx => h x (List.mem_cons_of_mem _ hx))
    unfold Piece.text
    refine Clean.append ?_ (clean_char (h c (List.mem_cons_self ..)))
    split
    · exact .ascii (by decide)
    · exact .nil

theorem pieces_ok {cs : List Nat} (h : ∀ c ∈ cs, PlainChar c) : ∀ p ∈ cs.map printPiece, p.Ok 0x27 := by
  intro p hp
  obtain ⟨c, hc, rfl⟩ := List.mem_map.mp hp
  refine ⟨(h c hc).1, fun he => ⟨(h c hc).2.1, ?_⟩⟩
  simpa [printPiece] using he

theorem pieces_chars (cs : List Nat) : (cs.map printPiece).map Piece.char = cs := by
  rw [List.map_map]
  exact List.map_id _

end Joeson
