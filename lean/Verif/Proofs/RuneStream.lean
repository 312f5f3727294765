import Verif.Model.RuneStream
import Verif.Proofs.Helpers
/-!
# Lemmas about codestream_rune.go
-/

namespace Joeson
open Spec

theorem lineStartsOf_eq (text : Bytes) :
    lineStartsOf text = 0 :: (newlineEnds 0 text).map (Nat.cast : Nat → Int) := by
  unfold lineStartsOf rangeRunes
  rw [← rangeRunes_newlines text 0]
  simp

theorem newlineEnds_bounds (s : Bytes) (off : Nat) : ∀ x ∈ newlineEnds off s, off < x ∧ x ≤ off + s.length := by
  induction s generalizing off with
  | nil => simp [newlineEnds]
  | cons b s ih =>
    intro x hx
    simp only [newlineEnds] at hx
    split at hx
    · rcases List.mem_cons.mp hx with rfl | hx
      · simp
      · have := ih _ x hx; simp; omega
    · have := ih _ x hx; simp; omega

theorem newlineEnds_sorted (s : Bytes) (off : Nat) : (newlineEnds off s).Pairwise (· < ·) := by
  induction s generalizing off with
  | nil => simp [newlineEnds]
  | cons b s ih =>
    simp only [newlineEnds]
    split
    · rw [List.pairwise_cons]
      exact ⟨fun x hx => (newlineEnds_bounds s _ x hx).1, ih _⟩
    · exact ih _

theorem lineStartsOf_sorted (text : Bytes) : (lineStartsOf text).Pairwise (· ≤ ·) := by
  rw [lineStartsOf_eq, List.pairwise_cons]
  constructor
  · intro x hx
    simp only [List.mem_map] at hx
    obtain ⟨n, -, rfl⟩ := hx
    omega
  · rw [List.pairwise_map]
    exact (newlineEnds_sorted text 0).imp (by intro a b h; omega)

theorem newlineEnds_length (s : Bytes) (off : Nat) : (newlineEnds off s).length = newlines s := by
  induction s generalizing off with
  | nil => rfl
  | cons b s ih =>
    simp only [newlineEnds, newlines, List.count_cons] at *
    split
    · rename_i h; subst h; simp [ih]
    · rename_i h; simp [ih, h]

/-- The table entries up to `p` are the newlines before `p`. -/
theorem bisectRight_lineStarts (text : Bytes) (p : Nat) (hp : p ≤ text.length) :
    bisectRight (lineStartsOf text) p = newlines (text.take p) + 1 := by
  obtain ⟨h1, h2, h3⟩ := bisectRight_spec (lineStartsOf_sorted text) (p : Int)
  -- split the table at p
  have hsplit : newlineEnds 0 text = newlineEnds 0 (text.take p) ++ newlineEnds p (text.drop p) := by
    conv_lhs => rw [← List.take_append_drop p text]
    rw [newlineEnds_append]
    congr 2
    rw [List.length_take]; omega
  have hlen : (newlineEnds 0 (text.take p)).length = newlines (text.take p) := newlineEnds_length _ _
  have hls : lineStartsOf text = (0 :: (newlineEnds 0 (text.take p)).map (Nat.cast : Nat → Int))
      ++ (newlineEnds p (text.drop p)).map (Nat.cast : Nat → Int) := by
    rw [lineStartsOf_eq, hsplit]; simp
  set k := bisectRight (lineStartsOf text) (p : Int) with hk
  by_contra hne
  rcases Nat.lt_or_gt_of_ne hne with hlt | hgt
  · -- an entry ≤ p at index k
    have hkl : k < (0 :: (newlineEnds 0 (text.take p)).map (Nat.cast : Nat → Int)).length := by
      simp [hlen]; omega
    have hget : (lineStartsOf text)[k]? =
        some ((0 :: (newlineEnds 0 (text.take p)).map (Nat.cast : Nat → Int))[k]) := by
      rw [hls, List.getElem?_append_left hkl, List.getElem?_eq_getElem hkl]
    have hgt := h3 k _ (le_refl _) hget
    have hmem := List.getElem_mem hkl
    rcases List.mem_cons.mp hmem with h0 | h0
    · rw [h0] at hgt; omega
    · simp only [List.mem_map] at h0
      obtain ⟨n, hn, hn'⟩ := h0
      have := newlineEnds_bounds _ _ n hn
      rw [List.length_take] at this
      rw [← hn'] at hgt
      omega
  · -- an entry > p at index newlines + 1
    have hlen' : (0 :: (newlineEnds 0 (text.take p)).map (Nat.cast : Nat → Int)).length = newlines (text.take p) + 1 := by
      simp [hlen]
    have hkl : newlines (text.take p) + 1 < (lineStartsOf text).length := by omega
    have hget := List.getElem?_eq_getElem hkl
    have hle := h2 _ _ (show newlines (text.take p) + 1 < k from hgt) hget
    have hmem : (lineStartsOf text)[newlines (text.take p) + 1] ∈ (newlineEnds p (text.drop p)).map (Nat.cast : Nat → Int) := by
      have : (lineStartsOf text)[newlines (text.take p) + 1]? =
          ((newlineEnds p (text.drop p)).map (Nat.cast : Nat → Int))[0]? := by
        rw [hls, List.getElem?_append_right (by omega), hlen', Nat.sub_self]
      rw [hget] at this
      exact List.mem_of_getElem? this.symm
    simp only [List.mem_map] at hmem
    obtain ⟨n, hn, hn'⟩ := hmem
    have := newlineEnds_bounds _ _ n hn
    rw [← hn'] at hle
    omega

/-- A text splits at its last newline. -/
theorem lastNewline_split (s : Bytes) :
    (newlines s = 0 ∧ afterLastNewline s = s) ∨
    ∃ a, s = a ++ 0x0A :: afterLastNewline s ∧ newlines s = newlines a + 1 := by
  unfold afterLastNewline newlines
  by_cases h : 0x0A ∈ s
  · right
    have h' : (0x0A : UInt8) ∈ s.reverse := by simpa using h
    have hsp := List.takeWhile_append_dropWhile (p := fun x : UInt8 => decide (x ≠ 0x0A)) (l := s.reverse)
    set t := s.reverse.takeWhile (fun x : UInt8 => decide (x ≠ 0x0A)) with ht
    have htn : ∀ x ∈ t, x ≠ 0x0A := by
      intro x hx
      have : ∀ (l : Bytes), ∀ x ∈ l.takeWhile (fun x : UInt8 => decide (x ≠ 0x0A)), x ≠ 0x0A := by
        intro l
        induction l with
        | nil => simp
        | cons y l ih =>
          intro x hx
          rw [List.takeWhile_cons] at hx
          split at hx
          · rcases List.mem_cons.mp hx with rfl | hx
            · rename_i hdx; exact of_decide_eq_true hdx
            · exact ih x hx
          · simp at hx
      exact this _ x hx
    cases hd : s.reverse.dropWhile (fun x : UInt8 => decide (x ≠ 0x0A)) with
    | nil =>
      rw [hd, List.append_nil] at hsp
      rw [← hsp] at h'
      exact absurd rfl (htn _ h')
    | cons x d =>
      have hx : x = 0x0A := by
        have hne : s.reverse.dropWhile (fun x : UInt8 => decide (x ≠ 0x0A)) ≠ [] := by rw [hd]; simp
        have := List.head_dropWhile_not (fun x : UInt8 => decide (x ≠ 0x0A)) hne
        simp only [hd, List.head_cons] at this
        simpa using this
      subst hx
      rw [hd] at hsp
      have hs : s = d.reverse ++ 0x0A :: t.reverse := by
        have := congrArg List.reverse hsp
        simp only [List.reverse_append, List.reverse_cons, List.reverse_reverse] at this
        rw [← this]; simp
      refine ⟨d.reverse, hs, ?_⟩
      conv_lhs => rw [hs]
      rw [List.count_append, List.count_cons]
      have : List.count 0x0A t.reverse = 0 := by
        rw [List.count_eq_zero]
        intro hc
        exact htn _ (List.mem_reverse.mp hc) rfl
      rw [this]; simp
  · left
    refine ⟨List.count_eq_zero.mpr h, ?_⟩
    have : s.reverse.takeWhile (fun x : UInt8 => decide (x ≠ 0x0A)) = s.reverse := by
      have := List.takeWhile_append_of_pos (p := fun x : UInt8 => decide (x ≠ 0x0A)) (l₁ := s.reverse)
        (l₂ := []) (by
          intro x hx
          simp only [List.mem_reverse] at hx
          simp only [ne_eq, decide_eq_true_eq]
          rintro rfl; exact h hx)
      simpa using this
    rw [this, List.reverse_reverse]

theorem lineStart_get (text : Bytes) (p : Nat) (hp : p ≤ text.length) :
    (lineStartsOf text)[newlines (text.take p)]? =
      some ((p : Int) - (afterLastNewline (text.take p)).length) := by
  rw [lineStartsOf_eq]
  rcases lastNewline_split (text.take p) with ⟨h0, h1⟩ | ⟨a, h0, h1⟩
  · rw [h0, h1, List.length_take]
    simp; omega
  · have hlen : (text.take p).length = p := by rw [List.length_take]; omega
    have hal : p = a.length + 1 + (afterLastNewline (text.take p)).length := by
      have := congrArg List.length h0
      rw [hlen] at this
      simp at this; omega
    have htext : text = a ++ (0x0A :: (afterLastNewline (text.take p) ++ text.drop p)) := by
      conv_lhs => rw [← List.take_append_drop p text]
      conv_lhs => rw [h0]
      simp
    have hne : newlineEnds 0 text = newlineEnds 0 a ++ (a.length + 1) ::
        newlineEnds (a.length + 1) (afterLastNewline (text.take p) ++ text.drop p) := by
      conv_lhs => rw [htext]
      rw [newlineEnds_append]
      simp [newlineEnds]
    rw [h1, List.getElem?_cons_succ, hne, List.map_append, List.getElem?_append_right (by
      rw [List.length_map, newlineEnds_length])]
    rw [List.length_map, newlineEnds_length, Nat.sub_self]
    simp
    omega

/-! ## strings.Index -/

theorem isPrefixOf_iff' (e s : Bytes) : e.isPrefixOf s = true ↔ ∃ b, s = e ++ b := by
  rw [List.isPrefixOf_iff_prefix]
  constructor
  · rintro ⟨t, ht⟩; exact ⟨t, ht.symm⟩
  · rintro ⟨t, ht⟩; exact ⟨t, ht.symm⟩

theorem stringsIndex_spec (e s : Bytes) :
    match stringsIndex e s with
    | some o => FirstOccurrence e s (s.take o) ∧ o ≤ s.length ∧ o + e.length ≤ s.length
    | none => ∀ a b, s ≠ a ++ e ++ b := by
  induction s with
  | nil =>
    unfold stringsIndex
    by_cases h : e.isPrefixOf [] = true
    · simp only [h, if_true]
      obtain ⟨b, hb⟩ := (isPrefixOf_iff' _ _).mp h
      have : e = [] := by
        have := (List.append_eq_nil_iff.mp hb.symm).1; exact this
      subst this
      exact ⟨⟨⟨[], rfl⟩, by simp⟩, by simp, by simp⟩
    · simp only [h, Bool.false_eq_true, if_false]
      intro a b hab
      have := List.append_eq_nil_iff.mp hab.symm
      have := (List.append_eq_nil_iff.mp this.1).2
      subst this
      simp at h
  | cons x s ih =>
    unfold stringsIndex
    by_cases h : e.isPrefixOf (x :: s) = true
    · simp only [h, if_true]
      obtain ⟨b, hb⟩ := (isPrefixOf_iff' _ _).mp h
      refine ⟨⟨⟨b, by simpa using hb⟩, by simp⟩, by simp, ?_⟩
      rw [hb]; simp
    · simp only [h, Bool.false_eq_true, if_false]
      cases hs : stringsIndex e s with
      | none =>
        simp only [Option.map_none]
        rw [hs] at ih
        intro a b hab
        cases a with
        | nil =>
          apply h
          rw [isPrefixOf_iff']
          exact ⟨b, by simpa using hab⟩
        | cons y a =>
          simp only [List.cons_append, List.cons.injEq] at hab
          exact ih a b hab.2
      | some o =>
        rw [hs] at ih
        simp only [Option.map_some] at ih ⊢
        obtain ⟨⟨⟨b, hb⟩, hmin⟩, hlen, hlen2⟩ := ih
        refine ⟨⟨⟨b, by simp [← hb]⟩, ?_⟩, by simp; omega, by simp; omega⟩
        intro a' b' hab
        cases a' with
        | nil =>
          exfalso; apply h
          rw [isPrefixOf_iff']
          exact ⟨b', by simpa using hab⟩
        | cons y a' =>
          simp only [List.cons_append, List.cons.injEq] at hab
          have := hmin a' b' hab.2
          simp only [List.length_take, List.length_cons] at *
          omega

/-! ## Lines -/

theorem lines_ne_nil (s : Bytes) : lines s ≠ [] := by
  cases s with
  | nil => simp [lines]
  | cons b s =>
    unfold lines
    repeat' split
    all_goals simp

theorem joinLines_cons_cons (b : UInt8) (l : Bytes) (ls : List Bytes) :
    joinLines ((b :: l) :: ls) = b :: joinLines (l :: ls) := by
  cases ls <;> simp [joinLines]

theorem joinLines_lines (s : Bytes) : joinLines (lines s) = s := by
  induction s with
  | nil => rfl
  | cons b s ih =>
    unfold lines
    split
    · rename_i h
      subst h
      cases hl : lines s with
      | nil => exact absurd hl (lines_ne_nil s)
      | cons l ls =>
        rw [hl] at ih
        rw [joinLines]
        · rw [ih]; rfl
        · simp
    · cases hl : lines s with
      | nil => exact absurd hl (lines_ne_nil s)
      | cons l ls =>
        simp only
        rw [joinLines_cons_cons, ← hl, ih]

/-- Offsets of the first byte of each line. -/
def startsOf (off : Nat) : List Bytes → List Nat
  | [] => []
  | l :: ls => off :: startsOf (off + l.length + 1) ls

theorem startsOf_cons_cons (off : Nat) (b : UInt8) (l : Bytes) (ls : List Bytes) :
    (startsOf off ((b :: l) :: ls)).tail = (startsOf (off + 1) (l :: ls)).tail := by
  simp only [startsOf, List.tail_cons, List.length_cons]
  congr 1; omega

theorem newlineEnds_lines (s : Bytes) (off : Nat) : newlineEnds off s = (startsOf off (lines s)).tail := by
  induction s generalizing off with
  | nil => rfl
  | cons b s ih =>
    unfold lines newlineEnds
    split
    · rw [ih]
      cases hl : lines s with
      | nil => exact absurd hl (lines_ne_nil s)
      | cons l ls => simp [startsOf]
    · rw [ih]
      cases hl : lines s with
      | nil => exact absurd hl (lines_ne_nil s)
      | cons l ls => rw [startsOf_cons_cons]

theorem lineStartsOf_lines (s : Bytes) : lineStartsOf s = (startsOf 0 (lines s)).map (Nat.cast : Nat → Int) := by
  rw [lineStartsOf_eq, newlineEnds_lines]
  cases hl : lines s with
  | nil => exact absurd hl (lines_ne_nil s)
  | cons l ls => simp [startsOf]

theorem startsOf_length (off : Nat) (ls : List Bytes) : (startsOf off ls).length = ls.length := by
  induction ls generalizing off with
  | nil => rfl
  | cons l ls ih => simp [startsOf, ih]

/-- Total length of lines, each with its newline. -/
def blockLen (ls : List Bytes) : Nat := (ls.map (fun l => l.length + 1)).sum

theorem startsOf_get (off : Nat) (ls : List Bytes) (k : Nat) (hk : k < ls.length) :
    (startsOf off ls)[k]? = some (off + blockLen (ls.take k)) := by
  induction ls generalizing off k with
  | nil => simp at hk
  | cons l ls ih =>
    cases k with
    | zero => simp [startsOf, blockLen]
    | succ k =>
      simp only [startsOf, List.getElem?_cons_succ]
      rw [ih _ k (by simpa using hk)]
      simp [blockLen]; omega

/-- Lines, each followed by a newline. -/
def block (ls : List Bytes) : Bytes := ls.flatMap (fun l => l ++ [0x0A])

theorem block_length (ls : List Bytes) : (block ls).length = blockLen ls := by
  induction ls with
  | nil => rfl
  | cons l ls ih => simp only [block, blockLen, List.flatMap_cons, List.map_cons, List.sum_cons] at *; simp [ih]; omega

theorem joinLines_append (a b : List Bytes) (hb : b ≠ []) : joinLines (a ++ b) = block a ++ joinLines b := by
  induction a with
  | nil => rfl
  | cons l a ih =>
    rw [List.cons_append, joinLines, ih]
    · simp [block]
    · intro h
      simp only [List.append_eq_nil_iff] at h
      exact hb h.2

theorem joinLines_block (a : List Bytes) (ha : a ≠ []) : block a = joinLines a ++ [0x0A] := by
  induction a with
  | nil => exact absurd rfl ha
  | cons l a ih =>
    cases a with
    | nil => simp [block, joinLines]
    | cons m a =>
      have := ih (by simp)
      rw [joinLines]
      · unfold block at *
        rw [List.flatMap_cons, this]
        simp
      · simp

end Joeson
