import Verif.Proofs.Invert
/-! # Repeating a class that leaves out one byte

Whatever the texts are: also if they are not UTF-8.
-/

namespace Joeson
open RuleText

variable {V : Type} {P : PureOps V} {N : Nat} {L : List GLine} {d : Nat}

/-- A class `[^q]`: at the beginning of a text it finds one or more bytes other than `q`, if there is one. -/
structure FindsBut (q : UInt8) (re : Regex) : Prop where
  all : ∀ c s, c ≠ q → ∃ n, re.find (c :: s) = some (0, n)
  plain : ∀ s n, re.find s = some (0, n) → 0 < n ∧ q ∉ s.take n

/-- The text is over, or goes on with `q`. -/
def Stops (q : UInt8) (s : Bytes) : Prop := NoneOf (· ≠ q) s

theorem Stops.cases {q : UInt8} {s : Bytes} (h : Stops q s) : s = [] ∨ ∃ s', s = q :: s' := by
  match s, h with
  | [], _ => exact .inl rfl
  | c :: s', h =>
    by_cases hc : c = q
    · exact .inr ⟨s', hc ▸ rfl⟩
    · exact absurd hc (h c s' rfl)

theorem FindsBut.ne {q : UInt8} {re : Regex} (h : FindsBut q re) (s : Bytes) : re.find s ≠ some (0, 0) :=
  fun h0 => absurd (h.plain s 0 h0).1 (by omega)

theorem FindsBut.miss {q : UInt8} {re : Regex} (h : FindsBut q re) {s : Bytes} (hs : Stops q s) (n : Nat) : re.find s ≠ some (0, n) := by
  intro hn
  obtain ⟨h1, h2⟩ := h.plain s n hn
  rcases hs.cases with rfl | ⟨s', rfl⟩
  · have := (re.bounds _ _ _ hn).2
    simp at this
    omega
  · obtain ⟨m, rfl⟩ : ∃ m, n = m + 1 := ⟨n - 1, by omega⟩
    exact h2 (by simp)

/-- What is found is a part of the bytes before `q`. -/
theorem FindsBut.split {q : UInt8} {re : Regex} (h : FindsBut q re) {w s : Bytes} (hw : q ∉ w) (hs : Stops q s) {n : Nat} (hn : re.find (w ++ s) = some (0, n)) :
    0 < n ∧ n ≤ w.length ∧ (w ++ s).take n = w.take n ∧ (w ++ s).drop n = w.drop n ++ s := by
  obtain ⟨h1, h2⟩ := h.plain _ _ hn
  have hle : n ≤ w.length := by
    rcases Nat.lt_or_ge w.length n with hlt | hge
    · have hb := (re.bounds _ _ _ hn).2
      rcases hs.cases with rfl | ⟨s', rfl⟩
      · simpa using hb
      · refine absurd ?_ h2
        rw [List.take_append]
        obtain ⟨m, hm⟩ : ∃ m, n - w.length = m + 1 := ⟨n - w.length - 1, by omega⟩
        rw [hm]
        simp
    · exact hge
  exact ⟨h1, hle, List.take_append_of_le_length hle, List.drop_append_of_le_length hle⟩

theorem Yields.moreBut {q : UInt8} {re : Regex} (hre : FindsBut q re) {s : Bytes} (hs : Stops q s) (k : Nat) : ∀ (w : Bytes), w.length ≤ k → q ∉ w → ∀ vs : List V,
    ∃ ps : List Bytes, ps.flatten = w ∧ Yields P N L d (.more (.re "" re) none 0 none vs) (w ++ s) (.ok (some (P.arr (vs ++ ps.map P.str), s))) := by
  have hend : ∀ vs : List V, ∃ ps : List Bytes, ps.flatten = [] ∧ Yields P N L d (.more (.re "" re) none 0 none vs) ([] ++ s) (.ok (some (P.arr (vs ++ ps.map P.str), s))) := fun vs =>
    ⟨[], rfl, by simpa [vstop] using Yields.noMore (P := P) (N := N) (L := L) (d := d) (mn := 0) (vs := vs) Room.none .sepNone (Yields.bare (.inr rfl) (.reMiss (hre.miss hs)))⟩
  induction k with
  | zero =>
    intro w hk hq vs
    obtain rfl : w = [] := List.length_eq_zero_iff.mp (by omega)
    exact hend vs
  | succ k ih =>
    intro w hk hq vs
    match w, hk, hq with
    | [], _, _ => exact hend vs
    | c :: w, hk, hq =>
      obtain ⟨n, hn⟩ := hre.all c (w ++ s) (fun he => hq (by simp [he]))
      obtain ⟨h1, h2, h3, h4⟩ := hre.split (w := c :: w) hq hs hn
      obtain ⟨ps, hf, hy⟩ := ih ((c :: w).drop n) (by simp at hk ⊢; omega) (fun hm => hq (List.mem_of_mem_drop hm)) (vs ++ [P.str ((c :: w).take n)])
      refine ⟨(c :: w).take n :: ps, by rw [List.flatten_cons, hf, List.take_append_drop], ?_⟩
      have hp := Yields.re (P := P) (N := N) (L := L) (d := d) (h := false) (lab := "") hn
      rw [show c :: (w ++ s) = c :: w ++ s from rfl, h3, h4] at hp
      simpa using Yields.more (P := P) Room.none .sepNone (Yields.bare (.inr rfl) hp) hy

/-- The class repeated: all the bytes up to the next `q`. -/
theorem Yields.repBut {q : UInt8} {re : Regex} (hre : FindsBut q re) {h : Bool} {lab : String} (hl : h = true ∨ lab = "") {w s : Bytes} (hw : q ∉ w) (hs : Stops q s) :
    ∃ ps : List Bytes, ps.flatten = w ∧ Yields P N L d (.part h (.rep lab (.re "" re) none 0 none)) (w ++ s) (.ok (some (P.arr (ps.map P.str), s))) := by
  match w, hw with
  | [], _ =>
    exact ⟨[], rfl, Yields.bare hl (.repMiss (P := P) (mn := 0) (Yields.bare (.inr rfl) (.reMiss (hre.miss hs))))⟩
  | c :: w, hq =>
    obtain ⟨n, hn⟩ := hre.all c (w ++ s) (fun he => hq (by simp [he]))
    obtain ⟨h1, h2, h3, h4⟩ := hre.split (w := c :: w) hq hs hn
    obtain ⟨ps, hf, hy⟩ := Yields.moreBut (P := P) (N := N) (L := L) (d := d) hre hs _ ((c :: w).drop n) (Nat.le_refl _) (fun hm => hq (List.mem_of_mem_drop hm)) [P.str ((c :: w).take n)]
    refine ⟨(c :: w).take n :: ps, by rw [List.flatten_cons, hf, List.take_append_drop], ?_⟩
    have hp := Yields.re (P := P) (N := N) (L := L) (d := d) (h := false) (lab := "") hn
    rw [show c :: (w ++ s) = c :: w ++ s from rfl, h3, h4] at hp
    simpa using Yields.bare hl (.rep (Yields.bare (.inr rfl) hp) hy)

/-- And nothing else. -/
theorem inv_repBut (hL : OneRule L) {q : UInt8} {re : Regex} (hre : FindsBut q re) {h : Bool} {lab : String} (hl : h = true ∨ lab = "") {s : Bytes} {r : VRes V}
    (hy : Yields P N L d (.part h (.rep lab (.re "" re) none 0 none)) s r) :
    ∃ (w s' : Bytes) (ps : List Bytes), s = w ++ s' ∧ q ∉ w ∧ Stops q s' ∧ ps.flatten = w ∧ r = .ok (some (P.arr (ps.map P.str), s')) := by
  obtain ⟨w, s', rfl, h1, h2⟩ := greedy (· ≠ q) s
  have hq : q ∉ w := fun hm => h1 q hm rfl
  obtain ⟨ps, hf, hy'⟩ := Yields.repBut (P := P) (N := N) (L := L) (d := 0) hre hl hq h2
  exact ⟨w, s', ps, rfl, hq, h2, hf, yields_det hL hy hy'⟩

theorem finds_ne {C : UInt8 → Prop} {re : Regex} (h : FindsOne C re) (s : Bytes) : re.find s ≠ some (0, 0) := by
  intro h0
  obtain ⟨c, s', rfl, hc⟩ := h.2 _ _ h0
  rw [h.1 c s' hc] at h0
  cases h0

end Joeson
