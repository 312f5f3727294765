import Verif.Spec.Helpers
import Verif.Proofs.Helpers
/-!
# Properties of helpers/*.go: C13, C14, C15, C16, C17, C49
-/

namespace Joeson
open Spec

/-! ## C13 -/

/-- C13: on a sorted slice both bisections return the exact boundary. -/
theorem C13_bisect_boundary (a : List Int) (h : a.Pairwise (· ≤ ·)) (x : Int) :
    bisectLeft a x ≤ a.length ∧ bisectRight a x ≤ a.length ∧
    (∀ i (hi : i < a.length), (a[i] < x ↔ i < bisectLeft a x)) ∧
    (∀ i (hi : i < a.length), (a[i] ≤ x ↔ i < bisectRight a x)) := by
  obtain ⟨l1, l2, l3⟩ := bisectLeft_spec h x
  obtain ⟨r1, r2, r3⟩ := bisectRight_spec h x
  refine ⟨l1, r1, ?_, ?_⟩
  · intro i hi
    have hg : a[i]? = some a[i] := List.getElem?_eq_getElem hi
    constructor
    · intro hlt
      by_contra hc
      have := l3 i _ (by omega) hg
      omega
    · intro hlt; exact l2 i _ hlt hg
  · intro i hi
    have hg : a[i]? = some a[i] := List.getElem?_eq_getElem hi
    constructor
    · intro hlt
      by_contra hc
      have := r3 i _ (by omega) hg
      omega
    · intro hlt; exact r2 i _ hlt hg

/-- C13: the index returned is the number of elements below (or not above) `x`. -/
theorem C13_bisect_count (a : List Int) (h : a.Pairwise (· ≤ ·)) (x : Int) :
    bisectLeft a x = a.countP (· < x) ∧ bisectRight a x = a.countP (· ≤ x) := by
  have key : ∀ (p : Int → Bool) (k : Nat), k ≤ a.length →
      (∀ i (hi : i < a.length), (p a[i] = true ↔ i < k)) → a.countP p = k := by
    intro p k hk hp
    have h1 : (a.take k).countP p = k := by
      rw [List.countP_eq_length.mpr]
      · simp [hk]
      · intro y hy
        obtain ⟨i, hi, rfl⟩ := List.getElem_of_mem hy
        rw [List.length_take] at hi
        rw [List.getElem_take]
        exact (hp i (by omega)).mpr (by omega)
    have h2 : (a.drop k).countP p = 0 := by
      rw [List.countP_eq_zero]
      intro y hy
      obtain ⟨i, hi, rfl⟩ := List.getElem_of_mem hy
      rw [List.length_drop] at hi
      rw [List.getElem_drop, (hp (k + i) (by omega))]
      omega
    conv_lhs => rw [← List.take_append_drop k a, List.countP_append, h1, h2]
    omega
  obtain ⟨h1, h2, h3, h4⟩ := C13_bisect_boundary a h x
  exact ⟨(key _ _ h1 (by simpa using h3)).symm, (key _ _ h2 (by simpa using h4)).symm⟩

/-- C13: inserting keeps the slice sorted and adds exactly `x`. -/
theorem C13_insort (a : List Int) (h : a.Pairwise (· ≤ ·)) (x : Int) :
    (insortLeft a x).Pairwise (· ≤ ·) ∧ (insortLeft a x).Perm (x :: a) ∧
    (insortRight a x).Pairwise (· ≤ ·) ∧ (insortRight a x).Perm (x :: a) := by
  obtain ⟨l1, l2, l3⟩ := bisectLeft_spec h x
  obtain ⟨r1, r2, r3⟩ := bisectRight_spec h x
  refine ⟨insertAt_sorted h x _ ?_ ?_, insertAt_perm _ _ _, insertAt_sorted h x _ ?_ ?_,
    insertAt_perm _ _ _⟩
  · intro i y hi hy; have := l2 i y hi hy; omega
  · intro i y hi hy; exact l3 i y hi hy
  · intro i y hi hy; exact r2 i y hi hy
  · intro i y hi hy; have := r3 i y hi hy; omega

/-- C13: the element is inserted at the boundary index: before equal elements for `InsortLeft`,
after them for `InsortRight`. -/
theorem C13_insort_position (a : List Int) (h : a.Pairwise (· ≤ ·)) (x : Int) :
    insortLeft a x = a.takeWhile (· < x) ++ x :: a.dropWhile (· < x) ∧
    insortRight a x = a.takeWhile (· ≤ x) ++ x :: a.dropWhile (· ≤ x) := by
  have key : ∀ (p : Int → Bool) (k : Nat), k ≤ a.length →
      (∀ i (hi : i < a.length), (p a[i] = true ↔ i < k)) →
      a.takeWhile p = a.take k ∧ a.dropWhile p = a.drop k := by
    intro p k hk hp
    have hA : ∀ y ∈ a.take k, p y = true := by
      intro y hy
      obtain ⟨i, hi, rfl⟩ := List.getElem_of_mem hy
      rw [List.length_take] at hi
      rw [List.getElem_take]
      exact (hp i (by omega)).mpr (by omega)
    have hB : (a.drop k).takeWhile p = [] ∧ (a.drop k).dropWhile p = a.drop k := by
      cases hd : a.drop k with
      | nil => simp
      | cons y ys =>
        have hkl : k < a.length := by
          by_contra hc
          rw [List.drop_of_length_le (by omega)] at hd
          cases hd
        have : y = a[k] := by
          have := List.getElem_drop (xs := a) (i := k) (j := 0) (h := by rw [hd]; simp)
          simp only [hd, List.getElem_cons_zero, Nat.add_zero] at this
          exact this
        have hpy : p y = false := by
          have := (hp k hkl)
          rw [Bool.eq_false_iff]
          intro h'
          rw [‹y = a[k]›] at h'
          have := this.mp h'
          omega
        simp [hpy]
    constructor
    · conv_lhs => rw [← List.take_append_drop k a]
      rw [List.takeWhile_append_of_pos hA, hB.1, List.append_nil]
    · conv_lhs => rw [← List.take_append_drop k a]
      rw [List.dropWhile_append_of_pos hA, hB.2]
  obtain ⟨h1, h2, h3, h4⟩ := C13_bisect_boundary a h x
  have k1 := key (fun y => decide (y < x)) _ h1 (by simpa using h3)
  have k2 := key (fun y => decide (y ≤ x)) _ h2 (by simpa using h4)
  unfold insortLeft insortRight insertAt
  rw [k1.1, k1.2, k2.1, k2.2]
  exact ⟨rfl, rfl⟩

example : ([1, 3, 3, 7] : List Int).Pairwise (· ≤ ·) ∧ bisectLeft [1, 3, 3, 7] 3 = 1 ∧
    bisectRight [1, 3, 3, 7] 3 = 3 ∧ insortLeft [1, 3, 3, 7] 4 = [1, 3, 3, 4, 7] := by decide +kernel

/-! ## C14 -/

theorem zipIdx_filter_range (s : List α) (lo hi k : Nat) :
    ((s.zipIdx k).filter (fun p => decide (lo ≤ p.2 ∧ p.2 < hi))).map Prod.fst
      = (s.drop (lo - k)).take (hi - max lo k) := by
  induction s generalizing k with
  | nil => simp
  | cons x s ih =>
    simp only [List.zipIdx_cons, List.filter_cons]
    by_cases h1 : lo ≤ k
    · by_cases h2 : k < hi
      · rw [if_pos (by simp; omega)]
        have e1 : lo - k = 0 := by omega
        obtain ⟨m, hm⟩ : ∃ m, hi - max lo k = m + 1 := ⟨hi - max lo k - 1, by omega⟩
        rw [e1, hm, List.map_cons, ih]
        simp only [List.drop_zero, List.take_succ_cons]
        have e2 : lo - (k + 1) = 0 := by omega
        have e3 : hi - max lo (k + 1) = m := by omega
        rw [e2, e3, List.drop_zero]
      · rw [if_neg (by simp; omega), ih]
        have e3 : hi - max lo (k + 1) = 0 := by omega
        have e4 : hi - max lo k = 0 := by omega
        rw [e3, e4]; simp
    · rw [if_neg (by simp; omega), ih]
      obtain ⟨m, hm⟩ : ∃ m, lo - k = m + 1 := ⟨lo - k - 1, by omega⟩
      rw [hm, List.drop_succ_cons]
      have e1 : lo - (k + 1) = m := by omega
      have e2 : max lo (k + 1) = max lo k := by omega
      rw [e1, e2]

/-- C14: `SliceString(s, a, b)` is JavaScript's `s.slice(a, b)`, for all integers; it never
panics. -/
theorem C14_sliceString_js (s : Bytes) (a b : Int) : sliceString s a b = .ok (jsSlice s a b) := by
  unfold jsSlice
  rw [zipIdx_filter_range]
  simp only [Nat.sub_zero, Nat.max_eq_left (Nat.zero_le _)]
  unfold sliceString
  simp only
  have hj : ∀ i : Int, (jsIndex s.length i : Int) =
      min (if i < 0 then goMax (i + s.length) 0 else i) s.length := by
    intro i
    unfold jsIndex goMax
    split
    · split <;> omega
    · omega
  have hA := hj a
  have hB := hj b
  have hA0 : 0 ≤ (if a < 0 then goMax (a + s.length) 0 else a) := by
    unfold goMax
    split
    · split <;> omega
    · omega
  have hAl : a < s.length → (if a < 0 then goMax (a + s.length) 0 else a) ≤ s.length := by
    unfold goMax
    intro h
    split
    · split <;> omega
    · omega
  have hAg : a ≥ s.length → (jsIndex s.length a : Int) = s.length := by
    intro h
    rw [hA, if_neg (by omega)]; omega
  generalize (if a < 0 then goMax (a + s.length) 0 else a) = A at *
  generalize (if b < 0 then goMax (b + s.length) 0 else b) = B at *
  by_cases h1 : a ≥ (s.length : Int)
  · have := hAg h1
    rw [if_pos h1, List.drop_of_length_le (by omega)]
    simp
  · have := hAl (by omega)
    rw [if_neg h1]
    by_cases h2 : B ≤ A
    · rw [if_pos h2, Nat.sub_eq_zero_of_le (by omega)]
      simp
    · rw [if_neg h2]
      unfold goSlice
      have e : (if B > (s.length : Int) then (s.length : Int) else B) = min B s.length := by
        split <;> omega
      rw [e, if_pos (by omega)]
      have e1 : A.toNat = jsIndex s.length a := by omega
      have e2 : (min B (s.length : Int) - A).toNat = jsIndex s.length b - jsIndex s.length a := by omega
      rw [e1, e2]

example : sliceString (asc "hello") (-3) 4 = .ok (asc "ll") ∧ jsSlice (asc "hello") (-3) 4 = asc "ll" ∧
    sliceString (asc "hello") 4 2 = .ok [] := by decide +kernel

/-! ## C15 -/

theorem unescape_escapeByte (b : UInt8) (s : Bytes) : unescape (escapeByte b ++ s) = b :: unescape s := by
  unfold escapeByte
  split
  · simp_all [unescape]
  split
  · simp_all [unescape]
  split
  · simp_all [unescape]
  split
  · simp_all [unescape]
  split
  · simp_all [unescape]
  split
  · simp_all [unescape]
  split
  · simp_all [unescape]
  split
  · simp_all [unescape]
  · rw [List.singleton_append]
    cases s with
    | nil => simp [unescape]
    | cons c s =>
      rw [unescape]
      intro c' s' hc
      rename_i h5c _ _ _ _
      exact absurd hc h5c

/-- C15: an escaped text can be read back. -/
theorem C15_unescape_escape (s : Bytes) : unescape (escape s) = s := by
  induction s with
  | nil => rfl
  | cons b s ih =>
    unfold escape at *
    rw [List.flatMap_cons, unescape_escapeByte, ih]

/-- C15: different strings have different escapings. -/
theorem C15_escape_injective (s t : Bytes) (h : escape s = escape t) : s = t := by
  rw [← C15_unescape_escape s, h, C15_unescape_escape]

/-- C15: the escaped text contains no control character among BEL..CR. -/
theorem C15_escape_no_control (s : Bytes) : ∀ b ∈ escape s, isControl b = false := by
  intro b hb
  unfold escape at hb
  rw [List.mem_flatMap] at hb
  obtain ⟨c, -, hc⟩ := hb
  unfold escapeByte at hc
  have lift : ∀ {x y : UInt8}, x ≠ y → x.toNat ≠ y.toNat := fun h h' => h (UInt8.toNat_inj.mp h')
  repeat' split at hc
  all_goals simp only [List.mem_cons, List.not_mem_nil, or_false] at hc
  all_goals try (rcases hc with rfl | rfl <;> rfl)
  subst hc
  rename_i h1 h2 h3 _ h5 h6 h7 h8
  have := lift h1; have := lift h2; have := lift h3; have := lift h5; have := lift h6
  have := lift h7; have := lift h8
  unfold isControl
  simp at *
  omega

example : escape [0x61, 0x0A, 0x5C, 0x6E] = [0x61, 0x5C, 0x6E, 0x5C, 0x5C, 0x6E] := by decide

/-! ## C16 -/

/-- C16: on valid UTF-8 without U+FFFD, `LastNRunes(s, n)` is the last `n` code points (all of them
when there are fewer), for every `n`, negative ones included. -/
theorem C16_lastNRunes (rs : List Nat) (h : ∀ r ∈ rs, Scalar r ∧ r ≠ 0xFFFD) (n : Int) :
    lastNRunes (utf8 rs) n = .ok (utf8 (rs.drop (rs.length - n.toNat))) := by
  unfold lastNRunes
  rw [lastNRunesLoop_utf8 _ rs h]
  simp only [bind, Except.bind, pure, Except.pure, Except.ok.injEq]
  have := utf8_append (rs.take (rs.length - n.toNat)) (rs.drop (rs.length - n.toNat))
  rw [List.take_append_drop] at this
  conv_lhs => rw [this]
  rw [List.length_append, Nat.add_sub_cancel, List.drop_left]

/-- C16: same code points in reverse order for `LastNRunesReversed`. -/
theorem C16_lastNRunesReversed (rs : List Nat) (h : ∀ r ∈ rs, Scalar r ∧ r ≠ 0xFFFD) (n : Nat) :
    lastNRunesReversed (utf8 rs) n = utf8 ((rs.drop (rs.length - n)).reverse) := by
  unfold lastNRunesReversed
  rw [if_neg (by omega), Int.toNat_natCast, lastNRunesReversedLoop_utf8 _ rs h]
  congr 1
  rw [List.reverse_drop]
  by_cases h : n ≤ rs.length
  · rw [Nat.sub_sub_self h]
  · rw [List.take_of_length_le (by simp; omega), List.take_of_length_le (by simp; omega)]

/-- C16: `LastNRunes` succeeds only on text whose last `n` code points are well formed and are not
U+FFFD; on anything else it panics. -/
theorem C16_lastNRunes_ok_iff (s : Bytes) (n : Nat) (t : Bytes) :
    lastNRunes s n = .ok t ↔
      ∃ pre rs, s = pre ++ t ∧ t = utf8 rs ∧ (∀ r ∈ rs, Scalar r ∧ r ≠ 0xFFFD) ∧
        rs.length ≤ n ∧ (rs.length = n ∨ pre = []) := by
  constructor
  · intro h
    unfold lastNRunes at h
    cases hl : lastNRunesLoop (Int.toNat n) s with
    | error e => rw [hl] at h; simp [bind, Except.bind] at h
    | ok k =>
      rw [hl] at h
      simp only [bind, Except.bind, pure, Except.pure, Except.ok.injEq] at h
      obtain ⟨pre, rs, h1, h2, h3, h4, h5⟩ := lastNRunesLoop_ok _ _ _ hl
      rw [Int.toNat_natCast] at *
      refine ⟨pre, rs, ?_, ?_, h3, h4, h5⟩
      · rw [← h, ← h2, h1, List.length_append, Nat.add_sub_cancel, List.drop_left]
      · rw [← h, ← h2, h1, List.length_append, Nat.add_sub_cancel, List.drop_left]
  · rintro ⟨pre, rs, rfl, rfl, h3, h4, h5⟩
    have loop : ∀ (m : Nat) (rs : List Nat), (∀ r ∈ rs, Scalar r ∧ r ≠ 0xFFFD) → rs.length ≤ m →
        (rs.length = m ∨ pre = []) → lastNRunesLoop m (pre ++ utf8 rs) = .ok (utf8 rs).length := by
      intro m
      induction m with
      | zero =>
        intro rs _ h _
        have : rs = [] := List.length_eq_zero_iff.mp (by omega)
        subst this; rfl
      | succ m ih =>
        intro rs h hlen h5
        rcases List.eq_nil_or_concat rs with rfl | ⟨rs', r, rfl⟩
        · have hp : pre = [] := by
            rcases h5 with h5 | h5
            · simp at h5
            · exact h5
          subst hp
          simp [lastNRunesLoop, utf8]
        · rw [List.concat_eq_append] at *
          have hr := h r (by simp)
          have hu : utf8 (rs' ++ [r]) = utf8 rs' ++ encodeRune r := by
            rw [utf8_append, encodeRune_eq_utf8 hr.1]; simp [utf8]
          have hd := decodeLastRune_encodeRune hr.1 (pre ++ utf8 rs')
          have hne : (pre ++ utf8 rs' ++ encodeRune r).length ≠ 0 := by
            have := encodeRune_ne_nil r
            simp [List.length_eq_zero_iff, this]
          unfold lastNRunesLoop
          rw [hu, ← List.append_assoc, if_neg hne, hd]
          simp only
          rw [if_neg (by unfold runeError; exact hr.2)]
          have e : (pre ++ utf8 rs' ++ encodeRune r).length - (encodeRune r).length
              = (pre ++ utf8 rs').length := by simp; omega
          rw [e, List.take_left, ih rs' (fun x hx => h x (by simp [hx]))
            (by simp at hlen; omega) (by rcases h5 with h5 | h5
                                         · left; simp at h5; omega
                                         · right; exact h5)]
          simp only [bind, Except.bind, pure, Except.pure, List.length_append]
          rw [Nat.add_comm]
    unfold lastNRunes
    rw [Int.toNat_natCast, loop n rs h3 h4 h5]
    simp only [bind, Except.bind, pure, Except.pure, List.length_append, Nat.add_sub_cancel, List.drop_left]

example : (∀ r ∈ [0x61, 0xE9, 0x20AC, 0x1F600], Scalar r ∧ r ≠ 0xFFFD) ∧
    lastNRunes (utf8 [0x61, 0xE9, 0x20AC, 0x1F600]) 2 = .ok (utf8 [0x20AC, 0x1F600]) ∧
    lastNRunesReversed (utf8 [0x61, 0xE9, 0x20AC]) 2 = utf8 [0x20AC, 0xE9] := by decide +kernel

/-- C16, malformed text: panics. -/
theorem C16_lastNRunes_malformed_panics : lastNRunes [0x61, 0xFF] 1 = .error .runeError ∧
    lastNRunes (utf8 [0x61, 0xFFFD]) 1 = .error .runeError := by decide +kernel

/-! ## C17 -/

/-- A call on a `Lazy`. -/
inductive LazyOp (α : Type) where
  | set (v : α)
  | setLazy (f : Nat → α)
  | clear
  | isSet
  | get

/-- Run a history of calls; the values returned by `Get` are collected. -/
def lazyRun {α : Type} : Lazy α → List (LazyOp α) → Except Panic (List α × Lazy α)
  | k, [] => .ok ([], k)
  | k, .set v :: r => lazyRun (k.set v) r
  | k, .setLazy f :: r => lazyRun (k.setLazy f) r
  | k, .clear :: r => lazyRun k.clear r
  | k, .isSet :: r => lazyRun k r
  | k, .get :: r => do
    let (v, k) ← k.get
    let (vs, k) ← lazyRun k r
    return (v :: vs, k)

/-- Calls that neither `Set` nor `Clear`. -/
def LazyOp.quiet {α : Type} : LazyOp α → Bool
  | .set _ => false
  | .clear => false
  | _ => true

theorem lazyRun_isSet {α : Type} (k : Lazy α) (v : α) (hk : k.val = some v) :
    ∀ (ops : List (LazyOp α)), (∀ o ∈ ops, o.quiet = true) →
    ∃ vs k', lazyRun k ops = .ok (vs, k') ∧ k'.calls = k.calls ∧ (∀ x ∈ vs, x = v) := by
  intro ops
  induction ops generalizing k with
  | nil => intro _; exact ⟨[], k, rfl, rfl, by simp⟩
  | cons o ops ih =>
    intro h
    have hq := h o (by simp)
    have hr : ∀ o ∈ ops, o.quiet = true := fun x hx => h x (by simp [hx])
    cases o with
    | set v => simp [LazyOp.quiet] at hq
    | clear => simp [LazyOp.quiet] at hq
    | setLazy f =>
      obtain ⟨vs, k', h1, h2, h3⟩ := ih (k.setLazy f) (by simp [Lazy.setLazy, hk]) hr
      exact ⟨vs, k', h1, by rw [h2]; rfl, h3⟩
    | isSet => exact ih k hk hr
    | get =>
      have hg : k.get = .ok (v, k) := by
        obtain ⟨val, f, c⟩ := k
        simp only at hk
        subst hk
        cases f <;> rfl
      obtain ⟨vs, k', h1, h2, h3⟩ := ih k hk hr
      refine ⟨v :: vs, k', ?_, h2, ?_⟩
      · simp only [lazyRun, hg, bind, Except.bind, h1, pure, Except.pure]
      · intro x hx
        rcases List.mem_cons.mp hx with rfl | hx
        · rfl
        · exact h3 x hx

/-- C17: between two `Set`/`Clear` calls an evaluator runs at most once and all `Get` agree,
whatever the evaluator returns and however calls are interleaved. -/
theorem C17_lazy_once {α : Type} (ops : List (LazyOp α)) (h : ∀ o ∈ ops, o.quiet = true) (k k' : Lazy α)
    (vs : List α) (hrun : lazyRun k ops = .ok (vs, k')) :
    k'.calls ≤ k.calls + 1 ∧ ∀ x ∈ vs, ∀ y ∈ vs, x = y := by
  cases hv : k.val with
  | some v =>
    obtain ⟨vs', k'', h1, h2, h3⟩ := lazyRun_isSet k v hv ops h
    rw [h1] at hrun
    simp only [Except.ok.injEq, Prod.mk.injEq] at hrun
    obtain ⟨rfl, rfl⟩ := hrun
    exact ⟨by omega, fun x hx y hy => by rw [h3 x hx, h3 y hy]⟩
  | none =>
    induction ops generalizing k with
    | nil =>
      simp only [lazyRun, Except.ok.injEq, Prod.mk.injEq] at hrun
      obtain ⟨rfl, rfl⟩ := hrun
      exact ⟨by omega, by simp⟩
    | cons o ops ih =>
      have hq := h o (by simp)
      have hr : ∀ o ∈ ops, o.quiet = true := fun x hx => h x (by simp [hx])
      cases o with
      | set v => simp [LazyOp.quiet] at hq
      | clear => simp [LazyOp.quiet] at hq
      | setLazy f => exact ih hr (k.setLazy f) (by simpa [lazyRun] using hrun) (by simp [Lazy.setLazy, hv])
      | isSet => exact ih hr k (by simpa [lazyRun] using hrun) hv
      | get =>
        obtain ⟨val, f, c⟩ := k
        simp only at hv
        subst hv
        cases f with
        | none => simp [lazyRun, Lazy.get, bind, Except.bind] at hrun
        | some f =>
          simp only [lazyRun, Lazy.get, bind, Except.bind] at hrun
          obtain ⟨vs', k'', h1, h2, h3⟩ := lazyRun_isSet ⟨some (f c), some f, c + 1⟩ (f c) rfl ops hr
          rw [h1] at hrun
          simp only [pure, Except.pure, Except.ok.injEq, Prod.mk.injEq] at hrun
          obtain ⟨rfl, rfl⟩ := hrun
          refine ⟨by simp only at h2 ⊢; omega, ?_⟩
          have : ∀ z ∈ f c :: vs', z = f c := by
            intro z hz
            rcases List.mem_cons.mp hz with rfl | hz
            · rfl
            · exact h3 z hz
          intro x hx y hy
          rw [this x hx, this y hy]

/-- C17: `Set` overrides, whatever happened before. -/
theorem C17_lazy_set {α : Type} (k : Lazy α) (v : α) (ops : List (LazyOp α))
    (h : ∀ o ∈ ops, o.quiet = true) :
    ∃ vs k', lazyRun k (.set v :: ops) = .ok (vs, k') ∧ ∀ x ∈ vs, x = v := by
  obtain ⟨vs, k', h1, -, h3⟩ := lazyRun_isSet (k.set v) v rfl ops h
  exact ⟨vs, k', h1, h3⟩

/-- C17, what holds of "Get never crashes": without `Clear`, a `Lazy` created with a value or an
evaluator never panics. Missing: `Get` after `Clear` or on `NewLazy` (see
`C17_get_after_clear_panics`). -/
theorem C17_lazy_no_panic_partial {α : Type} (ops : List (LazyOp α)) (k : Lazy α)
    (hk : k.val.isSome = true ∨ k.f.isSome = true)
    (h : ∀ o ∈ ops, match o with | .clear => False | _ => True) :
    ∃ r, lazyRun k ops = .ok r := by
  induction ops generalizing k with
  | nil => exact ⟨_, rfl⟩
  | cons o ops ih =>
    have hq := h o (by simp)
    have hr : ∀ o ∈ ops, match o with | .clear => False | _ => True := fun x hx => h x (by simp [hx])
    cases o with
    | clear => exact hq.elim
    | set v => exact ih _ (by simp [Lazy.set]) hr
    | setLazy f => exact ih _ (by simp [Lazy.setLazy]) hr
    | isSet => exact ih k hk hr
    | get =>
      obtain ⟨val, f, c⟩ := k
      cases val with
      | some v =>
        obtain ⟨r, hr'⟩ := ih ⟨some v, f, c⟩ (by simp) hr
        exact ⟨_, by cases f <;> simp only [lazyRun, Lazy.get, bind, Except.bind, hr'] <;> rfl⟩
      | none =>
        cases f with
        | none => simp at hk
        | some f =>
          obtain ⟨r, hr'⟩ := ih ⟨some (f c), some f, c + 1⟩ (by simp) hr
          exact ⟨_, by simp only [lazyRun, Lazy.get, bind, Except.bind, hr']; rfl⟩

/-- C17, counterexample to "Get never crashes". -/
theorem C17_get_after_clear_panics {α : Type} (f : Nat → α) :
    lazyRun (Lazy.fromFunc f) [.get, .clear, .get] = .error .nilDeref ∧
    lazyRun (Lazy.new : Lazy α) [.get] = .error .nilDeref := ⟨rfl, rfl⟩

example : (match lazyRun (Lazy.fromFunc (fun n => n + 7)) [.get, .isSet, .setLazy (fun _ => 1), .get] with
    | .ok (vs, k) => (vs, k.calls)
    | .error _ => ([], 0)) = ([7, 7], 1) := by decide

/-! ## C49 -/

/-- C49: padding gives length `max n len` and keeps the input at the stated end, filling with
spaces. -/
theorem C49_pad (s : Bytes) (n : Int) :
    ((padLeft s n).length : Int) = max n s.length ∧ ((padRight s n).length : Int) = max n s.length ∧
    (∃ t, padLeft s n = s ++ t ∧ ∀ b ∈ t, b = 0x20) ∧ (∃ t, padRight s n = t ++ s ∧ ∀ b ∈ t, b = 0x20) := by
  unfold padLeft padRight
  refine ⟨?_, ?_, ?_, ?_⟩
  · split <;> simp <;> omega
  · split <;> simp <;> omega
  · split
    · exact ⟨_, rfl, by intro b hb; exact List.eq_of_mem_replicate hb⟩
    · exact ⟨[], by simp, by simp⟩
  · split
    · exact ⟨_, rfl, by intro b hb; exact List.eq_of_mem_replicate hb⟩
    · exact ⟨[], by simp, by simp⟩

/-- C49: `Indent(n)` is `2n` spaces (and panics below -1). -/
theorem C49_indent (n : Nat) : indent n = .ok (List.replicate (2 * n) 0x20) := by
  unfold indent
  rw [if_neg (by omega)]
  have : ((n : Int) + 1).toNat - 1 = n := by omega
  rw [this]
  congr 1
  induction n with
  | zero => rfl
  | succ n ih =>
    rw [List.replicate_succ, List.flatten_cons, ih (by omega)]
    rw [show 2 * (n + 1) = 2 * n + 1 + 1 by omega, List.replicate_succ, List.replicate_succ]
    rfl

example : padLeft (asc "ab") 4 = asc "ab  " ∧ padRight (asc "ab") 4 = asc "  ab" ∧
    indent 2 = .ok (asc "    ") := by decide

end Joeson
