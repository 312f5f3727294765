import Verif.Proofs.RuneStream
/-!
# Properties of codestream_rune.go: C01 - C08
-/

namespace Joeson
open Spec

/-- A `RuneStream` as any sequence of calls can leave it: built from a text, cursor inside it.
`C01_history` shows every reachable stream satisfies it. -/
structure RuneStream.Valid (c : RuneStream) : Prop where
  table : c.lineStarts = lineStartsOf c.text
  inside : c.pos ≤ c.text.length

theorem goSlice_ok {α : Type} (s : List α) (lo hi : Nat) (h1 : lo ≤ hi) (h2 : hi ≤ s.length) :
    goSlice s (lo : Int) (hi : Int) = .ok ((s.drop lo).take (hi - lo)) := by
  unfold goSlice
  rw [if_pos (by omega), Int.toNat_natCast]
  congr 2
  omega

theorem goSlice_rest {α : Type} (s : List α) (lo : Nat) (h1 : lo ≤ s.length) :
    goSlice s (lo : Int) (s.length : Int) = .ok (s.drop lo) := by
  rw [goSlice_ok s lo s.length h1 (le_refl _), List.take_of_length_le (by rw [List.length_drop])]

/-! ## C03 -/

/-- C03: `MatchString(s)` succeeds exactly when the remaining input starts with `s`, and advances
by its length. -/
theorem C03_matchString (c : RuneStream) (hc : c.Valid) (s : Bytes) :
    (∀ rest, c.text.drop c.pos = s ++ rest →
      c.matchString s = .ok (some s, { c with pos := c.pos + s.length })) ∧
    ((∀ rest, c.text.drop c.pos ≠ s ++ rest) → c.matchString s = .ok (none, c)) := by
  have hp := hc.inside
  have hcond : 0 ≤ (c.pos : Int) ∧ (c.pos : Int) ≤ goMin (c.pos + s.length) c.text.length ∧
      goMin (c.pos + s.length) c.text.length ≤ (c.text.length : Int) := by
    unfold goMin; split <;> omega
  have hpiece : goSlice c.text c.pos (goMin (c.pos + s.length) c.text.length) =
      .ok ((c.text.drop c.pos).take s.length) := by
    unfold goSlice
    rw [if_pos hcond, Int.toNat_natCast]
    unfold goMin
    split
    · congr 2; omega
    · rw [List.take_of_length_le (by rw [List.length_drop]; omega),
        List.take_of_length_le (by rw [List.length_drop]; omega)]
  constructor
  · intro rest hr
    unfold RuneStream.matchString
    rw [hpiece, hr]
    simp [bind, Except.bind, pure, Except.pure]
  · intro hno
    unfold RuneStream.matchString
    rw [hpiece]
    simp only [bind, Except.bind, pure, Except.pure]
    rw [if_pos]
    intro he
    apply hno ((c.text.drop c.pos).drop s.length)
    conv_lhs => rw [← List.take_append_drop s.length (c.text.drop c.pos)]
    rw [← he]

example : (RuneStream.new (asc "abcd")).Valid ∧
    ((RuneStream.new (asc "abcd")).matchString (asc "abc")).toOption.map (fun r => (r.1, r.2.pos))
      = some (some (asc "abc"), 3) := by
  refine ⟨⟨rfl, by decide⟩, by decide +kernel⟩

/-! ## C05 -/

/-- C05: `MatchRegexp(re)` succeeds exactly when the leftmost match in the remaining input starts at
the cursor; it returns the matched text and advances past it. -/
theorem C05_matchRegexp (c : RuneStream) (hc : c.Valid) (re : Regex) :
    (∀ n, re.find (c.text.drop c.pos) = some (0, n) →
      c.matchRegexp re = .ok (some ((c.text.drop c.pos).take n), { c with pos := c.pos + n }) ∧
      c.pos + n ≤ c.text.length) ∧
    ((∀ n, re.find (c.text.drop c.pos) ≠ some (0, n)) → c.matchRegexp re = .ok (none, c)) := by
  have hp := hc.inside
  constructor
  · intro n hf
    have hb := (re.bounds _ _ _ hf).2
    rw [List.length_drop] at hb
    have hle : c.pos + n ≤ c.text.length := by omega
    refine ⟨?_, hle⟩
    unfold RuneStream.matchRegexp
    rw [goSlice_rest _ _ hp]
    simp only [bind, Except.bind, hf, ne_eq, not_true_eq_false, if_false]
    have hm : goMin ((c.pos : Int) + (n : Int)) (c.text.length : Int) = ((c.pos + n : Nat) : Int) := by
      unfold goMin; split <;> omega
    have h0 : (c.pos : Int) + ((0 : Nat) : Int) = (c.pos : Int) := by omega
    rw [hm, h0, goSlice_ok _ _ _ (by omega) hle]
    simp only [pure, Except.pure]
    congr 3
    congr 1
    omega
  · intro hno
    unfold RuneStream.matchRegexp
    rw [goSlice_rest _ _ hp]
    simp only [bind, Except.bind]
    cases hf : re.find (c.text.drop c.pos) with
    | none => rfl
    | some ab =>
      obtain ⟨a, b⟩ := ab
      have ha : a ≠ 0 := by
        rintro rfl; exact hno b hf
      simp [ha, pure, Except.pure]

/-- A regular expression engine that matches one or more `a` at the leftmost position. -/
def exampleRegex : Regex where
  find s := if s.takeWhile (· == 0x61) = [] then none else some (0, (s.takeWhile (· == 0x61)).length)
  bounds := by
    intro s a b h
    split at h
    · cases h
    · simp only [Option.some.injEq, Prod.mk.injEq] at h
      obtain ⟨rfl, rfl⟩ := h
      exact ⟨by omega, List.Sublist.length_le (List.takeWhile_sublist _)⟩

example : ((RuneStream.new (asc "aab")).matchRegexp exampleRegex).toOption.map (fun r => (r.1, r.2.pos))
      = some (some (asc "aa"), 2) ∧
    ((RuneStream.new (asc "b")).matchRegexp exampleRegex).toOption.map (fun r => (r.1, r.2.pos))
      = some (none, 0) := by decide +kernel

/-! ## C04 -/

theorem rangeRunes_cons (b : UInt8) (s : Bytes) :
    rangeRunes (b :: s) = (0, (decodeRune (b :: s)).1) ::
      rangeRunesAux ((b :: s).drop (decodeRune (b :: s)).2).length (decodeRune (b :: s)).2
        ((b :: s).drop (decodeRune (b :: s)).2) := by
  unfold rangeRunes
  rw [rangeRunesAux_cons, Nat.zero_add]

theorem setPos_ok (c : RuneStream) (n : Nat) (h : n ≤ c.text.length) :
    c.setPos (n : Int) = .ok { c with pos := n } := by
  unfold RuneStream.setPos
  rw [if_neg (by omega), Int.toNat_natCast]

/-- C04: `MatchRune(f)` looks at the first decoded code point of the remaining bytes (any bytes) and
moves by exactly the width of that code point; otherwise it does not move. -/
theorem C04_matchRune (c : RuneStream) (hc : c.Valid) (f : Nat → Bool) :
    c.matchRune f =
      if c.pos = c.text.length then .ok (none, c)
      else if f (decodeRune (c.text.drop c.pos)).1 then
        .ok (some (decodeRune (c.text.drop c.pos)).1,
          { c with pos := c.pos + (decodeRune (c.text.drop c.pos)).2 })
      else .ok (none, c) := by
  have hp := hc.inside
  unfold RuneStream.matchRune
  by_cases he : c.pos = c.text.length
  · rw [if_pos (by omega), if_pos he]; rfl
  rw [if_neg (by omega), if_neg he, goSlice_rest _ _ hp]
  simp only [bind, Except.bind]
  have hlen : (c.text.drop c.pos).length = c.text.length - c.pos := List.length_drop
  cases hd : c.text.drop c.pos with
  | nil => rw [hd] at hlen; simp at hlen; omega
  | cons b s =>
    rw [rangeRunes_cons]
    obtain ⟨w1, _, w2, -⟩ := decodeRune_cons b s
    rw [hd] at hlen
    simp only
    cases hf : f (decodeRune (b :: s)).1 with
    | false => rfl
    | true =>
      simp only [Bool.not_true, Bool.false_eq_true, if_false, if_true]
      cases hrest : (b :: s).drop (decodeRune (b :: s)).2 with
      | nil =>
        have hw : (decodeRune (b :: s)).2 = (b :: s).length := by
          have := congrArg List.length hrest
          rw [List.length_drop] at this
          simp only [List.length_nil] at this
          omega
        simp only [List.length_nil, rangeRunesAux, if_true]
        rw [setPos_ok c _ (le_refl _)]
        simp only [pure, Except.pure]
        congr 3
        omega
      | cons b' s' =>
        rw [rangeRunesAux_cons]
        have hw : (decodeRune (b :: s)).2 < (b :: s).length := by
          by_contra hcon
          rw [List.drop_of_length_le (by omega)] at hrest
          cases hrest
        simp only
        rw [if_neg (by omega), setPos_ok c _ (by omega)]
        rfl

/-- C04 on well formed text: exactly one code point is consumed. -/
theorem C04_matchRune_utf8 (pre : Bytes) (r : Nat) (rs : List Nat) (hr : Scalar r)
    (f : Nat → Bool) (c : RuneStream) (hc : c.Valid) (ht : c.text = pre ++ utf8 (r :: rs))
    (hpos : c.pos = pre.length) :
    c.matchRune f = if f r then .ok (some r, { c with pos := (pre ++ utf8 [r]).length }) else .ok (none, c) := by
  rw [C04_matchRune c hc f]
  have hd : c.text.drop c.pos = encodeRune r ++ utf8 rs := by
    rw [ht, hpos, List.drop_left, utf8_cons, encodeRune_eq_utf8 hr]
  have hne : c.pos ≠ c.text.length := by
    rw [ht, hpos, List.length_append]
    have := @utf8_length_pos r rs
    omega
  rw [if_neg hne, hd, decodeRune_encodeRune hr]
  simp only
  rw [hpos, List.length_append]
  have : utf8 [r] = encodeRune r := by rw [encodeRune_eq_utf8 hr]; simp [utf8]
  rw [this]

example : ((RuneStream.new (utf8 [0x20AC, 0x61])).matchRune (fun r => r == 0x20AC)).toOption.map
      (fun r => (r.1, r.2.pos)) = some (some 0x20AC, 3) ∧
    ((RuneStream.new [0xFF]).matchRune (fun r => r == 0xFFFD)).toOption.map
      (fun r => (r.1, r.2.pos)) = some (some 0xFFFD, 1) := by decide +kernel

/-! ## C06 -/

/-- C06 (terminator present): the piece returned ends with the first occurrence of the terminator
and the cursor moves just after it. -/
theorem C06_getUntil_found (c : RuneStream) (hc : c.Valid) (e a : Bytes)
    (h : FirstOccurrence e (c.text.drop c.pos) a) :
    c.getUntil e = .ok (a ++ e, { c with pos := c.pos + (a ++ e).length }) ∧
    ∃ b, c.text.drop c.pos = (a ++ e) ++ b := by
  have hp := hc.inside
  obtain ⟨⟨b, hb⟩, hmin⟩ := h
  refine ⟨?_, b, hb⟩
  unfold RuneStream.getUntil
  rw [goSlice_rest _ _ hp]
  simp only [bind, Except.bind]
  have hs := stringsIndex_spec e (c.text.drop c.pos)
  cases hi : stringsIndex e (c.text.drop c.pos) with
  | none => rw [hi] at hs; exact absurd hb (hs a b)
  | some o =>
    rw [hi] at hs
    simp only at hs
    obtain ⟨⟨⟨b2, hb2⟩, hmin2⟩, ho, ho2⟩ := hs
    have h1 := hmin _ _ hb2
    have h2 := hmin2 _ _ hb
    have hl : ((c.text.drop c.pos).take o).length = o := by rw [List.length_take]; omega
    have hoa : o = a.length := by omega
    have hae : (c.text.drop c.pos).take (a.length + e.length) = a ++ e := by
      rw [hb, ← List.length_append, List.take_left]
    have hlen : (c.text.drop c.pos).length = c.text.length - c.pos := List.length_drop
    simp only
    rw [show o + c.pos + e.length = c.pos + (a.length + e.length) by omega,
      goSlice_ok _ _ _ (by omega) (by omega)]
    simp only [pure, Except.pure]
    rw [Nat.add_sub_cancel_left, hae, List.length_append]

/-- C06 (terminator absent), what the code does: it returns the whole rest and moves to the end. -/
theorem C06_getUntil_absent (c : RuneStream) (hc : c.Valid) (e : Bytes)
    (h : ∀ a b, c.text.drop c.pos ≠ a ++ e ++ b) :
    c.getUntil e = .ok (c.text.drop c.pos, { c with pos := c.text.length }) := by
  have hp := hc.inside
  unfold RuneStream.getUntil
  rw [goSlice_rest _ _ hp]
  simp only [bind, Except.bind]
  have hs := stringsIndex_spec e (c.text.drop c.pos)
  cases hi : stringsIndex e (c.text.drop c.pos) with
  | some o =>
    rw [hi] at hs
    obtain ⟨⟨⟨b2, hb2⟩, -⟩, -⟩ := hs
    exact absurd hb2 (h _ _)
  | none =>
    simp only
    rw [goSlice_rest _ _ hp]
    rfl

/-- C06, counterexample to the documented promise "returns the empty string and does not move when
not found" (codestream.go:31-34). -/
theorem C06_getUntil_absent_moves : ∃ c : RuneStream, c.Valid ∧ ∃ e r c', (∀ a b, c.text.drop c.pos ≠ a ++ e ++ b) ∧
    c.getUntil e = .ok (r, c') ∧ r ≠ [] ∧ c'.pos ≠ c.pos := by
  have hv : (RuneStream.new (asc "ab")).Valid := ⟨rfl, by decide⟩
  have habs : ∀ a b, (RuneStream.new (asc "ab")).text.drop (RuneStream.new (asc "ab")).pos ≠ a ++ asc "x" ++ b := by
    intro a b h
    have hx : (0x78 : UInt8) ∈ (asc "ab").drop 0 := by
      have h' : (asc "ab").drop 0 = a ++ asc "x" ++ b := h
      rw [h']; simp [asc]
    revert hx; decide
  exact ⟨_, hv, asc "x", _, _, habs, C06_getUntil_absent _ hv _ habs, by decide, by decide⟩

example : FirstOccurrence (asc "*/") (asc "a*b*/c*/") (asc "a*b") := by
  refine ⟨⟨asc "c*/", by decide⟩, ?_⟩
  intro a' b' h
  have hs := stringsIndex_spec (asc "*/") (asc "a*b*/c*/")
  have e : stringsIndex (asc "*/") (asc "a*b*/c*/") = some 3 := by decide
  rw [e] at hs
  exact hs.1.2 a' b' h

/-! ## C02 -/

/-- C02: line = number of newlines before, column = number of bytes since the line start. -/
theorem C02_line_col (c : RuneStream) (hc : c.Valid) (p : Nat) (hp : p ≤ c.text.length) :
    c.posToLine p = newlines (c.text.take p) ∧
    c.posToCol p = .ok ((afterLastNewline (c.text.take p)).length : Int) := by
  have hl : c.posToLine p = newlines (c.text.take p) := by
    unfold RuneStream.posToLine
    rw [hc.table, bisectRight_lineStarts _ _ hp]
    omega
  refine ⟨hl, ?_⟩
  unfold RuneStream.posToCol
  rw [hl, hc.table]
  unfold goIndex
  rw [if_pos (by omega), Int.toNat_natCast, lineStart_get _ _ hp]
  simp only [bind, Except.bind, pure, Except.pure, Except.ok.injEq]
  omega

example : (RuneStream.new (asc "ab\ncd\n\nxyz")).posToLine 9 = 3 ∧
    (RuneStream.new (asc "ab\ncd\n\nxyz")).posToCol 9 = .ok 2 ∧
    newlines ((asc "ab\ncd\n\nxyz").take 9) = 3 := by decide +kernel

/-! ## C07 -/

/-- C07: forward peek returns the next `n` code points. -/
theorem C07_peek_forward (c : RuneStream) (pre : Bytes) (rs : List Nat)
    (hrs : ∀ r ∈ rs, Scalar r) (ht : c.text = pre ++ utf8 rs) (hpos : c.pos = pre.length) (n : Nat) (hn : 0 < n) :
    c.peekRunes n = .ok (utf8 (rs.take n)) := by
  unfold RuneStream.peekRunes
  rw [if_neg (by omega), goSlice_rest _ _ (by rw [ht, hpos]; simp)]
  simp only [bind, Except.bind, pure, Except.pure, Except.ok.injEq, Int.toNat_natCast]
  rw [ht, hpos, List.drop_left]
  unfold RuneStream.peekForward
  have h1 : ((rangeRunes (utf8 rs)).take n).map Prod.snd = rs.take n := by
    rw [List.map_take, rangeRunes_utf8 rs hrs]
  rw [← h1]
  have h2 : ∀ l : List (Nat × Nat), (∀ p ∈ l, Scalar p.2) →
      l.flatMap (fun p => encodeRune p.2) = utf8 (l.map Prod.snd) := by
    intro l
    induction l with
    | nil => intro _; rfl
    | cons p l ih =>
      intro h
      rw [List.flatMap_cons, List.map_cons, utf8_cons, encodeRune_eq_utf8 (h p (by simp)),
        ih (fun q hq => h q (by simp [hq]))]
  apply h2
  intro p hp
  apply hrs
  have : p.2 ∈ ((rangeRunes (utf8 rs)).take n).map Prod.snd := List.mem_map_of_mem hp
  rw [h1] at this
  exact List.mem_of_mem_take this

/-- C07: backward peek returns the previous `n` code points in natural order, on text without
U+FFFD before the cursor. -/
theorem C07_peek_backward (c : RuneStream) (rs : List Nat) (post : Bytes)
    (hrs : ∀ r ∈ rs, Scalar r ∧ r ≠ 0xFFFD) (ht : c.text = utf8 rs ++ post) (hpos : c.pos = (utf8 rs).length) (n : Nat) :
    c.peekRunes (-n) = .ok (utf8 (rs.drop (rs.length - n))) := by
  unfold RuneStream.peekRunes
  have hs : goSlice c.text 0 (c.pos : Int) = .ok (utf8 rs) := by
    have := goSlice_ok c.text 0 c.pos (by omega) (by rw [ht, hpos]; simp)
    simp only [Nat.cast_zero] at this
    rw [this, List.drop_zero, Nat.sub_zero, ht, hpos, List.take_left]
  rw [if_pos (by omega), hs]
  simp only [bind, Except.bind]
  have hl := lastNRunesLoop_utf8 n rs hrs
  unfold lastNRunes
  rw [show (- -(n : Int)).toNat = n by omega, hl]
  simp only [bind, Except.bind, pure, Except.pure, Except.ok.injEq]
  have := utf8_append (rs.take (rs.length - n)) (rs.drop (rs.length - n))
  rw [List.take_append_drop] at this
  conv_lhs => rw [this]
  rw [List.length_append, Nat.add_sub_cancel, List.drop_left]

/-- C07: a forward peek never panics, on any bytes. -/
theorem C07_peek_forward_total (c : RuneStream) (hc : c.Valid) (n : Int) (hn : 0 < n) :
    ∃ r, c.peekRunes n = .ok r := by
  unfold RuneStream.peekRunes
  rw [if_neg (by omega), goSlice_rest _ _ hc.inside]
  exact ⟨_, rfl⟩

/-- C07, counterexample for U+FFFD, which is a valid code point: peeking backward over it panics. -/
theorem C07_peek_backward_replacement_char_panics :
    (RuneStream.mk (utf8 [0x61, 0xFFFD]) 4 (lineStartsOf (utf8 [0x61, 0xFFFD]))).peekRunes (-1)
      = .error .runeError := by decide +kernel

example : (RuneStream.mk (utf8 [0x61, 0xE9, 0x20AC, 0x62]) 3 [0]).peekRunes (-1) = .ok (utf8 [0xE9]) ∧
    (RuneStream.mk (utf8 [0x61, 0xE9, 0x20AC, 0x62]) 3 [0]).peekRunes 5 = .ok (utf8 [0x20AC, 0x62]) := by
  decide +kernel

/-! ## C08 -/

theorem foldl_min_eq (ns : List Int) (n0 : Int) :
    ns.foldl (fun m n => if n < m then n else m) n0 = ns.foldl min n0 := by
  congr 1; funext m n; split <;> omega

theorem foldl_max_eq (ns : List Int) (n0 : Int) :
    ns.foldl (fun m n => if n > m then n else m) n0 = ns.foldl max n0 := by
  congr 1; funext m n; split <;> omega

/-- The text between the start of line `i` and the end of line `j`. -/
theorem slice_lines (text : Bytes) (i j : Nat) (hij : i ≤ j) (hj : j < (lines text).length) :
    ((text.drop (blockLen ((lines text).take i))).take
      ((if j + 1 < (lines text).length then blockLen ((lines text).take (j + 1)) - 1 else text.length)
        - blockLen ((lines text).take i)))
    = joinLines (((lines text).drop i).take (j + 1 - i)) := by
  set L := lines text with hL
  have htext : joinLines L = text := joinLines_lines text
  have hsplit1 : L = L.take i ++ L.drop i := (List.take_append_drop _ _).symm
  have hne1 : L.drop i ≠ [] := by
    intro h
    have := congrArg List.length h
    rw [List.length_drop] at this
    simp at this; omega
  have ht1 : text = block (L.take i) ++ joinLines (L.drop i) := by
    rw [← htext]; conv_lhs => rw [hsplit1]
    exact joinLines_append _ _ hne1
  have hmid : ((L.drop i).take (j + 1 - i)) ≠ [] := by
    intro h
    have := congrArg List.length h
    rw [List.length_take, List.length_drop] at this
    simp at this; omega
  by_cases hlast : j + 1 < L.length
  · rw [if_pos hlast]
    have hsplit2 : L.drop i = (L.drop i).take (j + 1 - i) ++ L.drop (j + 1) := by
      conv_lhs => rw [← List.take_append_drop (j + 1 - i) (L.drop i)]
      rw [List.drop_drop]; congr 2; omega
    have hne2 : L.drop (j + 1) ≠ [] := by
      intro h
      have := congrArg List.length h
      rw [List.length_drop] at this
      simp at this; omega
    have ht2 : joinLines (L.drop i) = block ((L.drop i).take (j + 1 - i)) ++ joinLines (L.drop (j + 1)) := by
      conv_lhs => rw [hsplit2]
      exact joinLines_append _ _ hne2
    have hb : blockLen (L.take (j + 1)) = blockLen (L.take i) + blockLen ((L.drop i).take (j + 1 - i)) := by
      have : L.take (j + 1) = L.take i ++ (L.drop i).take (j + 1 - i) := by
        have := List.take_add (l := L) (i := i) (j := j + 1 - i)
        rw [← this]; congr 1; omega
      rw [this]; simp [blockLen]
    rw [hb, ht1, ← block_length (L.take i), List.drop_left, ht2, joinLines_block _ hmid, ← block_length,
      joinLines_block _ hmid, List.append_assoc]
    rw [List.length_append, List.length_singleton]
    rw [show (block (L.take i)).length + ((joinLines ((L.drop i).take (j + 1 - i))).length + 1) - 1
      - (block (L.take i)).length = (joinLines ((L.drop i).take (j + 1 - i))).length by omega]
    rw [List.take_left]
  · rw [if_neg hlast]
    have : (L.drop i).take (j + 1 - i) = L.drop i := List.take_of_length_le (by rw [List.length_drop]; omega)
    rw [this, ← block_length, List.take_of_length_le (by rw [List.length_drop])]
    conv_lhs => rw [ht1]
    rw [List.drop_left]

/-- C08: with the requested range `[cur+min, cur+max]` meeting the text, `PeekLines` returns
exactly the requested lines, clipped to the text, joined by newlines. `ns` is the argument list
after the code's own completion of a single argument with `0`.
Missing from the full claim: ranges entirely outside the text (they panic or give a wrong piece,
see `C08_peekLines_outside_panics`) and the call without argument (`C08_peekLines_no_argument`). -/
theorem C08_peekLines_partial (c : RuneStream) (hc : c.Valid) (n0 : Int) (ns : List Int) :
    let args := if ns = [] then [0] else ns
    let mn := args.foldl min n0
    let mx := args.foldl max n0
    let cur : Int := newlines (c.text.take c.pos)
    let last : Int := (lines c.text).length - 1
    let i := max 0 (cur + mn)
    let j := min last (cur + mx)
    cur + mn ≤ last → 0 ≤ cur + mx →
    c.peekLines (n0 :: ns) =
      .ok (joinLines (((lines c.text).drop i.toNat).take (j - i + 1).toNat)) := by
  intro args mn mx cur last i j h1 h2
  have hcur : c.line = cur := (C02_line_col c hc c.pos hc.inside).1
  have hcall : c.peekLines (n0 :: ns) = RuneStream.peekLinesCore c.text c.lineStarts c.line n0 args := by
    cases ns <;> simp [RuneStream.peekLines, args]
  have hmm : mn ≤ mx := by
    have hfold : ∀ (l : List Int) (a b : Int), a ≤ b → l.foldl min a ≤ l.foldl max b := by
      intro l
      induction l with
      | nil => intro a b h; exact h
      | cons x l ih => intro a b h; exact ih _ _ (by omega)
    exact hfold args n0 n0 (le_refl _)
  rw [hcall, hcur, hc.table]
  unfold RuneStream.peekLinesCore
  simp only
  rw [foldl_min_eq, foldl_max_eq, lineStartsOf_lines]
  have hlen : ((startsOf 0 (lines c.text)).map (Nat.cast : Nat → Int)).length = (lines c.text).length := by
    rw [List.length_map, startsOf_length]
  have hpos : 0 < (lines c.text).length := List.length_pos_iff.mpr (lines_ne_nil _)
  have hmax : goMax 0 (cur + mn) = i := by
    unfold goMax; split <;> omega
  have hmin : goMin (((startsOf 0 (lines c.text)).map (Nat.cast : Nat → Int)).length - 1) (cur + mx) = j := by
    rw [hlen]; unfold goMin; split <;> omega
  have hget : ∀ k : Nat, k < (lines c.text).length →
      goIndex ((startsOf 0 (lines c.text)).map (Nat.cast : Nat → Int)) (k : Int)
        = .ok ((blockLen ((lines c.text).take k) : Nat) : Int) := by
    intro k hk
    unfold goIndex
    rw [if_pos (by omega), Int.toNat_natCast, List.getElem?_map, startsOf_get _ _ _ hk]
    simp
  have hi : (i.toNat : Int) = i := by omega
  have hj : (j.toNat : Int) = j := by omega
  rw [show args.foldl min n0 = mn from rfl, show args.foldl max n0 = mx from rfl]
  rw [hmax, hmin, ← hi, hget i.toNat (by omega)]
  simp only [bind, Except.bind]
  have hsl := slice_lines c.text i.toNat j.toNat (by omega) (by omega)
  have hgoal : (j - i + 1).toNat = j.toNat + 1 - i.toNat := by omega
  rw [show j - (i.toNat : Int) + 1 = j - i + 1 by omega, hgoal, Int.toNat_natCast, ← hsl]
  -- bounds
  have hstart : blockLen ((lines c.text).take i.toNat) ≤ c.text.length := by
    have hne1 : (lines c.text).drop i.toNat ≠ [] := by
      intro h
      have := congrArg List.length h
      rw [List.length_drop] at this
      simp at this; omega
    have := joinLines_append ((lines c.text).take i.toNat) _ hne1
    rw [List.take_append_drop, joinLines_lines] at this
    have := congrArg List.length this
    rw [List.length_append, block_length] at this
    omega
  have hslice : ∀ (a b : Nat), a ≤ c.text.length → b ≤ c.text.length → a ≤ b →
      sliceString c.text (a : Int) (b : Int) = .ok ((c.text.drop a).take (b - a)) := by
    intro a b ha hb hab
    unfold sliceString
    by_cases h : (a : Int) ≥ c.text.length
    · rw [if_pos h, List.drop_of_length_le (by omega)]; simp
    · rw [if_neg h]
      simp only [if_neg (show ¬ ((a : Int) < 0) by omega), if_neg (show ¬ ((b : Int) < 0) by omega)]
      by_cases hba : (b : Int) ≤ a
      · rw [if_pos hba, show b - a = 0 by omega]; simp
      · rw [if_neg hba, if_neg (by omega), goSlice_ok _ _ _ hab hb]
  by_cases hlast : j.toNat + 1 < (lines c.text).length
  · rw [if_pos (by rw [hlen]; omega)]
    rw [show j + 1 = ((j.toNat + 1 : Nat) : Int) by omega, hget _ hlast]
    simp only [pure, Except.pure, if_pos hlast]
    have hge : 1 ≤ blockLen ((lines c.text).take (j.toNat + 1)) := by
      rw [List.take_succ_eq_append_getElem (by omega)]
      simp only [blockLen, List.map_append, List.sum_append, List.map_cons, List.map_nil, List.sum_cons,
        List.sum_nil]
      omega
    have hle : blockLen ((lines c.text).take i.toNat) ≤ blockLen ((lines c.text).take (j.toNat + 1)) - 1 := by
      rw [List.take_succ_eq_append_getElem (by omega : j.toNat < (lines c.text).length)]
      have : (lines c.text).take i.toNat = ((lines c.text).take j.toNat).take i.toNat := by
        rw [List.take_take]; congr 1; omega
      have hmono : blockLen ((lines c.text).take i.toNat) ≤ blockLen ((lines c.text).take j.toNat) := by
        rw [this]
        conv_rhs => rw [← List.take_append_drop i.toNat ((lines c.text).take j.toNat)]
        simp only [blockLen, List.map_append, List.sum_append]
        omega
      simp only [blockLen, List.map_append, List.sum_append, List.map_cons, List.map_nil, List.sum_cons,
        List.sum_nil] at *
      omega
    have htot : blockLen ((lines c.text).take (j.toNat + 1)) ≤ c.text.length := by
      have hne1 : (lines c.text).drop (j.toNat + 1) ≠ [] := by
        intro h
        have := congrArg List.length h
        rw [List.length_drop] at this
        simp at this; omega
      have := joinLines_append ((lines c.text).take (j.toNat + 1)) _ hne1
      rw [List.take_append_drop, joinLines_lines] at this
      have := congrArg List.length this
      rw [List.length_append, block_length] at this
      omega
    rw [show ((blockLen ((lines c.text).take (j.toNat + 1)) : Nat) : Int) - 1
      = ((blockLen ((lines c.text).take (j.toNat + 1)) - 1 : Nat) : Int) by omega]
    exact hslice _ _ hstart (by omega) hle
  · rw [if_neg (by rw [hlen]; omega)]
    simp only [pure, Except.pure, if_neg hlast]
    exact hslice _ _ hstart (le_refl _) hstart

/-- C08, counterexample: asking for lines after the last one panics. -/
theorem C08_peekLines_outside_panics :
    (RuneStream.new (asc "one\ntwo")).peekLines [2, 3] = .error .indexOutOfRange ∧
    (RuneStream.new (asc "one\ntwo")).peekLines [-3, -2] = .error .indexOutOfRange := by decide +kernel

/-- C08, counterexample: asking, from the first line, for the line before it returns the text without
its last byte instead of nothing. -/
theorem C08_peekLines_before_first_is_wrong :
    (RuneStream.new (asc "one\ntwo")).peekLines [-2, -1] = .ok (asc "one\ntw") := by decide +kernel

/-- C08, counterexample: without argument the documented result is the current line
(codestream.go:50-58); the code returns the empty string for every stream. -/
theorem C08_peekLines_no_argument (c : RuneStream) : c.peekLines [] = .ok [] := rfl

example : (RuneStream.new (asc "one\ntwo\nthree")).peekLines [1] = .ok (asc "one\ntwo") ∧
    lines (asc "one\ntwo\nthree") = [asc "one", asc "two", asc "three"] := by decide +kernel

/-! ## C01 -/

/-- A call on a stream. -/
inductive StreamOp where
  | setPos (n : Int)
  | matchString (s : Bytes)
  | matchRegexp (re : Regex)
  | matchRune (f : Nat → Bool)
  | getUntil (e : Bytes)
  | peekRunes (n : Int)
  | peekLines (ns : List Int)

/-- Result of a call: the stream afterwards. -/
def StreamOp.exec (c : RuneStream) : StreamOp → Except Panic RuneStream
  | .setPos n => c.setPos n
  | .matchString s => (c.matchString s).map Prod.snd
  | .matchRegexp re => (c.matchRegexp re).map Prod.snd
  | .matchRune f => (c.matchRune f).map Prod.snd
  | .getUntil e => (c.getUntil e).map Prod.snd
  | .peekRunes n => (c.peekRunes n).map (fun _ => c)
  | .peekLines ns => (c.peekLines ns).map (fun _ => c)

/-- A caller that recovers from panics and goes on with the stream. The methods that can panic
(`setPos`, `peekRunes`, `peekLines`) do so before any assignment, so the stream is unchanged. -/
def StreamOp.execRecover (c : RuneStream) (o : StreamOp) : RuneStream :=
  match o.exec c with
  | .ok c' => c'
  | .error _ => c

theorem exec_valid (c : RuneStream) (hc : c.Valid) (o : StreamOp) (c' : RuneStream) (h : o.exec c = .ok c') :
    c'.Valid ∧ c'.text = c.text := by
  have hp := hc.inside
  cases o with
  | setPos n =>
    simp only [StreamOp.exec, RuneStream.setPos] at h
    split at h
    · cases h
    · simp only [Except.ok.injEq] at h
      subst h
      exact ⟨⟨hc.table, by simp only; omega⟩, rfl⟩
  | matchString s =>
    simp only [StreamOp.exec] at h
    by_cases hex : ∃ rest, c.text.drop c.pos = s ++ rest
    · obtain ⟨rest, hr⟩ := hex
      rw [(C03_matchString c hc s).1 rest hr] at h
      simp only [Except.map, Except.ok.injEq] at h
      subst h
      have := congrArg List.length hr
      rw [List.length_drop, List.length_append] at this
      exact ⟨⟨hc.table, by simp only; omega⟩, rfl⟩
    · rw [(C03_matchString c hc s).2 (fun rest hr => hex ⟨rest, hr⟩)] at h
      simp only [Except.map, Except.ok.injEq] at h
      subst h
      exact ⟨hc, rfl⟩
  | matchRegexp re =>
    simp only [StreamOp.exec] at h
    by_cases hex : ∃ n, re.find (c.text.drop c.pos) = some (0, n)
    · obtain ⟨n, hr⟩ := hex
      obtain ⟨h1, h2⟩ := (C05_matchRegexp c hc re).1 n hr
      rw [h1] at h
      simp only [Except.map, Except.ok.injEq] at h
      subst h
      exact ⟨⟨hc.table, h2⟩, rfl⟩
    · rw [(C05_matchRegexp c hc re).2 (fun n hr => hex ⟨n, hr⟩)] at h
      simp only [Except.map, Except.ok.injEq] at h
      subst h
      exact ⟨hc, rfl⟩
  | matchRune f =>
    simp only [StreamOp.exec] at h
    rw [C04_matchRune c hc f] at h
    by_cases he : c.pos = c.text.length
    · rw [if_pos he] at h
      simp only [Except.map, Except.ok.injEq] at h
      subst h; exact ⟨hc, rfl⟩
    · rw [if_neg he] at h
      split at h
      · simp only [Except.map, Except.ok.injEq] at h
        subst h
        refine ⟨⟨hc.table, ?_⟩, rfl⟩
        simp only
        have := decodeRune_width_le (c.text.drop c.pos)
        rw [List.length_drop] at this
        omega
      · simp only [Except.map, Except.ok.injEq] at h
        subst h; exact ⟨hc, rfl⟩
  | getUntil e =>
    simp only [StreamOp.exec] at h
    have hs := stringsIndex_spec e (c.text.drop c.pos)
    cases hi : stringsIndex e (c.text.drop c.pos) with
    | some o =>
      rw [hi] at hs
      obtain ⟨h1, b, h2⟩ := C06_getUntil_found c hc e _ hs.1
      rw [h1] at h
      simp only [Except.map, Except.ok.injEq] at h
      subst h
      have := congrArg List.length h2
      rw [List.length_drop, List.length_append] at this
      exact ⟨⟨hc.table, by simp only; omega⟩, rfl⟩
    | none =>
      rw [hi] at hs
      rw [C06_getUntil_absent c hc e hs] at h
      simp only [Except.map, Except.ok.injEq] at h
      subst h
      exact ⟨⟨hc.table, by simp⟩, rfl⟩
  | peekRunes n =>
    simp only [StreamOp.exec] at h
    cases hr : c.peekRunes n with
    | error e => rw [hr] at h; cases h
    | ok r =>
      rw [hr] at h
      simp only [Except.map, Except.ok.injEq] at h
      subst h; exact ⟨hc, rfl⟩
  | peekLines n =>
    simp only [StreamOp.exec] at h
    cases hr : c.peekLines n with
    | error e => rw [hr] at h; cases h
    | ok r =>
      rw [hr] at h
      simp only [Except.map, Except.ok.injEq] at h
      subst h; exact ⟨hc, rfl⟩

/-- C01: after any history of calls, the cursor is between 0 and the length of the (unchanged)
text, and the stream is `Valid`, the hypothesis of the other properties. -/
theorem C01_history (text : Bytes) (ops : List StreamOp) :
    let c := ops.foldl StreamOp.execRecover (RuneStream.new text)
    c.pos ≤ text.length ∧ c.text = text ∧ c.Valid := by
  have key : ∀ (ops : List StreamOp) (c : RuneStream), c.Valid →
      (ops.foldl StreamOp.execRecover c).Valid ∧ (ops.foldl StreamOp.execRecover c).text = c.text := by
    intro ops
    induction ops with
    | nil => intro c hc; exact ⟨hc, rfl⟩
    | cons o ops ih =>
      intro c hc
      have hstep : (o.execRecover c).Valid ∧ (o.execRecover c).text = c.text := by
        unfold StreamOp.execRecover
        cases he : o.exec c with
        | ok c' => exact exec_valid c hc o c' he
        | error e => exact ⟨hc, rfl⟩
      obtain ⟨h1, h2⟩ := ih _ hstep.1
      exact ⟨h1, h2.trans hstep.2⟩
  have h0 : (RuneStream.new text).Valid := ⟨rfl, by simp [RuneStream.new]⟩
  obtain ⟨h1, h2⟩ := key ops _ h0
  have h3 : (ops.foldl StreamOp.execRecover (RuneStream.new text)).text = text := h2
  refine ⟨?_, h3, h1⟩
  have := h1.inside
  rw [h3] at this
  exact this

/-- C01: `SetPos` panics exactly outside `[0, Length()]`; inside it sets the position. -/
theorem C01_setPos (c : RuneStream) (n : Int) :
    (0 ≤ n ∧ n ≤ c.text.length → ∃ c', c.setPos n = .ok c' ∧ (c'.pos : Int) = n ∧ c'.text = c.text) ∧
    (¬ (0 ≤ n ∧ n ≤ c.text.length) → c.setPos n = .error .outOfBound) := by
  unfold RuneStream.setPos
  constructor
  · intro h
    rw [if_neg (by omega)]
    exact ⟨_, rfl, by simp only; omega, rfl⟩
  · intro h
    rw [if_pos (by omega)]

/-- C01: among the moving calls only `SetPos` can panic. -/
theorem C01_only_setPos_panics (c : RuneStream) (hc : c.Valid) (o : StreamOp) (e : Panic)
    (h : o.exec c = .error e) :
    (∃ n, o = .setPos n ∧ e = .outOfBound ∧ (n < 0 ∨ n > c.text.length)) ∨ (∃ n, o = .peekRunes n ∧ n ≤ 0) ∨
      ∃ ns, o = .peekLines ns ∧ ns ≠ [] := by
  cases o with
  | setPos n =>
    left
    simp only [StreamOp.exec, RuneStream.setPos] at h
    split at h
    · rename_i hn
      simp only [Except.error.injEq] at h
      exact ⟨n, rfl, h.symm, hn⟩
    · cases h
  | matchString s =>
    simp only [StreamOp.exec] at h
    by_cases hex : ∃ rest, c.text.drop c.pos = s ++ rest
    · obtain ⟨rest, hr⟩ := hex
      rw [(C03_matchString c hc s).1 rest hr] at h
      cases h
    · rw [(C03_matchString c hc s).2 (fun rest hr => hex ⟨rest, hr⟩)] at h
      cases h
  | matchRegexp re =>
    simp only [StreamOp.exec] at h
    by_cases hex : ∃ n, re.find (c.text.drop c.pos) = some (0, n)
    · obtain ⟨n, hr⟩ := hex
      rw [((C05_matchRegexp c hc re).1 n hr).1] at h
      cases h
    · rw [(C05_matchRegexp c hc re).2 (fun n hr => hex ⟨n, hr⟩)] at h
      cases h
  | matchRune f =>
    simp only [StreamOp.exec] at h
    rw [C04_matchRune c hc f] at h
    repeat' split at h
    all_goals cases h
  | getUntil e =>
    simp only [StreamOp.exec] at h
    have hs := stringsIndex_spec e (c.text.drop c.pos)
    cases hi : stringsIndex e (c.text.drop c.pos) with
    | some o =>
      rw [hi] at hs
      rw [(C06_getUntil_found c hc e _ hs.1).1] at h
      cases h
    | none =>
      rw [hi] at hs
      rw [C06_getUntil_absent c hc e hs] at h
      cases h
  | peekRunes n =>
    right; left
    refine ⟨n, rfl, ?_⟩
    by_contra hn
    obtain ⟨r, hr⟩ := C07_peek_forward_total c hc n (by omega)
    simp only [StreamOp.exec, hr] at h
    cases h
  | peekLines ns =>
    right; right
    refine ⟨ns, rfl, ?_⟩
    rintro rfl
    cases h

example : (([.matchString (asc "ab"), .setPos (-1), .setPos 7, .getUntil (asc "x"), .setPos 2] :
    List StreamOp).foldl StreamOp.execRecover (RuneStream.new (asc "abcd"))).pos = 2 := by decide +kernel

end Joeson
