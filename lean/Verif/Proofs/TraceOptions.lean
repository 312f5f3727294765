import Verif.Model.TraceOptions
import Verif.Spec.TraceOptions
import Verif.Props.Native
/-!
# Lemmas about reading the TRACE variable
-/

namespace Joeson
open Spec

theorem splitByte_ne_nil (sep : UInt8) (s : Bytes) : splitByte sep s ≠ [] := by
  cases s with
  | nil => simp [splitByte]
  | cons b s =>
    unfold splitByte
    split
    · simp
    · split <;> simp

theorem splitByte_free {sep : UInt8} {w : Bytes} (h : sep ∉ w) : splitByte sep w = [w] := by
  induction w with
  | nil => rfl
  | cons b w ih =>
    rw [List.mem_cons, not_or] at h
    rw [splitByte, if_neg (fun e => h.1 e.symm), ih h.2]

theorem splitByte_append {sep : UInt8} {w : Bytes} (s : Bytes) (h : sep ∉ w) :
    splitByte sep (w ++ sep :: s) = w :: splitByte sep s := by
  induction w with
  | nil => simp [splitByte]
  | cons b w ih =>
    rw [List.mem_cons, not_or] at h
    rw [List.cons_append, splitByte, if_neg (fun e => h.1 e.symm), ih h.2]

theorem splitByte_commas (ws : List Bytes) (hne : ws ≠ []) (h : ∀ w ∈ ws, (0x2C : UInt8) ∉ w) :
    splitByte 0x2C (commas ws) = ws := by
  induction ws with
  | nil => exact absurd rfl hne
  | cons w ws ih =>
    cases ws with
    | nil => exact splitByte_free (h w (by simp))
    | cons w' ws =>
      rw [commas, List.append_assoc, show asc "," ++ commas (w' :: ws) = 0x2C :: commas (w' :: ws) from rfl,
        splitByte_append _ (h w (by simp)), ih (by simp) fun x hx => h x (by simp [hx])]
      simp

/-- Every string is a list of words joined by commas. -/
theorem commas_splitByte (s : Bytes) : commas (splitByte 0x2C s) = s ∧ ∀ w ∈ splitByte 0x2C s, (0x2C : UInt8) ∉ w := by
  induction s with
  | nil => simp [splitByte, commas]
  | cons b s ih =>
    have hne := splitByte_ne_nil 0x2C s
    rw [splitByte]
    obtain ⟨w, ws, hw⟩ := List.exists_cons_of_ne_nil hne
    rw [hw] at ih
    by_cases hb : b = 0x2C
    · rw [if_pos hb, hw]
      refine ⟨?_, ?_⟩
      · rw [commas, ih.1, hb]
        · rfl
        · simp
      · intro x hx
        rcases List.mem_cons.mp hx with rfl | hx
        · simp
        · exact ih.2 x hx
    · rw [if_neg hb, hw]
      dsimp only
      refine ⟨?_, ?_⟩
      · cases ws with
        | nil => exact congrArg (b :: ·) ih.1
        | cons w' ws =>
          rw [← ih.1]
          rfl
      · intro x hx
        rcases List.mem_cons.mp hx with rfl | hx
        · rw [List.mem_cons, not_or]
          exact ⟨fun e => hb e.symm, ih.2 w (by simp)⟩
        · exact ih.2 x (by simp [hx])

theorem traceWords_append (opt : TraceOptions) (a b : List Bytes) :
    traceWords opt (a ++ b) = (traceWords opt a >>= fun o => traceWords o b) := by
  induction a generalizing opt with
  | nil => rfl
  | cons v a ih =>
    rw [List.cons_append, traceWords, traceWords]
    rcases traceWord opt v with e | o
    · rfl
    · exact ih o

theorem isPrefixOf_iff' {a s : Bytes} : a.isPrefixOf s = true ↔ ∃ r, s = a ++ r := by
  rw [List.isPrefixOf_iff_prefix]
  exact ⟨fun ⟨r, h⟩ => ⟨r, h.symm⟩, fun ⟨r, h⟩ => ⟨r, h.symm⟩⟩

theorem stringsIndex_zero {a : Bytes} (ha : a ≠ []) (s : Bytes) : stringsIndex a s = some 0 ↔ ∃ r, s = a ++ r := by
  cases s with
  | nil =>
    unfold stringsIndex
    obtain ⟨x, a, rfl⟩ := List.exists_cons_of_ne_nil ha
    simp
  | cons b s =>
    unfold stringsIndex
    by_cases h : a.isPrefixOf (b :: s) = true
    · rw [if_pos h]
      simpa using isPrefixOf_iff'.mp h
    · rw [if_neg h]
      constructor
      · intro hc
        rcases stringsIndex a s with _ | n <;> simp at hc
      · intro hc
        exact absurd (isPrefixOf_iff'.mpr hc) h

theorem numeral_no_eq {s : Bytes} {n : Int} (h : Numeral s n) : (0x3D : UInt8) ∉ s := by
  obtain ⟨sign, ds, -, hd, rfl, hs⟩ := h
  have hdig : (0x3D : UInt8) ∉ ds.map digitByte := by
    intro hc
    obtain ⟨d, hd', he⟩ := List.mem_map.mp hc
    have := congrArg UInt8.toNat he
    rw [digitByte_toNat (hd d hd')] at this
    have h10 := hd d hd'
    simp at this
    omega
  rw [List.mem_append, not_or]
  refine ⟨?_, hdig⟩
  rcases hs with ⟨rfl | rfl, -⟩ | ⟨rfl, -⟩ <;> decide

/-- The part of `traceWord` on `line=N`. -/
theorem lineWord_iff (v : Bytes) (n : Int) : LineWord v n ↔
    (stringsIndex (asc "line=") v = some 0 ∨ stringsIndex (asc "filterline=") v = some 0) ∧
      ∃ a b, splitByte 0x3D v = [a, b] ∧ atoi b = some n := by
  rw [stringsIndex_zero (by decide), stringsIndex_zero (by decide)]
  constructor
  · rintro ⟨s, hv, hn, hf⟩
    have h3 := numeral_no_eq hn
    have ha := (atoi_iff s n).mpr ⟨hn, hf⟩
    rcases hv with rfl | rfl
    · refine ⟨Or.inl ⟨s, rfl⟩, asc "line", s, ?_, ha⟩
      have := splitByte_append (sep := 0x3D) (w := asc "line") s (by decide)
      rw [splitByte_free h3] at this
      exact this
    · refine ⟨Or.inr ⟨s, rfl⟩, asc "filterline", s, ?_, ha⟩
      have := splitByte_append (sep := 0x3D) (w := asc "filterline") s (by decide)
      rw [splitByte_free h3] at this
      exact this
  · rintro ⟨hv, a, b, hs, ha⟩
    have hnf := (atoi_iff b n).mp ha
    rcases hv with ⟨r, rfl⟩ | ⟨r, rfl⟩
    · have := splitByte_append (sep := 0x3D) (w := asc "line") r (by decide)
      rw [show asc "line" ++ 0x3D :: r = asc "line=" ++ r from rfl, hs] at this
      obtain ⟨rfl, h2⟩ := List.cons.inj this
      have hr : r = b := by
        have hc : (0x3D : UInt8) ∉ r := by
          intro hm
          obtain ⟨x, y, rfl, hx⟩ := List.eq_append_cons_of_mem hm
          rw [splitByte_append _ hx] at h2
          have := (List.cons.inj h2).2
          exact splitByte_ne_nil _ _ this.symm
        rw [splitByte_free hc] at h2
        exact ((List.cons.inj h2).1).symm
      subst hr
      exact ⟨r, Or.inl rfl, hnf⟩
    · have := splitByte_append (sep := 0x3D) (w := asc "filterline") r (by decide)
      rw [show asc "filterline" ++ 0x3D :: r = asc "filterline=" ++ r from rfl, hs] at this
      obtain ⟨rfl, h2⟩ := List.cons.inj this
      have hr : r = b := by
        have hc : (0x3D : UInt8) ∉ r := by
          intro hm
          obtain ⟨x, y, rfl, hx⟩ := List.eq_append_cons_of_mem hm
          rw [splitByte_append _ hx] at h2
          have := (List.cons.inj h2).2
          exact splitByte_ne_nil _ _ this.symm
        rw [splitByte_free hc] at h2
        exact ((List.cons.inj h2).1).symm
      subst hr
      exact ⟨r, Or.inr rfl, hnf⟩

/-- The six plain words. -/
def plain : List Bytes := [asc "none", asc "stack", asc "loop", asc "skipsetup", asc "grammar", asc "all"]

/-- What one word does, stated by the word. -/
def WordDoes (o : TraceOptions) (v : Bytes) (o' : TraceOptions) : Prop :=
  (v = asc "none" ∧ o' = mute) ∨ (v = asc "stack" ∧ o' = { o with stack := true }) ∨
  (v = asc "loop" ∧ o' = { o with loop := true }) ∨ (v = asc "skipsetup" ∧ o' = { o with skipSetup := true }) ∨
  (v = asc "grammar" ∧ o' = { o with grammar := true }) ∨ (v = asc "all" ∧ o' = verbose) ∨
  ∃ n, LineWord v n ∧ o' = { o with filterLine := n }

theorem lineWord_not_plain {v : Bytes} {n : Int} (h : LineWord v n) : v ∉ plain := by
  obtain ⟨s, h | h, -⟩ := h <;> subst h <;> simp [plain, asc]

theorem lineWord_unique {v : Bytes} {n m : Int} (h : LineWord v n) (h' : LineWord v m) : n = m := by
  obtain ⟨-, a, b, e, e2⟩ := (lineWord_iff v n).mp h
  obtain ⟨-, a', b', e', e2'⟩ := (lineWord_iff v m).mp h'
  rw [e] at e'
  simp only [List.cons.injEq, and_true] at e'
  rw [e'.2, e2'] at e2
  exact (Option.some.inj e2).symm

theorem traceWord_ok (o : TraceOptions) (v : Bytes) (o' : TraceOptions) :
    traceWord o v = .ok o' ↔ WordDoes o v o' := by
  by_cases hp : v ∈ plain
  · have hl : ∀ n, ¬ LineWord v n := fun n h => lineWord_not_plain h hp
    unfold WordDoes
    simp only [hl, false_and, exists_false, or_false]
    simp only [plain, List.mem_cons, List.not_mem_nil, or_false] at hp
    rcases hp with rfl | rfl | rfl | rfl | rfl | rfl <;> unfold traceWord <;>
      simp +decide only [if_true, if_false, true_and, false_and, or_false, false_or, Except.ok.injEq] <;>
      exact eq_comm
  · have h6 : v ≠ asc "none" ∧ v ≠ asc "stack" ∧ v ≠ asc "loop" ∧ v ≠ asc "skipsetup" ∧ v ≠ asc "grammar" ∧
        v ≠ asc "all" := by simpa [plain] using hp
    obtain ⟨a1, a2, a3, a4, a5, a6⟩ := h6
    unfold WordDoes traceWord
    simp only [a1, a2, a3, a4, a5, a6, if_false, false_and, false_or]
    constructor
    · intro h
      split at h
      · rename_i hpre
        split at h
        · rename_i a n hs
          split at h
          · rename_i m hm
            exact ⟨m, (lineWord_iff v m).mpr ⟨hpre, a, n, hs, hm⟩, (Except.ok.inj h).symm⟩
          · cases h
        · cases h
      · cases h
    · rintro ⟨n, h, rfl⟩
      obtain ⟨hpre, a, b, hs, hb⟩ := (lineWord_iff v n).mp h
      rw [if_pos hpre, hs]
      dsimp only
      rw [hb]

theorem traceWord_recognised (o : TraceOptions) (v : Bytes) : (∃ o', traceWord o v = .ok o') ↔ Recognised v := by
  simp only [traceWord_ok, WordDoes, Recognised, List.mem_cons, List.not_mem_nil, or_false]
  constructor
  · rintro ⟨o', h⟩
    rcases h with ⟨h, -⟩ | ⟨h, -⟩ | ⟨h, -⟩ | ⟨h, -⟩ | ⟨h, -⟩ | ⟨h, -⟩ | ⟨n, h, -⟩
    · exact Or.inl (Or.inl h)
    · exact Or.inl (Or.inr (Or.inl h))
    · exact Or.inl (Or.inr (Or.inr (Or.inl h)))
    · exact Or.inl (Or.inr (Or.inr (Or.inr (Or.inl h))))
    · exact Or.inl (Or.inr (Or.inr (Or.inr (Or.inr (Or.inl h)))))
    · exact Or.inl (Or.inr (Or.inr (Or.inr (Or.inr (Or.inr h)))))
    · exact Or.inr ⟨n, h⟩
  · rintro ((h | h | h | h | h | h) | ⟨n, h⟩)
    · exact ⟨_, Or.inl ⟨h, rfl⟩⟩
    · exact ⟨_, Or.inr (Or.inl ⟨h, rfl⟩)⟩
    · exact ⟨_, Or.inr (Or.inr (Or.inl ⟨h, rfl⟩))⟩
    · exact ⟨_, Or.inr (Or.inr (Or.inr (Or.inl ⟨h, rfl⟩)))⟩
    · exact ⟨_, Or.inr (Or.inr (Or.inr (Or.inr (Or.inl ⟨h, rfl⟩))))⟩
    · exact ⟨_, Or.inr (Or.inr (Or.inr (Or.inr (Or.inr (Or.inl ⟨h, rfl⟩)))))⟩
    · exact ⟨_, Or.inr (Or.inr (Or.inr (Or.inr (Or.inr (Or.inr ⟨n, h, rfl⟩)))))⟩

theorem traceWord_panic {o : TraceOptions} {v : Bytes} {e : Panic} (h : traceWord o v = .error e) :
    e = .badTraceOption := by
  unfold traceWord at h
  repeat' split at h
  all_goals first | cases h; rfl | cases h

theorem traceWords_recognised (o : TraceOptions) (ws : List Bytes) :
    ((∃ o', traceWords o ws = .ok o') ↔ ∀ w ∈ ws, Recognised w) ∧
    ∀ e, traceWords o ws = .error e → e = .badTraceOption := by
  induction ws generalizing o with
  | nil => exact ⟨by simp [traceWords], fun e h => by cases h⟩
  | cons w ws ih =>
    have hw := traceWord_recognised o w
    rw [traceWords]
    rcases hx : traceWord o w with e | o1
    · refine ⟨⟨fun ⟨o', h⟩ => by (cases h), fun h => ?_⟩, fun e' h => ?_⟩
      · obtain ⟨o', h'⟩ := hw.mpr (h w (by simp))
        rw [hx] at h'; cases h'
      · have : e = e' := Except.error.inj h
        exact this ▸ traceWord_panic hx
    · have hw' := hw.mp ⟨o1, hx⟩
      refine ⟨(ih o1).1.trans ?_, (ih o1).2⟩
      simp [hw']

theorem lastSay_snoc (ws : List Bytes) (w : Bytes) (p : Bytes → Prop) (resets : List Bytes) :
    LastSay (ws ++ [w]) p resets ↔ p w ∨ (w ∉ resets ∧ LastSay ws p resets) := by
  constructor
  · rintro ⟨pre, v, post, h, hp, hr⟩
    rcases List.eq_nil_or_concat post with rfl | ⟨post, x, rfl⟩
    · obtain ⟨-, h2⟩ := List.append_inj' h (by simp)
      simp only [List.cons.injEq, and_true] at h2
      exact Or.inl (h2 ▸ hp)
    · rw [List.concat_eq_append] at h hr
      rw [show pre ++ v :: (post ++ [x]) = (pre ++ v :: post) ++ [x] by simp] at h
      obtain ⟨h1, h2⟩ := List.append_inj' h (by simp)
      simp only [List.cons.injEq, and_true] at h2
      subst h2
      exact Or.inr ⟨hr w (by simp), pre, v, post, h1, hp, fun y hy => hr y (by simp [hy])⟩
  · rintro (h | ⟨hw, pre, v, post, rfl, hp, hr⟩)
    · exact ⟨ws, w, [], rfl, h, by simp⟩
    · refine ⟨pre, v, post ++ [w], by simp, hp, ?_⟩
      intro x hx
      rcases List.mem_append.mp hx with hx | hx
      · exact hr x hx
      · rw [List.mem_singleton] at hx
        exact hx ▸ hw

theorem lastSay_nil (p : Bytes → Prop) (resets : List Bytes) : ¬ LastSay [] p resets := by
  rintro ⟨pre, v, post, h, -⟩
  simp at h

/-- The words before the last one were read, and then the last one. -/
theorem traceWords_snoc {o o' : TraceOptions} {ws : List Bytes} {w : Bytes} (h : traceWords o (ws ++ [w]) = .ok o') :
    ∃ o1, traceWords o ws = .ok o1 ∧ WordDoes o1 w o' := by
  rw [traceWords_append] at h
  rcases hx : traceWords o ws with e | o1
  · rw [hx] at h; cases h
  · rw [hx] at h
    refine ⟨o1, rfl, (traceWord_ok _ _ _).mp ?_⟩
    have h2 : (traceWord o1 w >>= fun o => traceWords o []) = .ok o' := h
    rcases hy : traceWord o1 w with e | o2
    · rw [hy] at h2; cases h2
    · rw [hy] at h2; exact h2

theorem snoc_induction {P : List Bytes → Prop} (h0 : P []) (h1 : ∀ ws w, P ws → P (ws ++ [w])) (ws : List Bytes) : P ws := by
  have : ∀ ws : List Bytes, P ws.reverse := by
    intro ws
    induction ws with
    | nil => exact h0
    | cons w ws ih => rw [List.reverse_cons]; exact h1 _ _ ih
  simpa using this ws.reverse

theorem words_flags (ws : List Bytes) : ∀ o, traceWords mute ws = .ok o →
    (o.stack = true ↔ LastSay ws (· ∈ [asc "stack", asc "all"]) [asc "none"]) ∧
    (o.loop = true ↔ LastSay ws (· ∈ [asc "loop"]) [asc "none", asc "all"]) ∧
    (o.grammar = true ↔ LastSay ws (· ∈ [asc "grammar", asc "all"]) [asc "none"]) ∧
    (o.skipSetup = true ↔ LastSay ws (· ∈ [asc "skipsetup", asc "all"]) [asc "none"]) ∧
    (∀ n, (∃ pre v post, ws = pre ++ v :: post ∧ LineWord v n ∧
        ∀ x ∈ post, x ∉ [asc "none", asc "all"] ∧ ∀ m, ¬ LineWord x m) → o.filterLine = n) ∧
    ((¬ ∃ n, LastSay ws (LineWord · n) [asc "none", asc "all"]) → o.filterLine = -1) := by
  induction ws using snoc_induction with
  | h0 =>
    intro o h
    cases h
    refine ⟨?_, ?_, ?_, ?_, ?_, fun _ => rfl⟩
    iterate 4 exact ⟨fun h => Bool.noConfusion h, fun h => absurd h (lastSay_nil _ _)⟩
    rintro n ⟨pre, v, post, h, -⟩
    simp at h
  | h1 ws w ih =>
    intro o h
    obtain ⟨o1, ho1, hw⟩ := traceWords_snoc h
    obtain ⟨i1, i2, i3, i4, i5, i6⟩ := ih o1 ho1
    have hline : ∀ n, (∃ pre v post, ws ++ [w] = pre ++ v :: post ∧ LineWord v n ∧
        ∀ x ∈ post, x ∉ [asc "none", asc "all"] ∧ ∀ m, ¬ LineWord x m) →
        LineWord w n ∨ (w ∉ [asc "none", asc "all"] ∧ (∀ m, ¬ LineWord w m) ∧ ∃ pre v post, ws = pre ++ v :: post ∧ LineWord v n ∧
          ∀ x ∈ post, x ∉ [asc "none", asc "all"] ∧ ∀ m, ¬ LineWord x m) := by
      rintro n ⟨pre, v, post, h, hp, hr⟩
      rcases List.eq_nil_or_concat post with rfl | ⟨post, x, rfl⟩
      · obtain ⟨-, h2⟩ := List.append_inj' h (by simp)
        simp only [List.cons.injEq, and_true] at h2
        exact Or.inl (h2 ▸ hp)
      · rw [List.concat_eq_append] at h hr
        rw [show pre ++ v :: (post ++ [x]) = (pre ++ v :: post) ++ [x] by simp] at h
        obtain ⟨h1, h2⟩ := List.append_inj' h (by simp)
        simp only [List.cons.injEq, and_true] at h2
        subst h2
        have := hr w (by simp)
        exact Or.inr ⟨this.1, this.2, pre, v, post, h1, hp, fun y hy => hr y (by simp [hy])⟩
    simp only [lastSay_snoc]
    have hw' := hw
    unfold WordDoes at hw'
    rcases hw' with ⟨rfl, rfl⟩ | ⟨rfl, rfl⟩ | ⟨rfl, rfl⟩ | ⟨rfl, rfl⟩ | ⟨rfl, rfl⟩ | ⟨rfl, rfl⟩ | ⟨n, hn, rfl⟩
    case inr.inr.inr.inr.inr.inr =>
      have hnp := lineWord_not_plain hn
      simp only [plain, List.mem_cons, List.not_mem_nil, or_false, not_or] at hnp
      obtain ⟨a1, a2, a3, a4, a5, a6⟩ := hnp
      refine ⟨?_, ?_, ?_, ?_, ?_, ?_⟩
      · simpa [a1, a2, a6] using i1
      · simpa [a1, a3, a6] using i2
      · simpa [a1, a5, a6] using i3
      · simpa [a1, a4, a6] using i4
      · intro m hm
        rcases hline m hm with h | ⟨-, h, -⟩
        · exact lineWord_unique hn h
        · exact absurd hn (h n)
      · intro h
        exact absurd ⟨n, Or.inl hn⟩ h
    all_goals
      have hnl (v : Bytes) (hv : v ∈ plain) : ∀ m, ¬ LineWord v m := fun m h => lineWord_not_plain h hv
      refine ⟨?_, ?_, ?_, ?_, ?_, ?_⟩
      · simpa +decide [mute, verbose] using i1
      · simpa +decide [mute, verbose] using i2
      · simpa +decide [mute, verbose] using i3
      · simpa +decide [mute, verbose] using i4
      · intro m hm
        rcases hline m hm with h | ⟨hr, -, h⟩
        · exact absurd h (hnl _ (by decide) m)
        · first
          | exact absurd (by decide) hr
          | exact i5 m h
      · intro h
        first
        | rfl
        | exact i6 fun ⟨n, hn⟩ => h ⟨n, Or.inr ⟨by decide, hn⟩⟩

end Joeson
