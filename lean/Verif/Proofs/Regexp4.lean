import Verif.Proofs.Regexp2
/-! # Regular expressions: reading classes -/

namespace Joeson

theorem utf8_one {r : Nat} (h : Spec.Scalar r) : Spec.utf8 [r] = encodeRune r := by
  rw [encodeRune_eq_utf8 h]; simp [Spec.utf8]

theorem utf8_one_ascii {r : Nat} (h : r < 0x80) : Spec.utf8 [r] = [UInt8.ofNat r] := by
  simp [Spec.utf8, Spec.utf8Nat, h]

/-- How a character begins. -/
theorem charOk_plain {r : Nat} (h : charOk false r) (s : Bytes) : ∃ b t, Spec.utf8 [r] ++ s = b :: t ∧ decodeRune (b :: t) = (r, (Spec.utf8 [r]).length) ∧
    b ≠ 0x5C ∧ b ≠ 0x5D ∧ b ≠ 0x5B ∧ b ≠ 0x5E ∧ b ≠ 0x2D := by
  simp only [charOk, Bool.false_eq_true, if_false] at h
  obtain ⟨h0, h1, h2, h3, h4, h5⟩ := h
  have hd := decodeRune_encodeRune h0 s
  rw [← utf8_one h0] at hd
  have hne : Spec.utf8 [r] ≠ [] := by rw [utf8_one h0]; exact encodeRune_ne_nil r
  match hu : Spec.utf8 [r] ++ s with
  | [] => simp only [List.append_eq_nil_iff] at hu; exact absurd hu.1 hne
  | b :: t =>
    rw [hu] at hd
    have key : ∀ q : UInt8, q.toNat < 0x80 → r ≠ q.toNat → b ≠ q := by
      rintro q hq hr rfl
      rw [(decodeRune_cons b t).2.2.2.2.2.1 hq] at hd
      exact hr (congrArg Prod.fst hd).symm
    exact ⟨b, t, rfl, hd, key _ (by decide) h1, key _ (by decide) h2, key _ (by decide) h3, key _ (by decide) h4, key _ (by decide) h5⟩

theorem charOk_esc {r : Nat} (h : charOk true r) : ∃ b : UInt8, Spec.utf8 [r] = [b] ∧ b.toNat = r ∧ b.toNat < 0x80 ∧ isAlnum b = false := by
  simp only [charOk, if_true] at h
  refine ⟨UInt8.ofNat r, utf8_one_ascii h.1, toNat_ofNat_small (by omega), by rw [toNat_ofNat_small (by omega)]; exact h.1, ?_⟩
  simp only [isAlnum, toNat_ofNat_small (show r < 256 by omega), Bool.or_eq_false_iff, Bool.and_eq_false_iff, decide_eq_false_iff_not]
  omega

theorem rxEscape_plain {b : UInt8} (h : b.toNat < 0x80) (ha : isAlnum b = false) (s : Bytes) : rxEscape (b :: s) = some (b.toNat, s) := by
  have key : ∀ q : UInt8, isAlnum q = true → b ≠ q := by
    rintro q hq rfl
    rw [ha] at hq
    cases hq
  simp only [rxEscape]
  rw [if_neg (key _ (by decide)), if_neg (key _ (by decide)), if_neg (key _ (by decide)), if_neg (key _ (by decide)), if_neg (key _ (by decide)),
    if_neg (key _ (by decide)), if_pos (by simp [h, ha])]

theorem rxPerl_plain {b : UInt8} (ha : isAlnum b = false) : rxPerl b = none := by
  have key : ∀ q : UInt8, isAlnum q = true → b ≠ q := by
    rintro q hq rfl
    rw [ha] at hq
    cases hq
  simp only [rxPerl]
  rw [if_neg (key _ (by decide)), if_neg (key _ (by decide)), if_neg (key _ (by decide)), if_neg (key _ (by decide)), if_neg (key _ (by decide)),
    if_neg (key _ (by decide))]

theorem rxClassChar_other {b : UInt8} (h : b ≠ 0x5C) (t : Bytes) : rxClassChar (b :: t) = rxRune (b :: t) := by
  unfold rxClassChar
  split
  · rename_i he; cases he; exact absurd rfl h
  · rfl

theorem rxPerlEscape_other {b : UInt8} (h : b ≠ 0x5C) (t : Bytes) : rxPerlEscape (b :: t) = none := by
  unfold rxPerlEscape
  split
  · rename_i he; cases he; exact absurd rfl h
  · rfl

theorem charText_read {e : Bool} {r : Nat} (h : charOk e r) (s : Bytes) :
    rxClassChar (charText e r ++ s) = some (r, s) ∧ rxPerlEscape (charText e r ++ s) = none ∧
    ∃ b t, charText e r ++ s = b :: t ∧ b ≠ 0x5D ∧ b ≠ 0x5B ∧ b ≠ 0x5E ∧ b ≠ 0x2D := by
  cases e with
  | true =>
    obtain ⟨b, h1, h2, h3, h4⟩ := charOk_esc h
    have e1 : charText true r ++ s = 0x5C :: b :: s := by simp [charText, h1]
    rw [e1]
    refine ⟨?_, ?_, 0x5C, b :: s, rfl, by decide, by decide, by decide, by decide⟩
    · show rxEscape (b :: s) = _
      rw [rxEscape_plain h3 h4, h2]
    · show (rxPerl b).map _ = none
      rw [rxPerl_plain h4]
      rfl
  | false =>
    obtain ⟨b, t, h1, h2, h3, h4, h5, h6, h7⟩ := charOk_plain h s
    have e1 : charText false r ++ s = b :: t := by simpa [charText] using h1
    rw [e1]
    refine ⟨?_, rxPerlEscape_other h3 t, b, t, rfl, h4, h5, h6, h7⟩
    rw [rxClassChar_other h3]
    have hd : (b :: t).drop (Spec.utf8 [r]).length = s := by rw [← h1, List.drop_left]
    unfold rxRune
    rw [if_neg (by simp), h2, if_neg, hd]
    rintro ⟨hr, hl⟩
    simp only at hr hl
    subst hr
    revert hl
    decide

namespace CItem

/-- As a range. -/
def pair : CItem → Nat × Nat
  | one _ r => (r, r)
  | range _ lo _ hi => (lo, hi)

theorem pair_has (i : CItem) (x : Nat) : i.pair.1 ≤ x ∧ x ≤ i.pair.2 ↔ i.Has x := by
  cases i <;> simp only [pair, Has]
  omega

end CItem

/-- The items end with the bracket. -/
theorem items_head {l : List CItem} (h : ∀ i ∈ l, i.Ok) (t : Bytes) : ∃ b s, l.flatMap CItem.text ++ 0x5D :: t = b :: s ∧ b ≠ 0x2D ∧ b ≠ 0x5E ∧ (b = 0x5D → l = []) := by
  match l, h with
  | [], _ => exact ⟨0x5D, t, rfl, by decide, by decide, fun _ => rfl⟩
  | .one e r :: l, h =>
    obtain ⟨_, _, b, s, h1, h2, _, h4, h5⟩ := charText_read (h _ (List.mem_cons_self ..)) (l.flatMap CItem.text ++ 0x5D :: t)
    exact ⟨b, s, by rw [List.flatMap_cons, List.append_assoc]; exact h1, h5, h4, fun h => absurd h h2⟩
  | .range e lo e' hi :: l, h =>
    obtain ⟨_, _, b, s, h1, h2, _, h4, h5⟩ := charText_read (h _ (List.mem_cons_self ..)).1 ([0x2D] ++ charText e' hi ++ (l.flatMap CItem.text ++ 0x5D :: t))
    exact ⟨b, s, by rw [← h1]; simp [CItem.text], h5, h4, fun h => absurd h h2⟩

theorem classItems_text : ∀ (l : List CItem) (first : Bool) (t : Bytes) (k : Nat), (∀ i ∈ l, i.Ok) → (l ≠ [] ∨ first = false) → l.length < k →
    rxClassItems k first (l.flatMap CItem.text ++ 0x5D :: t) = some (l.map CItem.pair, t)
  | [], first, t, k + 1, _, hf, _ => by
    have : first = false := hf.resolve_left fun h => h rfl
    subst this
    rfl
  | i :: l, first, t, k + 1, h, _, hk => by
    have hl : ∀ i ∈ l, i.Ok := fun x hx => h x (List.mem_cons_of_mem _ hx)
    have ih := classItems_text l false t k hl (.inr rfl) (by simpa using hk)
    obtain ⟨b', s', hs', hd, _, _⟩ := items_head hl t
    rw [List.flatMap_cons, List.append_assoc]
    generalize hrest : l.flatMap CItem.text ++ 0x5D :: t = rest at *
    match i, h _ (List.mem_cons_self ..) with
    | .one e r, hi =>
      obtain ⟨h1, h2, b, s, h3, h4, h5, _, _⟩ := charText_read hi rest
      show rxClassItems (k + 1) first (charText e r ++ rest) = _
      rw [h3] at h1 h2 ⊢
      unfold rxClassItems
      simp only [h4, h5, decide_false, Bool.false_and, Bool.false_eq_true, if_false, h2, h1]
      subst hs'
      split
      · rename_i he; cases he; exact absurd rfl hd
      · rw [ih]; rfl
    | .range e lo e' hi, hi' =>
      obtain ⟨h1, h2, b, s, h3, h4, h5, _, _⟩ := charText_read hi'.1 ([0x2D] ++ (charText e' hi ++ rest))
      obtain ⟨g1, _, c, u, g3, g4, _, _, _⟩ := charText_read hi'.2.1 rest
      show rxClassItems (k + 1) first (charText e lo ++ [0x2D] ++ charText e' hi ++ rest) = _
      rw [List.append_assoc, List.append_assoc, h3]
      rw [h3] at h1 h2
      unfold rxClassItems
      simp only [h4, h5, decide_false, Bool.false_and, Bool.false_eq_true, if_false, h2, h1]
      rw [g3] at g1 ⊢
      simp only [List.cons_append, List.nil_append, g4, if_false, g1, Nat.not_lt.mpr hi'.2.2, ih]
      rfl

theorem flatMap_text_length {l : List CItem} (h : ∀ i ∈ l, i.Ok) (t : Bytes) : l.length ≤ (l.flatMap CItem.text).length := by
  induction l with
  | nil => simp
  | cons i l ih =>
    have := ih fun x hx => h x (List.mem_cons_of_mem _ hx)
    have : 1 ≤ i.text.length := by
      have hne : i.text ≠ [] := by
        match i, h _ (List.mem_cons_self ..) with
        | .one e r, hi =>
          obtain ⟨_, _, b, s, h3, _⟩ := charText_read hi []
          rw [List.append_nil] at h3
          show charText e r ≠ []
          rw [h3]; simp
        | .range e lo e' hi, hi' => simp [CItem.text]
      exact List.length_pos_iff.mpr hne
    simp only [List.flatMap_cons, List.length_append, List.length_cons]
    omega

theorem rxClass_text (neg : Bool) (l : List CItem) (h : ∀ i ∈ l, i.Ok) (h0 : l ≠ []) (t : Bytes) :
    rxClass ((if neg then [0x5E] else []) ++ l.flatMap CItem.text ++ 0x5D :: t) = some (⟨neg, l.map CItem.pair⟩, t) := by
  have hlen := flatMap_text_length h t
  have hi := fun k hk => classItems_text l true t k h (.inl h0) hk
  cases neg with
  | true =>
    show (rxClassItems ((l.flatMap CItem.text ++ 0x5D :: t).length + 1) true (l.flatMap CItem.text ++ 0x5D :: t)).map _ = _
    rw [hi _ (by rw [List.length_append]; omega)]
    rfl
  | false =>
    obtain ⟨b, s, hs, _, hb, _⟩ := items_head h t
    simp only [Bool.false_eq_true, if_false, List.nil_append]
    unfold rxClass
    split
    · rename_i he
      rw [hs] at he
      cases he
      exact absurd rfl hb
    · rw [hi _ (by rw [List.length_append]; omega)]
      rfl

/-- The compiled class. -/
theorem rxCompile_class (neg : Bool) (l : List CItem) (h : ∀ i ∈ l, i.Ok) (h0 : l ≠ []) :
    rxCompile ([0x28] ++ classText neg l ++ [0x29]) = some (.seq (.seq (.cls ⟨neg, l.map CItem.pair⟩) .empty) .empty) := by
  have hc := rxClass_text neg l h h0 [0x29]
  have e : [0x28] ++ classText neg l ++ [0x29] = 0x28 :: 0x5B :: ((if neg then [0x5E] else []) ++ l.flatMap CItem.text ++ 0x5D :: [0x29]) := by
    simp [classText]
  rw [e]
  generalize (if neg then [0x5E] else []) ++ l.flatMap CItem.text ++ 0x5D :: [0x29] = s at *
  have key : ∀ k, rxParse (k + 8) .alt (0x28 :: 0x5B :: s) = some (.seq (.seq (.cls ⟨neg, l.map CItem.pair⟩) .empty) .empty, []) := by
    intro k
    simp [rxParse, rxRepeat, hc, isRepeat]
  unfold rxCompile
  obtain ⟨k, hk⟩ : ∃ k, 4 * (0x28 :: 0x5B :: s).length + 4 = k + 8 := ⟨4 * s.length + 4, by simp; omega⟩
  rw [hk, key]

/-- A class repeated. -/
theorem rxCompile_repeated (neg : Bool) (l : List CItem) (h : ∀ i ∈ l, i.Ok) (h0 : l ≠ []) :
    rxCompile ([0x28] ++ (classText neg l ++ [0x2A]) ++ [0x29]) = some (.seq (.seq (.star (.cls ⟨neg, l.map CItem.pair⟩)) .empty) .empty) ∧
    rxCompile ([0x28] ++ (classText neg l ++ [0x2B]) ++ [0x29]) = some (.seq (.seq (.plus (.cls ⟨neg, l.map CItem.pair⟩)) .empty) .empty) := by
  constructor
  · have hc := rxClass_text neg l h h0 [0x2A, 0x29]
    have e : [0x28] ++ (classText neg l ++ [0x2A]) ++ [0x29] = 0x28 :: 0x5B :: ((if neg then [0x5E] else []) ++ l.flatMap CItem.text ++ 0x5D :: [0x2A, 0x29]) := by
      simp [classText]
    rw [e]
    generalize (if neg then [0x5E] else []) ++ l.flatMap CItem.text ++ 0x5D :: [0x2A, 0x29] = s at *
    have key : ∀ k, rxParse (k + 8) .alt (0x28 :: 0x5B :: s) = some (.seq (.seq (.star (.cls ⟨neg, l.map CItem.pair⟩)) .empty) .empty, []) := by
      intro k
      simp [rxParse, rxRepeat, rxOnce, hc, isRepeat, Rx.nullable]
    unfold rxCompile
    obtain ⟨k, hk⟩ : ∃ k, 4 * (0x28 :: 0x5B :: s).length + 4 = k + 8 := ⟨4 * s.length + 4, by simp; omega⟩
    rw [hk, key]
  · have hc := rxClass_text neg l h h0 [0x2B, 0x29]
    have e : [0x28] ++ (classText neg l ++ [0x2B]) ++ [0x29] = 0x28 :: 0x5B :: ((if neg then [0x5E] else []) ++ l.flatMap CItem.text ++ 0x5D :: [0x2B, 0x29]) := by
      simp [classText]
    rw [e]
    generalize (if neg then [0x5E] else []) ++ l.flatMap CItem.text ++ 0x5D :: [0x2B, 0x29] = s at *
    have key : ∀ k, rxParse (k + 8) .alt (0x28 :: 0x5B :: s) = some (.seq (.seq (.plus (.cls ⟨neg, l.map CItem.pair⟩)) .empty) .empty, []) := by
      intro k
      simp [rxParse, rxRepeat, rxOnce, hc, isRepeat, Rx.nullable]
    unfold rxCompile
    obtain ⟨k, hk⟩ : ∃ k, 4 * (0x28 :: 0x5B :: s).length + 4 = k + 8 := ⟨4 * s.length + 4, by simp; omega⟩
    rw [hk, key]

/-- The characters of a class, as many as there are. -/
theorem stars_utf8 {c : RuneClass} {n : Nat} : ∀ (w : List Nat) (rest : Bytes) (k : Nat), (∀ r ∈ w, Spec.Scalar r ∧ c.has r = true) →
    (rest = [] ∨ c.has (decodeRune rest).1 = false) → w.length ≤ k → (Re.stars ((Rx.cls c).run n) k (Spec.utf8 w ++ rest)).head? = some rest
  | [], rest, k, _, hr, _ => by
    show (Re.stars _ k rest).head? = _
    rw [stars_cls_not k rest hr]
    rfl
  | r :: w, rest, k + 1, hw, hr, hk => by
    obtain ⟨h1, h2⟩ := hw r (List.mem_cons_self ..)
    have hd := decodeRune_encodeRune h1 (Spec.utf8 w ++ rest)
    have e : Spec.utf8 (r :: w) ++ rest = encodeRune r ++ (Spec.utf8 w ++ rest) := by
      rw [← utf8_one h1, ← List.append_assoc]
      simp [Spec.utf8]
    rw [e, stars_cls k _ (by simp [encodeRune_ne_nil]) (by rw [hd]; exact h2), hd, List.drop_left]
    exact stars_utf8 w rest k (fun x hx => hw x (List.mem_cons_of_mem _ hx)) hr (by simpa using hk)

end Joeson
