import Verif.Proofs.RuleText2
/-!
# Strings, regular expressions and bounds
-/

namespace Joeson.RuleText
open Joe

variable {rx : Bytes → Option Regex} {D : Nat}

/-- With the text rearranged. -/
theorem Hits.eq {t : Task JVal} {m m' rest rest' : Bytes} {v v' : JVal} (h : Hits rx D t m rest v) (hm : m' = m)
    (hr : rest' = rest) (hv : v' = v) : Hits rx D t m' rest' v' := by
  subst hm hr hv; exact h

theorem Fails.eq {t : Task JVal} {s s' : Bytes} (h : Fails rx D t s) (hs : s' = s) : Fails rx D t s' := by
  subst hs; exact h

/-! ## One character -/

/-- As text. -/
def charText (c : Nat) : Bytes := Spec.utf8 [c]

theorem charText_eq {c : Nat} (h : Spec.Scalar c) : charText c = encodeRune c := by
  rw [encodeRune_eq_utf8 h]
  unfold charText Spec.utf8
  simp

/-- A character other than an ASCII one does not start with that byte. -/
theorem charText_off {c : Nat} (h : Spec.Scalar c) {a : UInt8} (ha : a.toNat < 0x80) (hc : c ≠ a.toNat) (rest : Bytes) :
    Off (· = a) (charText c ++ rest) := by
  have key : ∀ x l, charText c = x :: l → x ≠ a := by
    intro x l hx hxa
    subst hxa
    unfold charText Spec.utf8 Spec.utf8Nat at hx
    unfold Spec.Scalar at h
    simp only [List.flatMap_cons, List.flatMap_nil, List.append_nil] at hx
    split at hx
    · simp only [List.map_cons, List.cons.injEq] at hx
      apply hc
      rw [← hx.1]
      exact (toNat_ofNat_small (by omega)).symm
    · split at hx
      · simp only [List.map_cons, List.cons.injEq] at hx
        have := hx.1
        rw [← this, toNat_ofNat_small (by omega)] at ha
        omega
      · split at hx
        · simp only [List.map_cons, List.cons.injEq] at hx
          have := hx.1
          rw [← this, toNat_ofNat_small (by omega)] at ha
          omega
        · simp only [List.map_cons, List.cons.injEq] at hx
          have := hx.1
          rw [← this, toNat_ofNat_small (by omega)] at ha
          omega
  have hne : charText c ≠ [] := by
    rw [charText_eq h]; exact encodeRune_ne_nil c
  refine Off.append ?_ (fun h' => absurd h' hne)
  exact fun x l hx => key x l hx

theorem hits_any {c : Nat} (h : Spec.Scalar c) (rest : Bytes) : Hits rx D (.node anyBody) (charText c) rest (.str (charText c)) := by
  refine (hits_regex _ ?_).plain
  rw [charText_eq h]
  show (if encodeRune c ++ rest = [] then none else some (0, min (decodeRune (encodeRune c ++ rest)).2 _)) = _
  rw [if_neg (by simp [encodeRune_ne_nil]), decodeRune_encodeRune h rest]
  simp

/-! ## Characters between delimiters -/

/-- What a character gives: in strings the backslash is dropped, in regular expressions it is kept. -/
def pieceVal : Option Nat → Piece → Bytes
  | none, p => charText p.char
  | some _, p => p.text

theorem hits_esc (rn : String) {cb : Option Nat} (hcb : cb = none ∨ cb = some 13) {c : Nat} (h : Spec.Scalar c) (rest : Bytes) :
    Hits rx D (.node (escBody rn cb)) ([0x5C] ++ charText c) rest (.str (pieceVal cb ⟨true, c⟩)) := by
  have hin : Hits rx D (.inner (escBody rn cb)) ([0x5C] ++ charText c) rest (.str (charText c)) :=
    Hits.seq (Hits.put (m2 := charText c ++ []) (hits_tok rn [0x5C] _) rfl
      (Hits.put (m2 := []) (hits_any h _).mono1 rfl hits_items_nil rfl) (by simp))
  rcases hcb with rfl | rfl
  · exact hin.plain
  · exact hin.wrapped fun p => rfl

theorem fails_esc (rn : String) {cb : Option Nat} (hcb : cb = none ∨ cb = some 13) {s : Bytes} (h : Off (· = 0x5C) s) :
    Fails rx D (.node (escBody rn cb)) s := by
  have hin : Fails rx D (.inner (escBody rn cb)) s := Fails.seq (Fails.first (fails_tok rn h))
  rcases hcb with rfl | rfl
  · exact hin.plain
  · exact hin.wrapped

/-- The body of the repetition. -/
abbrev charSeq (rn esc : String) (cb : Option Nat) (close : Bytes) : Node :=
  .seq (part rn) .single [.not (Info.dumb (item rn)) (.str (Info.dumb (part rn)) close),
    .choice (item rn) [.choice (part rn) [escBody esc cb], .choice (part rn) [anyBody]]]

theorem hits_piece (rn esc : String) {cb : Option Nat} (hcb : cb = none ∨ cb = some 13) {close : UInt8}
    (hc : close.toNat < 0x80) (hc' : close ≠ 0x5C) {p : Piece} (hp : p.Ok close.toNat) (rest : Bytes) :
    Hits rx D (.node (charSeq rn esc cb [close])) p.text rest (.str (pieceVal cb p)) := by
  obtain ⟨e, c⟩ := p
  obtain ⟨h1, h2⟩ := hp
  dsimp only at h1 h2
  refine Hits.plain (Hits.seq (Hits.put (m1 := []) (m2 := Piece.text ⟨e, c⟩ ++ []) (Fails.not (Fails.plain (fails_str _ ?_))).plain rfl
    (Hits.put (m2 := []) (v := .str (pieceVal cb ⟨e, c⟩)) ?_ rfl hits_items_nil rfl) (by simp)))
  · cases e with
    | true =>
      refine Off.not_prefix ?_
      show Off _ (0x5C :: _)
      exact off_cons fun h => hc' h.symm
    | false =>
      rw [List.append_assoc]
      exact (charText_off h1 hc (h2 rfl).1 _).not_prefix
  · cases e with
    | true => exact (Hits.here (hits_esc esc hcb h1 _).mono1).choice.plain
    | false =>
      refine (Fails.next (m := Piece.text ⟨false, c⟩) (Fails.mono1 (fails_esc esc hcb ?_)) (Hits.here ((hits_any h1 _).eq rfl rfl ?_).mono1)).choice.plain
      · exact charText_off h1 (a := 0x5C) (by decide) (h2 rfl).2 _
      · rcases hcb with rfl | rfl <;> rfl

theorem fails_piece (rn esc : String) {cb : Option Nat} {close : UInt8} (rest : Bytes) :
    Fails rx D (.node (charSeq rn esc cb [close])) (close :: rest) :=
  Fails.plain (Fails.seq (Fails.first (Hits.not (m := [close]) (hits_str _ [close] rest).plain).plain))

theorem hits_more_pieces (rn esc : String) {cb : Option Nat} (hcb : cb = none ∨ cb = some 13) {close : UInt8}
    (hc : close.toNat < 0x80) (hc' : close ≠ 0x5C) (rest : Bytes) : ∀ {l : List Piece}, (∀ p ∈ l, p.Ok close.toNat) →
    ∀ vs : List JVal, Hits rx D (.more (charSeq rn esc cb [close]) none (-1) (-1) vs) (pieces l) (close :: rest)
      (.arr (vs ++ l.map fun p => .str (pieceVal cb p))) := by
  intro l
  induction l with
  | nil =>
    intro _ vs
    exact ((fails_piece rn esc rest).stop (by omega)).eq rfl rfl (by simp)
  | cons p l ih =>
    intro h vs
    exact (Hits.next (hits_piece rn esc hcb hc hc' (h p List.mem_cons_self) _) (by decide)
      (ih (fun q hq => h q (List.mem_cons_of_mem _ hq)) _) rfl).eq rfl rfl (by simp)

theorem hits_chars (rn esc : String) {cb : Option Nat} (hcb : cb = none ∨ cb = some 13) {close : UInt8}
    (hc : close.toNat < 0x80) (hc' : close ≠ 0x5C) (rest : Bytes) {l : List Piece} (h : ∀ p ∈ l, p.Ok close.toNat) :
    Hits rx D (.node (chars rn esc cb [close])) (pieces l) (close :: rest) (.arr (l.map fun p => .str (pieceVal cb p))) := by
  cases l with
  | nil => exact ((fails_piece rn esc rest).pattern (by decide)).plain
  | cons p l =>
    exact ((hits_piece rn esc hcb hc hc' (h p List.mem_cons_self) _).pattern
      (hits_more_pieces rn esc hcb hc hc' rest (fun q hq => h q (List.mem_cons_of_mem _ hq)) [_]) rfl).plain

theorem hits_quoted (rn esc : String) {cb : Option Nat} (hcb : cb = none ∨ cb = some 13) (open_ : UInt8) {close : UInt8}
    (hc : close.toNat < 0x80) (hc' : close ≠ 0x5C) (rest : Bytes) {l : List Piece} (h : ∀ p ∈ l, p.Ok close.toNat) :
    Hits rx D (.items .single (quoted rn esc cb [open_] [close]) .nothing) ([open_] ++ pieces l ++ [close]) rest
      (.arr (l.map fun p => .str (pieceVal cb p))) :=
  Hits.put (m2 := pieces l ++ ([close] ++ [])) (hits_tok rn _ _) rfl
    (Hits.put (m1 := pieces l) (m2 := [close] ++ []) (hits_chars rn esc hcb hc hc' rest h) rfl
      (Hits.put (m2 := []) (hits_tok rn _ _) rfl hits_items_nil rfl) rfl) (by simp)

theorem concat_pieces (cb : Option Nat) (l : List Piece) :
    JVal.concat (l.map fun p => .str (pieceVal cb p)) = .ok (l.flatMap (pieceVal cb)) := by
  induction l with
  | nil => rfl
  | cons p l ih =>
    show (do return pieceVal cb p ++ (← JVal.concat (l.map fun p => .str (pieceVal cb p)))) = _
    rw [ih]
    rfl

theorem chars_flat (l : List Piece) : l.flatMap (pieceVal none) = Spec.utf8 (l.map Piece.char) := by
  induction l with
  | nil => rfl
  | cons p l ih =>
    rw [List.flatMap_cons, ih, List.map_cons, utf8_cons]
    show charText p.char ++ _ = _
    unfold charText
    rw [utf8_cons, utf8_nil, List.append_nil]

/-! ## Bounds -/

theorem bound_wraps (lab : String) : (bound lab).wraps = false := by
  simp [Node.wraps, Node.info, bound, litem, Info.ownLabel]

/-- What a bound gives. -/
def boundVal : Option Bytes → JVal
  | none => .undef
  | some ds => .int (decimal ds)

theorem hits_bound (lab : String) {o : Option Bytes} (ho : ∀ ds, o = some ds → Number ds) {rest : Bytes}
    (hr : Off Digit rest) : Hits rx D (.node (bound lab)) (o.getD []) rest (boundVal o) := by
  cases o with
  | none => exact ((fails_int hr).mono1.exist).plain rfl (bound_wraps lab)
  | some ds => exact ((hits_int (ho ds rfl) hr).mono1.exist).plain rfl (bound_wraps lab)

theorem boundVal_bound (o : Option Bytes) : patternBound (some (boundVal o)) = .ok (boundOf o) := by
  cases o <;> rfl

theorem off_getD {P : UInt8 → Prop} {o : Option Bytes} (ho : ∀ ds, o = some ds → Number ds) (hP : ∀ x, Digit x → ¬ P x)
    {rest : Bytes} (hr : Off P rest) : Off P (o.getD [] ++ rest) := by
  cases o with
  | none => exact hr
  | some ds =>
    obtain ⟨h1, h2, -⟩ := ho ds rfl
    cases ds with
    | nil => exact absurd rfl h1
    | cons x l => exact off_cons (hP x (h2 x List.mem_cons_self))

theorem digit_not_blank {x : UInt8} (h : Digit x) : ¬ isBlank x := by
  rintro (rfl | rfl) <;> revert h <;> unfold Digit <;> decide

theorem blank_not_digit {x : UInt8} (h : isBlank x) : ¬ Digit x := fun h' => digit_not_blank h' h

theorem hits_range_norm {r : Bounds} (h : r.Ok) (n1 : r.min = none → r.w1 = []) (n3 : r.max = none → r.w3 = [])
    (rest : Bytes) : Hits rx (D + 1) (.node (.rule 14)) r.text rest
      (.map [("min", boundVal r.min), ("max", boundVal r.max)]) := by
  obtain ⟨w0, mn, w1, w2, mx, w3⟩ := r
  obtain ⟨h0, h1, h2, h3, hn, hx⟩ := h
  dsimp only at *
  have e4 : ∀ rest : Bytes, Off isBlank (0x7D :: rest) := fun _ => off_cons (by unfold isBlank; decide)
  have e2 : ∀ rest : Bytes, Off isBlank (0x2C :: rest) := fun _ => off_cons (by unfold isBlank; decide)
  have d4 : ∀ rest : Bytes, Off Digit (0x7D :: rest) := fun _ => off_cons (by unfold Digit; decide)
  have d2 : ∀ rest : Bytes, Off Digit (0x2C :: rest) := fun _ => off_cons (by unfold Digit; decide)
  have side : ∀ (o : Option Bytes) (w t : Bytes), (∀ ds, o = some ds → Number ds) → (o = none → w = []) → Off isBlank t →
      Off isBlank (o.getD [] ++ (w ++ t)) := by
    intro o w t ho hw ht
    cases o with
    | none => rw [hw rfl]; exact ht
    | some ds =>
      obtain ⟨g1, g2, -⟩ := ho ds rfl
      cases ds with
      | nil => exact absurd rfl g1
      | cons x l => exact off_cons (digit_not_blank (g2 x List.mem_cons_self))
  obtain ⟨v3, hv3⟩ := hits_ws (rx := rx) (D := D) "RANGE" (rest := [0x7D] ++ rest) h3 (e4 _)
  have hb2 := hits_bound (rx := rx) (D := D) "max" hx (rest := w3 ++ ([0x7D] ++ rest))
    (off_blank_append h3 (fun _ h => blank_not_digit h) (d4 _))
  obtain ⟨v2, hv2⟩ := hits_ws (rx := rx) (D := D) "RANGE" (rest := mx.getD [] ++ (w3 ++ ([0x7D] ++ rest))) h2
    (side _ _ _ hx n3 (e4 _))
  obtain ⟨v1, hv1⟩ := hits_ws (rx := rx) (D := D) "RANGE"
    (rest := [0x2C] ++ (w2 ++ (mx.getD [] ++ (w3 ++ ([0x7D] ++ rest))))) h1 (e2 _)
  have hb1 := hits_bound (rx := rx) (D := D) "min" hn
    (rest := w1 ++ ([0x2C] ++ (w2 ++ (mx.getD [] ++ (w3 ++ ([0x7D] ++ rest))))))
    (off_blank_append h1 (fun _ h => blank_not_digit h) (d2 _))
  obtain ⟨v0, hv0⟩ := hits_ws (rx := rx) (D := D) "RANGE"
    (rest := mn.getD [] ++ (w1 ++ ([0x2C] ++ (w2 ++ (mx.getD [] ++ (w3 ++ ([0x7D] ++ rest))))))) h0 (side _ _ _ hn n1 (e2 _))
  refine Hits.rule rfl (v := .map [("min", boundVal mn), ("max", boundVal mx)]) (Hits.seq ?_) (fun p => rfl)
  refine Hits.put (m1 := [0x7B]) (m2 := w0 ++ (mn.getD [] ++ (w1 ++ ([0x2C] ++ (w2 ++ (mx.getD [] ++ (w3 ++ [0x7D]))))))) (hits_tok _ _ _) rfl
    (Hits.put (m1 := w0) (hv0.eq rfl (by simp) rfl) rfl (Hits.put (m1 := mn.getD []) (hb1.eq rfl (by simp) rfl) rfl
    (Hits.put (m1 := w1) (hv1.eq rfl (by simp) rfl) rfl (Hits.put (m1 := [0x2C]) (hits_tok _ _ _) rfl
    (Hits.put (m1 := w2) (hv2.eq rfl (by simp) rfl) rfl (Hits.put (m1 := mx.getD []) (hb2.eq rfl (by simp) rfl) rfl
    (Hits.put (m1 := w3) (hv3.eq rfl (by simp) rfl) rfl (Hits.put (m1 := [0x7D]) (m2 := []) (hits_tok _ _ _) rfl hits_items_nil
    rfl) rfl) rfl) rfl) rfl) rfl) rfl) rfl) (by simp [Bounds.text])

theorem Blank.append {a b : Bytes} (ha : Blank a) (hb : Blank b) : Blank (a ++ b) := by
  intro x hx
  rcases List.mem_append.mp hx with h | h
  · exact ha x h
  · exact hb x h

theorem blank_nil : Blank [] := fun _ h => by cases h

theorem hits_range {r : Bounds} (h : r.Ok) (rest : Bytes) : Hits rx (D + 1) (.node (.rule 14)) r.text rest
    (.map [("min", boundVal r.min), ("max", boundVal r.max)]) := by
  obtain ⟨w0, mn, w1, w2, mx, w3⟩ := r
  obtain ⟨h0, h1, h2, h3, hn, hx⟩ := h
  dsimp only at *
  cases mn with
  | none =>
    cases mx with
    | none =>
      refine (hits_range_norm (r := ⟨w0 ++ w1, none, [], w2 ++ w3, none, []⟩)
        ⟨h0.append h1, blank_nil, h2.append h3, blank_nil, hn, hx⟩ (fun _ => rfl) (fun _ => rfl) rest).eq ?_ rfl rfl
      simp [Bounds.text]
    | some xs =>
      refine (hits_range_norm (r := ⟨w0 ++ w1, none, [], w2, some xs, w3⟩)
        ⟨h0.append h1, blank_nil, h2, h3, hn, hx⟩ (fun _ => rfl) (fun h => by cases h) rest).eq ?_ rfl rfl
      simp [Bounds.text]
  | some ns =>
    cases mx with
    | none =>
      refine (hits_range_norm (r := ⟨w0, some ns, w1, w2 ++ w3, none, []⟩)
        ⟨h0, h1, h2.append h3, blank_nil, hn, hx⟩ (fun h => by cases h) (fun _ => rfl) rest).eq ?_ rfl rfl
      simp [Bounds.text]
    | some xs =>
      exact hits_range_norm (r := ⟨w0, some ns, w1, w2, some xs, w3⟩)
        ⟨h0, h1, h2, h3, hn, hx⟩ (fun h => by cases h) (fun h => by cases h) rest

end Joeson.RuleText
