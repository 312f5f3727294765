import Verif.Proofs.Regexp2
import Verif.Proofs.Until
import Verif.Proofs.Lisp
import Verif.Proofs.Precedence
/-! # Regular expressions: what those of the examples find -/

namespace Joeson
open RuleText Arith Calc

theorem RuneClass.Ascii.matches {c : RuneClass} (h : c.Ascii) {n : Nat} {s r : Bytes} (hm : (Rx.cls c).Matches n s r) : ∃ b, s = b :: r ∧ c.has b.toNat = true := by
  cases hm with
  | cls h1 h2 =>
    match s, h1, h2 with
    | b :: t, _, h2 =>
      rw [h.head] at h2
      rw [h.width h2]
      exact ⟨b, rfl, h2⟩

/-- A class of ASCII characters finds one of them. -/
theorem Rx.IsCls.findsOne {x : Rx} {c : RuneClass} (h : x.IsCls c) (hc : c.Ascii) {C : UInt8 → Prop} (hC : ∀ b, C b ↔ c.has b.toNat = true) : FindsOne C x.regex := by
  constructor
  · intro b s hb
    have hb := (hC b).mp hb
    exact (h.find _ _).mpr ⟨by simp, by rw [hc.head]; exact hb, (hc.width hb).symm⟩
  · intro s n hs
    obtain ⟨h1, h2, _⟩ := (h.find _ _).mp hs
    match s, h1, h2 with
    | b :: t, _, h2 =>
      rw [hc.head] at h2
      exact ⟨b, t, rfl, (hC b).mpr h2⟩

/-- A class that leaves out one ASCII character, in texts that are UTF-8. -/
theorem Rx.IsCls.findsRune {x : Rx} {q : UInt8} (hq : q.toNat < 0x80) (h : x.IsCls ⟨true, [(q.toNat, q.toNat)]⟩) : FindsRune (· ≠ q.toNat) (· ≠ q) x.regex := by
  have hh : ∀ r, RuneClass.has ⟨true, [(q.toNat, q.toNat)]⟩ r = true ↔ r ≠ q.toNat := by
    intro r
    simp [RuneClass.has]
  constructor
  · intro r s hr hne
    have e : Spec.utf8 [r] = encodeRune r := by rw [encodeRune_eq_utf8 hr]; simp [Spec.utf8]
    rw [e]
    have hd := decodeRune_encodeRune hr s
    refine (h.find _ _).mpr ⟨?_, ?_, ?_⟩
    · simp [encodeRune_ne_nil]
    · rw [hd, hh]; exact hne
    · rw [hd]
  · intro s n hs
    obtain ⟨h1, h2, _⟩ := (h.find _ _).mp hs
    match s, h1, h2 with
    | b :: t, _, h2 =>
      refine ⟨b, t, rfl, ?_⟩
      rintro rfl
      rw [(decodeRune_cons b t).2.2.2.2.2.1 hq, hh] at h2
      exact h2 rfl

/-- A class that leaves out one ASCII character, in all texts. -/
theorem Rx.IsCls.findsBut {x : Rx} {q : UInt8} (hq : q.toNat < 0x80) (h : x.IsCls ⟨true, [(q.toNat, q.toNat)]⟩) : FindsBut q x.regex := by
  have hh : ∀ r, RuneClass.has ⟨true, [(q.toNat, q.toNat)]⟩ r = true ↔ r ≠ q.toNat := by
    intro r
    simp [RuneClass.has]
  constructor
  · intro c s hc
    refine ⟨_, (h.find _ _).mpr ⟨by simp, ?_, rfl⟩⟩
    rw [hh]
    obtain ⟨_, _, _, _, _, h1, h2⟩ := decodeRune_cons c s
    by_cases hc8 : c.toNat < 0x80
    · rw [h1 hc8]
      exact fun e => hc (UInt8.toNat_inj.mp e)
    · have := h2 (by omega)
      omega
  · intro s n hs
    obtain ⟨h1, h2, rfl⟩ := (h.find _ _).mp hs
    match s, h1, h2 with
    | b :: t, _, h2 =>
      obtain ⟨h3, _, _, h4, _, h5, _⟩ := decodeRune_cons b t
      refine ⟨h3, fun hm => ?_⟩
      obtain ⟨i, hi⟩ := List.mem_iff_getElem?.mp hm
      rw [List.getElem?_take] at hi
      split at hi
      · match i, hi with
        | 0, hi =>
          cases hi
          rw [h5 hq, hh] at h2
          exact h2 rfl
        | i + 1, hi =>
          obtain ⟨c, hc, hc2⟩ := h4 (i + 1) (by omega) ‹_›
          rw [hc] at hi
          cases hi
          omega
      · cases hi

/-! ## Numbers -/

/-- `[0-9]` -/
def digitCls : RuneClass := ⟨false, [(0x30, 0x39)]⟩

theorem digitCls_ascii : digitCls.Ascii := by decide

theorem digitCls_has (b : UInt8) : digitCls.has b.toNat = true ↔ IsDigit b := by
  simp [RuneClass.has, digitCls, IsDigit]

/-- `-?[0-9]+` -/
def numRx : Rx := .seq (.opt (.lit 0x2D)) (.plus (.cls digitCls))

theorem dash_ascii : RuneClass.Ascii ⟨false, [(0x2D, 0x2D)]⟩ := by decide

theorem dash_has (b : UInt8) : RuneClass.has ⟨false, [(0x2D, 0x2D)]⟩ b.toNat = true ↔ b = 0x2D := by
  simp only [RuneClass.has, List.any_cons, List.any_nil, Bool.or_false, Bool.false_bne, Bool.and_eq_true, decide_eq_true_eq]
  constructor
  · intro h; exact UInt8.toNat_inj.mp (by simp; omega)
  · rintro rfl; decide

theorem dropWhile_exact {p : UInt8 → Bool} : ∀ (w s : Bytes), (∀ c ∈ w, p c = true) → (∀ c s', s = c :: s' → p c = false) → (w ++ s).dropWhile p = s
  | [], [], _, _ => rfl
  | [], c :: s, _, h => by rw [List.nil_append, List.dropWhile_cons, if_neg]; simp [h c s rfl]
  | c :: w, s, hw, h => by
    rw [List.cons_append, List.dropWhile_cons, if_pos (hw c (List.mem_cons_self ..))]
    exact dropWhile_exact w s (fun x hx => hw x (List.mem_cons_of_mem _ hx)) h

theorem plus_digits {n : Nat} {ds s : Bytes} (h0 : ds ≠ []) (hd : ∀ c ∈ ds, IsDigit c) (hs : ∀ c s', s = c :: s' → ¬ IsDigit c) :
    ((Rx.plus (.cls digitCls)).run n (ds ++ s)).head? = some s := by
  match ds, h0, hd with
  | d :: ds, _, hd =>
    have h1 : (Rx.cls digitCls).run n (d :: (ds ++ s)) = [ds ++ s] := by
      rw [digitCls_ascii.run, if_pos ((digitCls_has d).mpr (hd d (List.mem_cons_self ..)))]
    have : (Rx.plus (.cls digitCls)).run n (d :: (ds ++ s)) = ((Rx.cls digitCls).run n (d :: (ds ++ s))).flatMap fun r => Re.stars ((Rx.cls digitCls).run n) r.length r := rfl
    rw [List.cons_append, this, h1]
    simp only [List.flatMap_cons, List.flatMap_nil, List.append_nil]
    rw [digitCls_ascii.stars n _ _ (Nat.le_refl _)]
    rw [dropWhile_exact ds s (fun c hc => (digitCls_has c).mpr (hd c (List.mem_cons_of_mem _ hc)))
      (fun c s' h => by have := hs c s' h; rw [← digitCls_has] at this; simpa using this)]

theorem numRx_run {n : Nat} (neg : Bool) {ds s : Bytes} (h0 : ds ≠ []) (hd : ∀ c ∈ ds, IsDigit c) (hs : ∀ c s', s = c :: s' → ¬ IsDigit c) :
    (numRx.run n ((if neg then [0x2D] else []) ++ ds ++ s)).head? = some s := by
  have e : ∀ t, numRx.run n t = ((Rx.lit 0x2D).run n t ++ [t]).flatMap ((Rx.plus (.cls digitCls)).run n) := fun _ => rfl
  rw [e]
  cases neg with
  | true =>
    have h1 : (Rx.lit 0x2D).run n (0x2D :: (ds ++ s)) = [ds ++ s] := by
      rw [Rx.lit, dash_ascii.run, if_pos ((dash_has _).mpr rfl)]
    simp only [if_true, List.cons_append, List.nil_append, h1]
    exact flatMap_head rfl (plus_digits h0 hd hs)
  | false =>
    match ds, h0, hd with
    | d :: ds, h0, hd =>
      have h1 : (Rx.lit 0x2D).run n (d :: (ds ++ s)) = [] := by
        rw [Rx.lit, dash_ascii.run, if_neg]
        rw [dash_has]
        rintro rfl
        exact absurd (hd _ (List.mem_cons_self ..)) (by decide)
      simp only [Bool.false_eq_true, if_false, List.cons_append, List.nil_append, h1]
      exact flatMap_head rfl (plus_digits (ds := d :: ds) h0 hd hs)

theorem numRx_matches {n : Nat} {s r : Bytes} (h : numRx.Matches n s r) : ∃ (neg : Bool) (c : UInt8) (s' : Bytes), s = (if neg then [0x2D] else []) ++ c :: s' ∧ IsDigit c := by
  cases h with
  | seq h1 h2 =>
    cases h2 with
    | plus h2 _ =>
      obtain ⟨c, rfl, hc⟩ := digitCls_ascii.matches h2
      have hc := (digitCls_has c).mp hc
      cases h1 with
      | some h1 =>
        obtain ⟨b, rfl, hb⟩ := dash_ascii.matches h1
        rw [dash_has] at hb
        exact ⟨true, c, _, by rw [hb]; rfl, hc⟩
      | skip => exact ⟨false, c, _, rfl, hc⟩

theorem find_of_run {x : Rx} {p s : Bytes} (h : (x.run (p ++ s).length (p ++ s)).head? = some s) : x.regex.find (p ++ s) = some (0, p.length) :=
  (Rx.find_zero ..).mpr ⟨s, h, by simp⟩

theorem findsNumber_of {x : Rx} (h : ∀ n s, x.run n s = numRx.run n s) : Lisp.FindsNumber x.regex := by
  constructor
  · intro neg ds s h0 hd hs
    exact find_of_run (by rw [h]; exact numRx_run neg h0 hd hs)
  · intro s n hn
    have := Rx.find_sound x hn
    rw [← Rx.run_iff, h, Rx.run_iff] at this
    exact numRx_matches this

theorem findsInt_of {x : Rx} (h : ∀ s, x.run s.length s = numRx.run s.length s) : FindsInt x.regex := by
  constructor
  · intro neg ds s h0 hd hs
    exact find_of_run (by rw [h]; exact numRx_run neg h0 hd hs)
  · intro s n hn
    have := Rx.find_sound x hn
    rw [← Rx.run_iff, h, Rx.run_iff] at this
    obtain ⟨neg, c, s', hs, hc⟩ := numRx_matches this
    refine ⟨neg, c :: s'.takeWhile (fun b => decide (IsDigit b)), s'.dropWhile (fun b => decide (IsDigit b)), by simp, ?_, ?_, ?_⟩
    · intro b hb
      rcases List.mem_cons.mp hb with rfl | hb
      · exact hc
      · simpa using List.all_takeWhile (l := s') (p := fun b => decide (IsDigit b)) |> fun h => List.all_eq_true.mp h b hb
    · intro b t hb
      have := List.head?_dropWhile_not (fun b => decide (IsDigit b)) s'
      rw [hb] at this
      simpa using this
    · rw [hs, List.append_assoc, List.cons_append, List.takeWhile_append_dropWhile]

/-! ## Words -/

theorem findsWord_of {x : Rx} {A B : RuneClass} (hA : A.Ascii) (hB : B.Ascii) (h : ∀ n s, x.run n s = (Rx.seq (.cls A) (.star (.cls B))).run n s)
    (hA' : ∀ b, A.has b.toNat = true ↔ Lisp.IsLetter b) (hB' : ∀ b, B.has b.toNat = true ↔ Lisp.IsLater b) : Lisp.FindsWord x.regex := by
  constructor
  · rintro w s ⟨c, l, rfl, hc, hl⟩ hs
    refine find_of_run ?_
    rw [h]
    have h1 : (Rx.cls A).run (c :: l ++ s).length (c :: (l ++ s)) = [l ++ s] := by rw [hA.run, if_pos ((hA' c).mpr hc)]
    refine flatMap_head (x := l ++ s) (by rw [List.cons_append] at *; rw [h1]; rfl) ?_
    show (Re.stars _ _ _).head? = _
    rw [hB.stars _ _ _ (Nat.le_refl _)]
    rw [dropWhile_exact l s (fun c hc => (hB' c).mpr (hl c hc)) (fun c s' h => by have := hs c s' h; rw [← hB'] at this; simpa using this)]
  · intro s n hn
    have := Rx.find_sound x hn
    rw [← Rx.run_iff, h, Rx.run_iff] at this
    cases this with
    | seq h1 _ =>
      obtain ⟨c, rfl, hc⟩ := hA.matches h1
      exact ⟨c, _, rfl, (hA' c).mp hc⟩

end Joeson
