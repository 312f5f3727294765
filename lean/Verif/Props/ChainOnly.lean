import Verif.Proofs.ChainOnly
import Verif.Props.WellFormed
/-!
# C57 and C62: which texts the left recursive grammars understand
-/

namespace Joeson
open RuleText Sample Arith Calc

variable {V : Type} {rx : Bytes → Option Regex} {L : List GLine}

/-- As `libGives_of`, for grammars with left recursion. -/
theorem libGivesL_of (hg : GoodNames L) (hL : AllLines (TextOk rx L) L) {P : PureOps V} (ho : ∀ v o, P.origin v o = v)
    {text : Bytes} {d : Nat} {r : VRes V} (hd : d ≤ 1024) (h : YieldsL P text.length L none d (.lines L) text r) : LibGives rx L P text r := by
  obtain ⟨lines, m0, h1, h2, k0, h3⟩ := C57_rule_text_left_recursion_partial rx {} rfl L hg hL ""
  refine ⟨lines, m0, h1, h2, k0, fun k' hk' => ?_⟩
  obtain ⟨m, h4, h5⟩ := h3 k' hk'
  obtain ⟨k1, h6⟩ := h5 V Unit P ho {} rfl rfl [] (by simp) () text d _ h
  exact ⟨m, h4, k1, fun k hk => (h6 k hk).resolve_right fun h => absurd h.1 (by omega)⟩

/-- A value is not a parse error, nor another value. -/
theorem libGives_value {P : PureOps V} {text : Bytes} {v : V} {r : Option (V × Bytes)} (h : LibGives rx L P text (.ok (some (v, [])))) (h' : LibGives rx L P text (.ok r)) :
    r = some (v, []) := by
  obtain ⟨o, h1, h2⟩ := gives_twice h h'
  simp only [Gives, if_pos] at h1
  obtain ⟨s, rfl⟩ := h1
  match r, h2 with
  | none, h2 =>
    simp only [Gives] at h2
    split at h2
    · obtain ⟨_, h⟩ := h2; cases h
    · obtain ⟨_, _, h, _⟩ := h2; cases h
  | some (v', rest), h2 =>
    simp only [Gives] at h2
    split at h2
    · rename_i hn
      obtain ⟨_, h⟩ := h2
      cases h
      rw [hn]
    · obtain ⟨_, _, h, _⟩ := h2; cases h

/-! ## `E '-' N | N` -/

section
variable {re : Regex}

/-- C57: what the grammar `E '-' N | N` makes of any text: nothing of a text that does not begin with a digit; otherwise it takes
the longest chain `a-b-c-...` there is, and nests it to the left. -/
theorem C57_minus_longest (hrx : rx (asc "[0-9]") = some re) (hre : FindsDigit re) (P : PureOps V) (ho : ∀ v o, P.origin v o = v) :
    (∀ s : Bytes, (∀ a s', s = a :: s' → ¬ (0x30 ≤ a ∧ a ≤ 0x39)) → LibGives rx (minusLines re) P s (.ok none)) ∧
    ∀ (a : UInt8) (l t : Bytes), (∀ c ∈ a :: l, 0x30 ≤ c ∧ c ≤ 0x39) → NoMinus t →
      LibGives rx (minusLines re) P (a :: (l.flatMap (fun c => [0x2D, c]) ++ t)) (.ok (some (l.foldl (fun v c => P.arr [v, P.str [c]]) (P.str [a]), t))) := by
  refine ⟨fun s hs => libGivesL_of (minus_names re) (minus_texts hrx) ho (by decide) (minus_none hre hs), fun a l t hl ht => ?_⟩
  exact libGivesL_of (minus_names re) (minus_texts hrx) ho (by decide)
    (minus_yields_to hre (hl a (List.mem_cons_self ..)) (fun c hc => hl c (List.mem_cons_of_mem _ hc)) ht)

/-- C57: so `ParseString` gives a value to the texts `a-b-c-...` and to no others, and this value. -/
theorem C57_minus_only (hrx : rx (asc "[0-9]") = some re) (hre : FindsDigit re) (P : PureOps V) (ho : ∀ v o, P.origin v o = v) (text : Bytes) (v : V) :
    LibGives rx (minusLines re) P text (.ok (some (v, []))) ↔
      ∃ (a : UInt8) (l : Bytes), (∀ c ∈ a :: l, 0x30 ≤ c ∧ c ≤ 0x39) ∧ text = a :: l.flatMap (fun c => [0x2D, c]) ∧
        v = l.foldl (fun v c => P.arr [v, P.str [c]]) (P.str [a]) := by
  obtain ⟨h1, h2⟩ := C57_minus_longest hrx hre P ho
  constructor
  · intro h
    by_cases hs : ∀ a s', text = a :: s' → ¬ (0x30 ≤ a ∧ a ≤ 0x39)
    · cases libGives_value h (h1 text hs)
    · simp only [not_forall, not_not] at hs
      obtain ⟨a, s, rfl, ha⟩ := hs
      obtain ⟨l, t, hl, rfl, ht⟩ := minus_split _ s (Nat.le_refl _)
      have hal : ∀ c ∈ a :: l, 0x30 ≤ c ∧ c ≤ 0x39 := fun x hx => by
        rcases List.mem_cons.mp hx with rfl | hx
        · exact ha
        · exact hl x hx
      have := libGives_value h (h2 a l t hal ht)
      simp only [Option.some.injEq, Prod.mk.injEq] at this
      exact ⟨a, l, hal, by rw [this.2, List.append_nil]; rfl, this.1.symm⟩
  · rintro ⟨a, l, hal, rfl, rfl⟩
    have := h2 a l [] hal fun _ _ h => by cases h
    rwa [List.append_nil] at this
end

/-! ## examples/precedence -/

section
variable {reG reB : Regex}

theorem lines_ref_any {P : PureOps V} {N : Nat} {L ls : List GLine} {d : Nat} {s : Bytes} {cb : Option Nat} {b : Body} {x : Option (V × Bytes)}
    (hls : ∀ d, YieldsL P N L none d (.lines ls) s (.ok none))
    (hm : "Expr" ∈ mentionsIn L) (hr : ("Expr", cb, b) ∈ rulesOf L) (h : YieldsL P N L none d (.rule "Expr" cb b) s (.ok x)) :
    YieldsL P N L none (d + 1) (.lines (.alt "" none (.text refExprE) :: ls)) s (.ok x) := by
  match x, h with
  | none, h => exact .altMiss (call_yields (q := false) (by kernel_rfl) hm hr h) (hls _)
  | some x, h => exact .altDone (call_yields (q := false) (by kernel_rfl) hm hr h) (by simp)

/-- Both of the equivalent grammars. -/
theorem prec_both (hrxG : rx (asc "[a-zA-Z0-9]") = some reG) (hrxB : rx (asc "[ \\t]") = some reB) {u : UserString} {text : Bytes} {x : Option (Ast × Bytes)} {d : Nat} (hd : d ≤ 511)
    (h : YieldsL (mossOps u) text.length (precBars reG reB) none d (.rule "Expr" (some 0) (.text precE)) text (.ok x)) :
    LibGives rx (precBars reG reB) (mossOps u) text (.ok x) ∧ LibGives rx (precRank reG reB) (mossOps u) text (.ok x) := by
  obtain ⟨lines, lines', m0, hl, hl', hm0, k0, hk0⟩ := C61_alternatives_as_lines_partial rx {} rfl _ _ (C61_precedence_same reG reB) (prec_names reG reB).1
    (prec_texts hrxG hrxB).1 (prec_names reG reB).2 (prec_texts hrxG hrxB).2 "" ""
  have hy : YieldsL (mossOps u) text.length (precBars reG reB) none (d + 1) (.lines (precBars reG reB)) text (.ok x) :=
    lines_ref_any (fun d => .incl (.incl (.incl (.incl .linesEnd)))) (by rw [prec_mentions]; decide) (by simp [precBars, rulesOf, GLine.rules, Body.rules]) h
  constructor
  · refine ⟨lines, m0, hl, hm0, k0, fun k hk => ?_⟩
    obtain ⟨m, m', hm, hm', h1⟩ := hk0 k hk
    obtain ⟨k1, hk1⟩ := h1 Ast Unit (mossOps u) (fun _ _ => rfl) (fun c _ v p => moss_accepts u c v p) {} rfl rfl [] (by simp) () _ _ _ (by omega) hy
    exact ⟨m, hm, k1, fun k' hk' => (hk1 k' hk').1⟩
  · refine ⟨lines', m0, hl', hm0, k0, fun k hk => ?_⟩
    obtain ⟨m, m', hm, hm', h1⟩ := hk0 k hk
    obtain ⟨k1, hk1⟩ := h1 Ast Unit (mossOps u) (fun _ _ => rfl) (fun c _ v p => moss_accepts u c v p) {} rfl rfl [] (by simp) () _ _ _ (by omega) hy
    exact ⟨m', hm', k1, fun k' hk' => (hk1 k' hk').2⟩

/-- C62: what the two equivalent left recursive grammars make of any text: nothing of a text that does not begin with a letter or a
digit; otherwise the longest chain of operations there is, nested to the left. -/
theorem C62_left_longest (hrxG : rx (asc "[a-zA-Z0-9]") = some reG) (hrxB : rx (asc "[ \\t]") = some reB) (hG : FindsGlyph reG) (hB : FindsBlank reB) (u : UserString) :
    (∀ s : Bytes, NoGlyph s → LibGives rx (precBars reG reB) (mossOps u) s (.ok none) ∧ LibGives rx (precRank reG reB) (mossOps u) s (.ok none)) ∧
    ∀ (a : UInt8) (l : List Link) (t : Bytes), IsGlyph a → (∀ k ∈ l, k.Ok) → NoLink t →
      LibGives rx (precBars reG reB) (mossOps u) (a :: (chain l ++ t)) (.ok (some (leftMoss (.str [a]) l, t))) ∧
      LibGives rx (precRank reG reB) (mossOps u) (a :: (chain l ++ t)) (.ok (some (leftMoss (.str [a]) l, t))) := by
  have hm : "Expr" ∈ mentionsIn (precBars reG reB) := by rw [prec_mentions]; decide
  exact ⟨fun s hs => prec_both hrxG hrxB (d := 2) (by decide) (prec_rule_none (prec_parts hG hB) hm hs), fun a l t ha hl ht =>
    prec_both hrxG hrxB (d := 2) (by decide) (prec_rule_to (prec_parts hG hB) hm ha l hl ht)⟩

/-- C62: so each of them gives a value to chains of operations and to no other texts, nested to the left. -/
theorem C62_left_only (hrxG : rx (asc "[a-zA-Z0-9]") = some reG) (hrxB : rx (asc "[ \\t]") = some reB) (hG : FindsGlyph reG) (hB : FindsBlank reB) (u : UserString)
    (text : Bytes) (v : Ast) (L : List GLine) (hL : L = precBars reG reB ∨ L = precRank reG reB) :
    LibGives rx L (mossOps u) text (.ok (some (v, []))) ↔ ∃ (a : UInt8) (l : List Link), IsGlyph a ∧ (∀ k ∈ l, k.Ok) ∧ text = a :: chain l ∧ v = leftMoss (.str [a]) l := by
  obtain ⟨h1, h2⟩ := C62_left_longest hrxG hrxB hG hB u
  have h1' : ∀ s : Bytes, NoGlyph s → LibGives rx L (mossOps u) s (.ok none) := fun s hs => by rcases hL with rfl | rfl; exacts [(h1 s hs).1, (h1 s hs).2]
  have h2' : ∀ (a : UInt8) (l : List Link) (t : Bytes), IsGlyph a → (∀ k ∈ l, k.Ok) → NoLink t →
      LibGives rx L (mossOps u) (a :: (chain l ++ t)) (.ok (some (leftMoss (.str [a]) l, t))) := fun a l t ha hl ht => by
    rcases hL with rfl | rfl
    exacts [(h2 a l t ha hl ht).1, (h2 a l t ha hl ht).2]
  constructor
  · intro h
    by_cases hs : NoGlyph text
    · cases libGives_value h (h1' text hs)
    · simp only [NoGlyph, not_forall, not_not] at hs
      obtain ⟨a, s, rfl, ha⟩ := hs
      obtain ⟨l, t, hl, rfl, ht⟩ := link_split _ s (Nat.le_refl _)
      have := libGives_value h (h2' a l t ha hl ht)
      simp only [Option.some.injEq, Prod.mk.injEq] at this
      exact ⟨a, l, ha, hl, by rw [this.2, List.append_nil], this.1.symm⟩
  · rintro ⟨a, l, ha, hl, rfl, rfl⟩
    have := h2' a l [] ha hl fun k _ hk => by
      obtain ⟨r, hr⟩ := hk
      simp [Link.text] at hr
    rwa [List.append_nil] at this

/-- C62: what the grammar `Expr ( AddOp Expr )* | Glyph` makes of any text with a chain of at most 1000 operations. -/
theorem C62_right_longest (hrxG : rx (asc "[a-zA-Z0-9]") = some reG) (hG : FindsGlyph reG) (u : UserString) :
    (∀ s : Bytes, NoGlyph s → LibGives rx (rightLines reG) (mossOps u) s (.ok none)) ∧
    ∀ (a : UInt8) (l : List (AddOp × UInt8)) (t : Bytes), IsGlyph a → (∀ k ∈ l, IsGlyph k.2) → NoOp t → l.length ≤ 1000 →
      LibGives rx (rightLines reG) (mossOps u) (a :: (rightText l ++ t)) (.ok (some (rightMoss a l, t))) := by
  have hy : ∀ {text : Bytes} {d : Nat} {x : Option (Ast × Bytes)}, YieldsL (mossOps u) text.length (rightLines reG) none d (.rule "Expr" (some 0) (.text rightE)) text (.ok x) →
      YieldsL (mossOps u) text.length (rightLines reG) none (d + 1) (.lines (rightLines reG)) text (.ok x) := fun h =>
    lines_ref_any (fun d => .incl (.incl (.incl .linesEnd))) (by rw [right_mentions]; decide) (by simp [rightLines, rulesOf, GLine.rules, Body.rules]) h
  refine ⟨fun s hs => libGivesL_of (right_names reG) (right_texts hrxG) (fun _ _ => rfl) (d := 3) (by decide) (hy (right_rule_none hG hs)), fun a l t ha hl ht hlen => ?_⟩
  exact libGivesL_of (right_names reG) (right_texts hrxG) (fun _ _ => rfl) (by omega) (hy (right_rule_to hG ht l a ha hl none 0))

/-- C62: so it gives a value only to chains without blanks, nested to the right. -/
theorem C62_right_only (hrxG : rx (asc "[a-zA-Z0-9]") = some reG) (hG : FindsGlyph reG) (u : UserString) (text : Bytes) (v : Ast) (hlen : text.length ≤ 2001) :
    LibGives rx (rightLines reG) (mossOps u) text (.ok (some (v, []))) ↔
      ∃ (a : UInt8) (l : List (AddOp × UInt8)), IsGlyph a ∧ (∀ k ∈ l, IsGlyph k.2) ∧ text = a :: rightText l ∧ v = rightMoss a l := by
  have hrl : ∀ l : List (AddOp × UInt8), (rightText l).length = 2 * l.length := by
    intro l
    induction l with
    | nil => rfl
    | cons k l ih => simp only [rightText, List.length_cons, ih]; omega
  obtain ⟨h1, h2⟩ := C62_right_longest hrxG hG u
  constructor
  · intro h
    by_cases hs : NoGlyph text
    · cases libGives_value h (h1 text hs)
    · simp only [NoGlyph, not_forall, not_not] at hs
      obtain ⟨a, s, rfl, ha⟩ := hs
      obtain ⟨l, t, hl, rfl, ht⟩ := right_split _ s (Nat.le_refl _)
      have := libGives_value h (h2 a l t ha hl ht (by simp [hrl] at hlen; omega))
      simp only [Option.some.injEq, Prod.mk.injEq] at this
      exact ⟨a, l, ha, hl, by rw [this.2, List.append_nil], this.1.symm⟩
  · rintro ⟨a, l, ha, hl, rfl, rfl⟩
    have := h2 a l [] ha hl (fun _ _ _ h => by cases h) (by simp [hrl] at hlen; omega)
    rwa [List.append_nil] at this
end

/-- Texts that are matched in part: `1-2--3` up to the second `-`, `a + b +` up to the second blank. -/
example : NoMinus (asc "--3") ∧ NoLink (asc " +") ∧ NoOp (asc " +1") ∧ NoGlyph (asc " a") := by
  have e1 : asc "--3" = [0x2D, 0x2D, 0x33] := by kernel_rfl
  have e2 : asc " +" = [0x20, 0x2B] := by kernel_rfl
  have e3 : asc " +1" = [0x20, 0x2B, 0x31] := by kernel_rfl
  have e4 : asc " a" = [0x20, 0x61] := by kernel_rfl
  refine ⟨?_, ?_, ?_, ?_⟩
  · rw [e1]; rintro c s' ⟨⟩; decide
  · rw [e2]
    rintro k ⟨hw, hw', ha⟩ ⟨r, hr⟩
    have ha' : k.a ≠ 0x2B ∧ k.a ≠ 0x20 := ⟨fun h => by rw [h] at ha; exact absurd ha (by unfold IsGlyph; decide), fun h => by rw [h] at ha; exact absurd ha (by unfold IsGlyph; decide)⟩
    have hm : k.a ∈ ([0x20, 0x2B] : Bytes) := by rw [← hr]; simp [Link.text]
    simp only [List.mem_cons, List.not_mem_nil, or_false] at hm
    rcases hm with h | h
    exacts [ha'.2 h, ha'.1 h]
  · rw [e3]
    rintro o c s' h
    cases o <;> simp [AddOp.char] at h
  · rw [e4]; rintro c s' ⟨⟩; unfold IsGlyph; decide

end Joeson
