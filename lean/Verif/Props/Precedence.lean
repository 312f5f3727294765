import Verif.Proofs.Precedence
/-!
# C62: operators of one precedence (examples/precedence)
-/

namespace Joeson
open RuleText Sample Arith Calc

theorem prec_parts {reG reB : Regex} (hG : FindsGlyph reG) (hB : FindsBlank reB) : HasParts reG reB (precBars reG reB) := by
  refine ⟨hG, hB, ?_, ?_, ?_, ?_, ?_, ?_⟩
  · rw [prec_mentions]; decide
  · simp [precBars, rulesOf, GLine.rules, Body.rules]
  · rw [prec_mentions]; decide
  · simp [precBars, rulesOf, GLine.rules, Body.rules]
  · rw [prec_mentions]; decide
  · simp [precBars, rulesOf, GLine.rules, Body.rules]

/-- A line that is the name of a rule. -/
theorem lines_ref {P : PureOps V} {N : Nat} {L ls : List GLine} {d : Nat} {s : Bytes} {cb : Option Nat} {b : Body} {x : V × Bytes}
    (hm : "Expr" ∈ mentionsIn L) (hr : ("Expr", cb, b) ∈ rulesOf L) (h : YieldsL P N L none d (.rule "Expr" cb b) s (.ok (some x))) :
    YieldsL P N L none (d + 1) (.lines (.alt "" none (.text refExprE) :: ls)) s (.ok (some x)) :=
  .altDone (call_yields (q := false) (by kernel_rfl) hm hr h) (by simp)

theorem moss_accepts (u : UserString) (c : Nat) (v : Ast) (p : Nat) : (mossOps u).cb c v p ≠ .ok none := by
  show (growMoss u v).map some ≠ _
  cases growMoss u v <;> simp [Except.map]

/-- C62: with the left recursive rule `Expr ( _ AddOp _ Glyph )* | Glyph` and `growMoss`, operations of one precedence are nested
to the left, for chains of any length with any blanks; and so they are when the two alternatives are lines of a rank, each with
`growMoss`. Both grammars are built with the library's compiler of rule texts. -/
theorem C62_left_associative (rx : Bytes → Option Regex) (reG reB : Regex) (hrxG : rx (asc "[a-zA-Z0-9]") = some reG) (hrxB : rx (asc "[ \\t]") = some reB)
    (hG : FindsGlyph reG) (hB : FindsBlank reB) :
    ∃ lines lines' m0, linesOf (precBars reG reB) = .ok lines ∧ linesOf (precRank reG reB) = .ok lines' ∧ joesonMade = .ok m0 ∧ ∃ k0, ∀ k, k0 ≤ k →
      ∃ m m', grammarFromLines (compileRule rx m0.g {} k) "at hand" lines = .ok m ∧ grammarFromLines (compileRule rx m0.g {} k) "at hand" lines' = .ok m' ∧
        ∀ (H : Type) (u : UserString) (h : H) (a : UInt8) (l : List Link), IsGlyph a → (∀ k ∈ l, k.Ok) → ∃ k1, ∀ k', k1 ≤ k' →
          (∃ s, (parseString ((mossOps u).ops H) m.g {} [] k' h (a :: chain l)).1 = .ok (.value (leftMoss (.str [a]) l), s)) ∧
          ∃ s, (parseString ((mossOps u).ops H) m'.g {} [] k' h (a :: chain l)).1 = .ok (.value (leftMoss (.str [a]) l), s) := by
  obtain ⟨lines, lines', m0, hl, hl', hm0, k0, hk0⟩ := C61_alternatives_as_lines_partial rx {} rfl _ _ (C61_precedence_same reG reB) (prec_names reG reB).1
    (prec_texts hrxG hrxB).1 (prec_names reG reB).2 (prec_texts hrxG hrxB).2 "at hand" "at hand"
  refine ⟨lines, lines', m0, hl, hl', hm0, k0, fun k hk => ?_⟩
  obtain ⟨m, m', hm, hm', h1⟩ := hk0 k hk
  refine ⟨m, m', hm, hm', fun H u h a l ha hlk => ?_⟩
  have hy : YieldsL (mossOps u) (a :: chain l).length (precBars reG reB) none 3 (.lines (precBars reG reB)) (a :: chain l) (.ok (some (leftMoss (.str [a]) l, []))) :=
    lines_ref (d := 2) (by rw [prec_mentions]; decide) (by simp [precBars, rulesOf, GLine.rules, Body.rules])
      (prec_rule (d := 0) (prec_parts hG hB) (by rw [prec_mentions]; decide) ha l hlk)
  obtain ⟨k1, hk1⟩ := h1 Ast H (mossOps u) (fun _ _ => rfl) (fun c _ v p => moss_accepts u c v p) {} rfl rfl [] (by simp) h _ 3 _ (by decide) hy
  refine ⟨k1, fun k' hk' => ?_⟩
  simpa [Gives] using hk1 k' hk'

theorem right_names (reG : Regex) : GoodNames (rightLines reG) := by
  have hh : ∀ x : String, x ∈ (["Expr", "AddOp", "Glyph"] : List String) → '[' ∉ x.toList := by
    intro x hx
    simp only [List.mem_cons, List.not_mem_nil, or_false] at hx
    rcases hx with rfl | rfl | rfl <;> decide
  refine goodNames_of rfl ?_ fun d hd => hh _ ?_
  · show (["Expr", "AddOp", "Glyph"] : List String).Nodup
    decide
  · exact List.mem_map_of_mem (f := (·.1)) hd

theorem right_texts {rx : Bytes → Option Regex} {reG : Regex} (hG : rx (asc "[a-zA-Z0-9]") = some reG) : AllLines (TextOk rx (rightLines reG)) (rightLines reG) := by
  refine textsOk_rx (by kernel_rfl) ?_
  simp only [rightLines, AllLines, GLine.All, Body.All, Expr.RxOk, Units.RxOk, Alts.RxOk, Deco.RxOk, Prim.RxOk, refExprE, rightE, addOpE, glyphE, litE, and_true, true_and]
  exact hG

/-- C62: with the rule `Expr ( AddOp Expr )* | Glyph` they are nested to the right, for chains of up to 1000 operations. -/
theorem C62_right_associative (rx : Bytes → Option Regex) (reG : Regex) (hrxG : rx (asc "[a-zA-Z0-9]") = some reG) (hG : FindsGlyph reG) :
    ∃ lines m0, linesOf (rightLines reG) = .ok lines ∧ joesonMade = .ok m0 ∧ ∃ k0, ∀ k, k0 ≤ k →
      ∃ m, grammarFromLines (compileRule rx m0.g {} k) "at hand" lines = .ok m ∧
        ∀ (H : Type) (u : UserString) (h : H) (a : UInt8) (l : List (AddOp × UInt8)), IsGlyph a → (∀ k ∈ l, IsGlyph k.2) → l.length ≤ 1000 →
          ∃ k1, ∀ k', k1 ≤ k' → ∃ s, (parseString ((mossOps u).ops H) m.g {} [] k' h (a :: rightText l)).1 = .ok (.value (rightMoss a l), s) := by
  obtain ⟨lines, m0, hl, hm0, k0, hk0⟩ := C57_rule_text_left_recursion_partial rx {} rfl _ (right_names reG) (right_texts hrxG) "at hand"
  refine ⟨lines, m0, hl, hm0, k0, fun k hk => ?_⟩
  obtain ⟨m, hm, h1⟩ := hk0 k hk
  refine ⟨m, hm, fun H u h a l ha hlk hlen => ?_⟩
  have hy : YieldsL (mossOps u) (a :: rightText l).length (rightLines reG) none (l.length + 3) (.lines (rightLines reG)) (a :: rightText l)
      (.ok (some (rightMoss a l, []))) := by
    have := right_rule (u := u) (N := (a :: rightText l).length) hG l a ha hlk none 0
    rw [Nat.zero_add] at this
    exact lines_ref (d := l.length + 2) (by rw [right_mentions]; decide) (by simp [rightLines, rulesOf, GLine.rules, Body.rules]) this
  obtain ⟨k1, hk1⟩ := h1 Ast H (mossOps u) (fun _ _ => rfl) {} rfl rfl [] (by simp) h _ _ _ hy
  refine ⟨k1, fun k' hk' => ?_⟩
  rcases hk1 k' hk' with h | h
  · simpa [Gives] using h
  · omega

/-- C62: the same chain, without blanks, is nested differently by the two grammars, from two operations on. -/
theorem C62_nested_differently (a : UInt8) (l : List (AddOp × UInt8)) (hl : 2 ≤ l.length) :
    rightMoss a l ≠ leftMoss (.str [a]) (l.map fun k => ⟨[], k.1, [], k.2⟩) := by
  match l, hl with
  | (o, b) :: (o', b') :: l, _ =>
    have key : ∀ (l : List (AddOp × UInt8)) (x y : Ast) (q : Bytes), ∃ x' q' c, leftMoss (binaryexpr x q y) (l.map fun k => ⟨[], k.1, [], k.2⟩) = .user 0 [x', q', c] ∧
        (c = y ∨ ∃ b, c = .str [b]) := by
      intro l
      induction l with
      | nil => intro x y q; exact ⟨x, .str q, y, rfl, .inl rfl⟩
      | cons k l ih =>
        intro x y q
        obtain ⟨x', q', c, he, hc⟩ := ih (binaryexpr x q y) (.str [k.2]) [k.1.char]
        refine ⟨x', q', c, he, ?_⟩
        rcases hc with rfl | hc
        · exact .inr ⟨_, rfl⟩
        · exact .inr hc
    obtain ⟨x', q', c, he, hc⟩ := key ((o', b') :: l) (.str [a]) (.str [b]) [o.char]
    intro h
    have h' : rightMoss a ((o, b) :: (o', b') :: l) = .user 0 [x', q', c] := h.trans he
    simp only [rightMoss, binaryexpr, Ast.user.injEq, List.cons.injEq, and_true, true_and] at h'
    obtain ⟨_, _, rfl⟩ := h'
    rcases hc with h | ⟨b, h⟩ <;> cases h

namespace Sample

/-- The hypotheses of `C62_left_associative` and `C62_right_associative` can be met. -/
def glyphRe : Regex where
  find s := (s.findIdx? fun c => decide (0x61 ≤ c ∧ c ≤ 0x7A ∨ 0x41 ≤ c ∧ c ≤ 0x5A ∨ 0x30 ≤ c ∧ c ≤ 0x39)).map fun i => (i, i + 1)
  bounds := by
    intro s a b h
    simp only [Option.map_eq_some_iff, Prod.mk.injEq] at h
    obtain ⟨i, hi, rfl, rfl⟩ := h
    obtain ⟨hlt, _⟩ := List.findIdx?_eq_some_iff_getElem.mp hi
    exact ⟨by omega, by omega⟩

example : FindsGlyph glyphRe := by
  refine ⟨fun c s h => ?_, fun s n h => ?_⟩
  · simp only [glyphRe, List.findIdx?_cons]
    rw [if_pos (by unfold IsGlyph at h; simpa using h)]
    rfl
  · simp only [glyphRe, Option.map_eq_some_iff, Prod.mk.injEq] at h
    obtain ⟨i, hi, rfl, _⟩ := h
    obtain ⟨hlt, hc, _⟩ := List.findIdx?_eq_some_iff_getElem.mp hi
    match s, hlt, hc with
    | c :: s, _, hc => exact ⟨c, s, rfl, by simpa [IsGlyph] using hc⟩

/-- `3-2-1`, as in the test, and with blanks. -/
example : (0x33 :: chain [⟨[], .minus, [], 0x32⟩, ⟨[], .minus, [], 0x31⟩]) = asc "3-2-1" ∧
    (0x33 :: chain [⟨[0x20], .minus, [0x09, 0x20], 0x32⟩, ⟨[], .minus, [], 0x31⟩]) = asc "3 -\t 2-1" ∧
    mossString (fun _ _ => []) (leftMoss (.str (asc "3")) [⟨[], .minus, [], 0x32⟩, ⟨[], .minus, [], 0x31⟩]) = asc "[- [- 3 2] 1]" ∧
    (0x33 :: rightText [(.minus, 0x32), (.minus, 0x31)]) = asc "3-2-1" ∧
    mossString (fun _ _ => []) (rightMoss 0x33 [(.minus, 0x32), (.minus, 0x31)]) = asc "[- 3 [- 2 1]]" :=
  ⟨by kernel_rfl, by kernel_rfl, by kernel_rfl, by kernel_rfl, by kernel_rfl⟩

/-- `S: x:'a' | 'a'` with a callback that rejects objects. -/
def pickyE : Expr :=
  .choice [] (.one [] (some (asc "x")) (.prim (litE "a"))) [0x20] (.one (.one [0x20] none (.prim (litE "a")))) [] []

/-- The callback on the rule. -/
def pickyBars : List GLine := [.alt "S" (some 0) (.text pickyE)]

/-- The callback on each of the alternatives. -/
def pickyRank : List GLine :=
  [.alt "S" none (.rank [.alt "" (some 0) (.text (.single (.one [] (some (asc "x")) (.prim (litE "a"))) [])),
    .alt "" (some 0) (.text (.single (.one [] none (.prim (litE "a"))) []))])]

/-- Rejects objects. -/
def pickyOps : PureOps Ast := treePure fun _ v _ => match v with | .map _ => .ok none | v => .ok (some v)

end Sample

/-- C61: the condition on callbacks is needed. A callback that rejects is not the same on a rule and on each of its alternatives:
on the rule it ends the choice. -/
theorem C61_rejecting_callback_differs :
    (∃ e ps ls, pickyBars = [.alt "S" (some 0) (.text e)] ∧ pickyRank = [.alt "S" none (.rank ls)] ∧ e.vp = .alt "" ps ∧
      SplitLines (mentionsIn pickyBars) (some 0) ps ls) ∧
    YieldsL pickyOps 1 pickyBars none 20 (.lines pickyBars) (asc "a") (.ok none) ∧
    YieldsL pickyOps 1 pickyRank none 20 (.lines pickyRank) (asc "a") (.ok (some (.str (asc "a"), []))) := by
  refine ⟨⟨pickyE, [(Expr.single (.one [] (some (asc "x")) (.prim (litE "a"))) []).vp, (Expr.single (.one [] none (.prim (litE "a"))) []).vp], _, rfl, rfl,
      by kernel_rfl, .alt (.inl rfl) (.alt (.inl rfl) .nil)⟩, lrun_sound 60 _ _ _ _ _ (by kernel_rfl), lrun_sound 60 _ _ _ _ _ (by kernel_rfl)⟩

end Joeson
