import Verif.Proofs.Precedence2
import Verif.Props.Precedence
/-!
# C65: two levels of precedence (examples/precedence)
-/

namespace Joeson
open RuleText Sample Arith Calc Moss

theorem two_names (reG : Regex) : GoodNames (twoLevels reG) := by
  have hh : ∀ x : String, x ∈ (["Expr", "Term", "Factor", "AddOp", "MulOp", "Glyph"] : List String) → '[' ∉ x.toList := by
    intro x hx
    simp only [List.mem_cons, List.not_mem_nil, or_false] at hx
    rcases hx with rfl | rfl | rfl | rfl | rfl | rfl <;> decide
  refine goodNames_of rfl ?_ fun d hd => hh _ ?_
  · show (["Expr", "Term", "Factor", "AddOp", "MulOp", "Glyph"] : List String).Nodup
    decide
  · exact List.mem_map_of_mem (f := (·.1)) hd

theorem deep_names (reG reB : Regex) : GoodNames (deepLines reG reB) := by
  have hh : ∀ x : String, x ∈ (["Expr", "Term", "Factor", "AddOp", "MulOp", "Glyph", "_"] : List String) → '[' ∉ x.toList := by
    intro x hx
    simp only [List.mem_cons, List.not_mem_nil, or_false] at hx
    rcases hx with rfl | rfl | rfl | rfl | rfl | rfl | rfl <;> decide
  refine goodNames_of rfl ?_ fun d hd => hh _ ?_
  · show (["Expr", "Term", "Factor", "AddOp", "MulOp", "Glyph", "_"] : List String).Nodup
    decide
  · exact List.mem_map_of_mem (f := (·.1)) hd

theorem real_names (reG reB : Regex) : GoodNames (realLines reG reB) ∧ GoodNames (wrongLines reG reB) := by
  have hh : ∀ x : String, x ∈ (["Expr", "BinaryExpr", "Term", "Factor", "AddOp", "MulOp", "UnaryExpr", "unary_op", "Glyph", "_"] : List String) → '[' ∉ x.toList := by
    intro x hx
    simp only [List.mem_cons, List.not_mem_nil, or_false] at hx
    rcases hx with rfl | rfl | rfl | rfl | rfl | rfl | rfl | rfl | rfl | rfl <;> decide
  refine ⟨goodNames_of rfl ?_ fun d hd => hh _ ?_, goodNames_of rfl ?_ fun d hd => hh _ ?_⟩
  · show (["Expr", "BinaryExpr", "Term", "Factor", "AddOp", "MulOp", "UnaryExpr", "unary_op", "Glyph", "_"] : List String).Nodup
    decide
  · exact List.mem_map_of_mem (f := (·.1)) hd
  · show (["Expr", "BinaryExpr", "Term", "Factor", "AddOp", "MulOp", "UnaryExpr", "unary_op", "Glyph", "_"] : List String).Nodup
    decide
  · exact List.mem_map_of_mem (f := (·.1)) hd

theorem two_texts {rx : Bytes → Option Regex} {reG : Regex} (hG : rx (asc "[a-zA-Z0-9]") = some reG) : AllLines (TextOk rx (twoLevels reG)) (twoLevels reG) := by
  refine textsOk_rx (by kernel_rfl) ?_
  simp only [twoLevels, AllLines, GLine.All, Body.All, Expr.RxOk, Units.RxOk, Alts.RxOk, Deco.RxOk, Prim.RxOk, refExprE, sumE, prodE, levelE, factorE, mulOpE, addOpE, glyphE, litE,
    and_true, true_and, Bool.false_eq_true, if_false]
  exact hG

theorem deep_texts {rx : Bytes → Option Regex} {reG reB : Regex} (hG : rx (asc "[a-zA-Z0-9]") = some reG) (hB : rx (asc "[ \\t]") = some reB) :
    AllLines (TextOk rx (deepLines reG reB)) (deepLines reG reB) := by
  refine textsOk_rx (by kernel_rfl) ?_
  simp only [deepLines, AllLines, GLine.All, Body.All, Expr.RxOk, Units.RxOk, Alts.RxOk, Deco.RxOk, Prim.RxOk, sumE, prodE, levelE, factorE, mulOpE, addOpE, glyphE, blankE, litE,
    and_true, true_and, if_true]
  exact ⟨hG, hB⟩

theorem real_texts {rx : Bytes → Option Regex} {reG reB : Regex} (hG : rx (asc "[a-zA-Z0-9]") = some reG) (hB : rx (asc "[ \\t]") = some reB) :
    AllLines (TextOk rx (realLines reG reB)) (realLines reG reB) ∧ AllLines (TextOk rx (wrongLines reG reB)) (wrongLines reG reB) := by
  refine ⟨textsOk_rx (by kernel_rfl) ?_, textsOk_rx (by kernel_rfl) ?_⟩
  · simp only [realLines, AllLines, GLine.All, Body.All, Expr.RxOk, Units.RxOk, Alts.RxOk, Deco.RxOk, Prim.RxOk, sumE, prodE, levelE, factorE, mulOpE, addOpE, unaryE, unaryOpE, glyphE, blankE, litE,
      and_true, true_and, if_true]
    exact ⟨hG, hB⟩
  · simp only [wrongLines, wrongE, AllLines, GLine.All, Body.All, Expr.RxOk, Units.RxOk, Alts.RxOk, Deco.RxOk, Prim.RxOk, prodE, levelE, factorE, mulOpE, addOpE, unaryE, unaryOpE, glyphE, blankE, litE,
      and_true, true_and, if_true]
    exact ⟨hG, hB⟩

/-- C65: the first grammar of examples/precedence, built with the library's compiler of rule texts, makes of every expression of
letters, digits, parentheses and the operators `+`, `-`, `*` and `/`, without blanks, the tree of its operations: `*` and `/`
before `+` and `-`, nested to the left; what is in parentheses as it is. Up to 200 parentheses in each other. -/
theorem C65_two_levels (rx : Bytes → Option Regex) (reG : Regex) (hrxG : rx (asc "[a-zA-Z0-9]") = some reG) (hG : FindsGlyph reG) (u : UserString)
    (e : MSum) (he : e.Ok false) (hn : e.nest ≤ 200) : LibGives rx (twoLevels reG) (mossOps u) e.text (.ok (some (e.tree, []))) :=
  libGives_of (two_names reG) (two_texts hrxG) (fun _ _ => rfl) (d := deep 1 e.nest + 3) (by unfold deep; omega) (two_lines hG e he)

/-- C65: so do the grammars with `growMoss` at the rule `Factor` too, with blanks around the operators — unless there is an
operation in parentheses. -/
theorem C65_deep_levels (rx : Bytes → Option Regex) (reG reB : Regex) (hrxG : rx (asc "[a-zA-Z0-9]") = some reG) (hrxB : rx (asc "[ \\t]") = some reB)
    (hG : FindsGlyph reG) (hB : FindsBlank reB) (u : UserString) (e : MSum) (he : e.Ok true) (hn : e.nest ≤ 200) (hp : e.parenOp = false) :
    LibGives rx (deepLines reG reB) (mossOps u) e.text (.ok (some (e.tree, []))) ∧ LibGives rx (realLines reG reB) (mossOps u) e.text (.ok (some (e.tree, []))) := by
  have h1 := fun N => deep_lines (u := u) (N := N) hG hB e he
  have h2 := fun N => real_lines (u := u) (N := N) hG hB e he
  rw [hp] at h1 h2
  exact ⟨libGives_of (deep_names reG reB) (deep_texts hrxG hrxB) (fun _ _ => rfl) (by unfold deep; omega) (h1 _),
    libGives_of (real_names reG reB).1 (real_texts hrxG hrxB).1 (fun _ _ => rfl) (by unfold deep; omega) (h2 _)⟩

/-- C65: if there is one, as in `(a+b)`, they panic: `growMoss` expects strings or arrays, and gets a `binaryexpr`. -/
theorem C65_parentheses_panic (rx : Bytes → Option Regex) (reG reB : Regex) (hrxG : rx (asc "[a-zA-Z0-9]") = some reG) (hrxB : rx (asc "[ \\t]") = some reB)
    (hG : FindsGlyph reG) (hB : FindsBlank reB) (u : UserString) (e : MSum) (he : e.Ok true) (hn : e.nest ≤ 200) (hp : e.parenOp = true) :
    LibGives rx (deepLines reG reB) (mossOps u) e.text (.error .badType) ∧ LibGives rx (realLines reG reB) (mossOps u) e.text (.error .badType) := by
  have h1 := fun N => deep_lines (u := u) (N := N) hG hB e he
  have h2 := fun N => real_lines (u := u) (N := N) hG hB e he
  rw [hp] at h1 h2
  exact ⟨libGives_of (deep_names reG reB) (deep_texts hrxG hrxB) (fun _ _ => rfl) (by unfold deep; omega) (h1 _),
    libGives_of (real_names reG reB).1 (real_texts hrxG hrxB).1 (fun _ _ => rfl) (by unfold deep; omega) (h2 _)⟩

/-- C65: unary operations. The grammar `rules` makes an array of the operator and the operand; it reads no further, whatever
follows. In parentheses it panics. -/
theorem C65_unary (rx : Bytes → Option Regex) (reG reB : Regex) (hrxG : rx (asc "[a-zA-Z0-9]") = some reG) (hrxB : rx (asc "[ \\t]") = some reB)
    (hG : FindsGlyph reG) (hB : FindsBlank reB) (u : UserString) (c a : UInt8) (hc : IsUnary c) (ha : IsGlyph a) (s : Bytes) :
    LibGives rx (realLines reG reB) (mossOps u) (c :: a :: s) (.ok (some (.arr [.str [c], .str [a]], s))) ∧
    LibGives rx (realLines reG reB) (mossOps u) (0x28 :: c :: a :: 0x29 :: s) (.error .badType) :=
  ⟨libGives_of (real_names reG reB).1 (real_texts hrxG hrxB).1 (fun _ _ => rfl) (d := 6) (by decide) (unary_expr hG hB hc ha s).1,
    libGives_of (real_names reG reB).1 (real_texts hrxG hrxB).1 (fun _ _ => rfl) (d := 11) (by decide) (unary_paren hG hB hc ha s)⟩

/-- C65: with `Term ( _ AddOp _ Expr )*`, sums of products are nested to the right. Products without parentheses; up to 300
of them. -/
theorem C65_right_recursion (rx : Bytes → Option Regex) (reG reB : Regex) (hrxG : rx (asc "[a-zA-Z0-9]") = some reG) (hrxB : rx (asc "[ \\t]") = some reB)
    (hG : FindsGlyph reG) (hB : FindsBlank reB) (u : UserString) (p : MProd) (l : List MLink) (hp : p.Ok true) (h0 : p.nest = 0) (hl : ∀ x ∈ l, x.Ok)
    (hn : l.length ≤ 300) : LibGives rx (wrongLines reG reB) (mossOps u) (p.text ++ linksText l) (.ok (some (rightSum p l, []))) :=
  libGives_of (real_names reG reB).2 (real_texts hrxG hrxB).2 (fun _ _ => rfl) (d := 3 + l.length * 3 + 3) (by omega) (wrong_lines hG hB l p hp h0 hl)

/-! ## The expressions of the tests -/

/-- A letter. -/
def glyphP (c : Char) : MProd := .one (.glyph c.toNat.toUInt8)

/-- `a*m/n + x - y + z + b*c` -/
def mossTest : MSum :=
  .op (.op (.op (.op (.one (.op (.op (glyphP 'a') [] .times [] (.glyph 0x6D)) [] .div [] (.glyph 0x6E)))
    [0x20] .plus [0x20] (glyphP 'x')) [0x20] .minus [0x20] (glyphP 'y')) [0x20] .plus [0x20] (glyphP 'z')) [0x20] .plus [0x20] (.op (glyphP 'b') [] .times [] (.glyph 0x63))

/-- The text and the result of the test; there are no parentheses. -/
example : mossTest.text = asc "a*m/n + x - y + z + b*c" ∧ mossString (fun _ _ => []) mossTest.tree = asc "[+ [+ [- [+ [/ [* a m] n] x] y] z] [* b c]]" ∧
    mossTest.parenOp = false ∧ mossTest.nest = 0 := ⟨by kernel_rfl, by kernel_rfl, rfl, rfl⟩

example : mossTest.Ok true := by
  simp [mossTest, glyphP, MSum.Ok, MProd.Ok, MFactor.Ok, Gap, IsGlyph, IsBlank]

/-- `(a+b)*c` -/
def mossParen : MSum := .one (.op (.one (.paren (.op (.one (glyphP 'a')) [] .plus [] (glyphP 'b')))) [] .times [] (.glyph 0x63))

example : mossParen.text = asc "(a+b)*c" ∧ mossString (fun _ _ => []) mossParen.tree = asc "[* [+ a b] c]" ∧ mossParen.parenOp = true ∧ mossParen.nest = 1 :=
  ⟨by kernel_rfl, by kernel_rfl, rfl, rfl⟩

example : mossParen.Ok false ∧ mossParen.Ok true := by
  simp [mossParen, glyphP, MSum.Ok, MProd.Ok, MFactor.Ok, Gap, IsGlyph]

/-- `((a))` is no operation in parentheses. -/
example : (MSum.one (.one (.paren (.one (.one (.paren (.one (glyphP 'a')))))))).parenOp = false ∧
    (MSum.one (.one (.paren (.one (.one (.paren (.one (glyphP 'a')))))))).text = asc "((a))" := ⟨rfl, by kernel_rfl⟩

/-- `3-2-1` -/
example : (glyphP '3').text ++ linksText [⟨[], .minus, [], glyphP '2'⟩, ⟨[], .minus, [], glyphP '1'⟩] = asc "3-2-1" ∧
    mossString (fun _ _ => []) (rightSum (glyphP '3') [⟨[], .minus, [], glyphP '2'⟩, ⟨[], .minus, [], glyphP '1'⟩]) = asc "[- 3 [- 2 1]]" :=
  ⟨by kernel_rfl, by kernel_rfl⟩

example : MLink.Ok ⟨[], .minus, [], glyphP '2'⟩ ∧ (glyphP '3').Ok true ∧ IsUnary 0x2D := by
  simp [MLink.Ok, glyphP, MProd.Ok, MFactor.Ok, Gap, IsGlyph, IsUnary, MProd.nest, MFactor.nest]

end Joeson
