import Verif.Proofs.Same
import Verif.Proofs.Rename
import Verif.Proofs.Order
import Verif.Props.LeftText
/-!
# C61: alternatives as lines, or separated by `|`
-/

namespace Joeson
open RuleText

variable {V H : Type}

/-- C61: two ways to write a grammar give the same values, left recursion included. `Q`: callbacks that are moved from a rule
to its alternatives; they never reject. -/
theorem C61_same_values {Q : Nat → Prop} {L L' : List GLine} (hG : SameGrammar Q L L') (P : PureOps V) (hQ : ∀ c, Q c → ∀ v p, P.cb c v p ≠ .ok none)
    (text : Bytes) (r : VRes V) :
    (∃ d, YieldsL P text.length L none d (.lines L) text r) ↔ ∃ d, YieldsL P text.length L' none d (.lines L') text r := by
  constructor
  · rintro ⟨d, h⟩
    have := same_to hQ hG h _ _ _ (.top hG.lines) (2 * d) (by omega)
    rw [called_none] at this
    exact ⟨_, this⟩
  · rintro ⟨d, h⟩
    exact ⟨d + 1, asIs (same_from hQ hG h _ _ _ (.top hG.lines)) (d + 1) (by omega)⟩

/-- C61: the grammars that the library builds from two such texts answer the same: the value that the texts say. At most the
nesting of the rules is different: twice as deep as in the first. -/
theorem C61_alternatives_as_lines_partial (rx : Bytes → Option Regex) (tr0 : Trace) (htr0 : tr0.stack = false) {Q : Nat → Prop} (L L' : List GLine)
    (hG : SameGrammar Q L L') (hg : GoodNames L) (hL : AllLines (TextOk rx L) L) (hg' : GoodNames L') (hL' : AllLines (TextOk rx L') L') (name name' : String) :
    ∃ lines lines' m0, linesOf L = .ok lines ∧ linesOf L' = .ok lines' ∧ joesonMade = .ok m0 ∧ ∃ k0, ∀ k, k0 ≤ k →
      ∃ m m', grammarFromLines (compileRule rx m0.g tr0 k) name lines = .ok m ∧ grammarFromLines (compileRule rx m0.g tr0 k) name' lines' = .ok m' ∧
        ∀ (V H : Type) (P : PureOps V), (∀ v o, P.origin v o = v) → (∀ c, Q c → ∀ v p, P.cb c v p ≠ .ok none) →
          ∀ tr : Trace, tr.stack = false → tr.loop = false →
          ∀ opts : List ParseOption, (∀ b, ParseOption.debug b ∈ opts → b = false) → ∀ (h : H) (text : Bytes) (d : Nat) (r : VRes V),
          d ≤ 512 → YieldsL P text.length L none d (.lines L) text r → ∃ k1, ∀ k', k1 ≤ k' →
            Gives text r (parseString (P.ops H) m.g tr opts k' h text).1 ∧ Gives text r (parseString (P.ops H) m'.g tr opts k' h text).1 := by
  obtain ⟨lines, m0, hl, hm0, k0, hk0⟩ := C57_rule_text_left_recursion_partial rx tr0 htr0 L hg hL name
  obtain ⟨lines', m0', hl', hm0', k0', hk0'⟩ := C57_rule_text_left_recursion_partial rx tr0 htr0 L' hg' hL' name'
  cases hm0.symm.trans hm0'
  refine ⟨lines, lines', m0, hl, hl', hm0, max k0 k0', fun k hk => ?_⟩
  obtain ⟨m, hm, h1⟩ := hk0 k (by omega)
  obtain ⟨m', hm', h1'⟩ := hk0' k (by omega)
  refine ⟨m, m', hm, hm', ?_⟩
  intro V H P ho hQ tr htr hloop opts hopts h text d r hd hy
  have hy' := same_to hQ hG hy _ _ _ (.top hG.lines) (2 * d) (by omega)
  rw [called_none] at hy'
  obtain ⟨k1, h1⟩ := h1 V H P ho tr htr hloop opts hopts h text d r hy
  obtain ⟨k1', h1'⟩ := h1' V H P ho tr htr hloop opts hopts h text _ r hy'
  refine ⟨max k1 k1', fun k' hk' => ⟨(h1 k' (by omega)).resolve_right fun h => ?_, (h1' k' (by omega)).resolve_right fun h => ?_⟩⟩
  · omega
  · omega

/-- C61: the names of alternatives that no text mentions do not matter ("INPUT is not referenced anywhere in the grammar. The
entry rule could therefore have been declared like this instead", "We can also choose to name unreferenced rules":
README.md:241, 351). They can be left out or replaced, in inner ranks too. -/
theorem C61_unused_names (Q : Nat → Prop) (L : List GLine) (f : String → String) (hf : KeepsUsed (mentionsIn L) f) : SameGrammar Q L (renameLines f L) := by
  refine ⟨sameTop_rename hf L, fun nm => by rw [mentionsIn_rename], fun nm cb b hb hm => ?_, fun nm cb b hb hm => ?_⟩
  · exact ⟨cb, _, rulesOf_rename hf hm L hb, Body.same_rename hf cb b⟩
  · obtain ⟨b', h1, rfl⟩ := rename_rulesOf hf hm L hb
    exact ⟨cb, b', h1, Body.same_rename hf cb b'⟩

/-- C61: the order in which rules are included does not matter, nor whether they are before, between or after the
alternatives. -/
theorem C61_order (Q : Nat → Prop) (L L' : List GLine) (hp : L.Perm L') (ha : L.filter GLine.isAlt = L'.filter GLine.isAlt) : SameGrammar Q L L' := by
  refine ⟨sameTop_order L L' ha, fun nm => ?_, fun nm cb b hb _ => ⟨cb, b, ?_, b.same_self cb⟩, fun nm cb b hb _ => ⟨cb, b, ?_, b.same_self cb⟩⟩
  · rw [mentionsIn_mem, mentionsIn_mem]
    exact exists_congr fun l => and_congr_left' hp.mem_iff
  · rw [rulesOf_mem] at hb ⊢
    obtain ⟨l, h1, h2⟩ := hb
    exact ⟨l, hp.mem_iff.mp h1, h2⟩
  · rw [rulesOf_mem] at hb ⊢
    obtain ⟨l, h1, h2⟩ := hb
    exact ⟨l, hp.mem_iff.mpr h1, h2⟩

/-- C61: the layout of rule texts does not matter: texts may be replaced by others that stand for the same expression, like
`( 'a'   b+ )` for `'a' b*{1,}`. -/
theorem C61_layout (Q : Nat → Prop) (L : List GLine) (f : Expr → Expr) (hf : ∀ e : Expr, (f e).vp = e.vp) : SameGrammar Q L (rewriteLines f L) := by
  refine ⟨sameTop_rewrite hf L, fun nm => by rw [mentionsIn_rewrite hf], fun nm cb b hb _ => ⟨cb, b.rewrite f, ?_, b.same_rewrite hf cb⟩, fun nm cb b hb _ => ?_⟩
  · rw [rulesOf_rewrite]
    exact List.mem_map.mpr ⟨_, hb, rfl⟩
  · rw [rulesOf_rewrite] at hb
    obtain ⟨⟨nm', cb', b'⟩, h1, h2⟩ := List.mem_map.mp hb
    cases h2
    exact ⟨_, b', h1, b'.same_rewrite hf _⟩

namespace Sample

/-- `'hi' _ NAME` -/
def hiE : Expr := .single (.cons [] none (.prim (litE "hi")) (.cons [0x20] none (.prim (.ref (asc "_"))) (.one [0x20] none (.prim (.ref (asc "NAME")))))) []

/-- `' '*` -/
def spacesE : Expr := .single (.one [] none (.star (litE " ") none)) []

/-- `[a-zA-Z]*` -/
def lettersE (re : Regex) : Expr :=
  .single (.one [] none (.star (.cls [⟨false, 0x61⟩, ⟨false, 0x2D⟩, ⟨false, 0x7A⟩, ⟨false, 0x41⟩, ⟨false, 0x2D⟩, ⟨false, 0x5A⟩] re) none)) []

/-- The grammar of README.md:228-237, or, with the name "", of README.md:243-252. -/
def hiGrammar (nm : String) (re : Regex) : List GLine :=
  [.alt nm (some 0) (.text hiE), .incl "NAME" (some 1) (.text (lettersE re)), .incl "_" none (.text spacesE)]

/-- The texts are those of README.md. -/
example (re : Regex) : hiE.text = asc "'hi' _ NAME" ∧ spacesE.text = asc "' '*" ∧ (lettersE re).text = asc "[a-zA-Z]*" :=
  ⟨by kernel_rfl, by kernel_rfl, by kernel_rfl⟩

end Sample

open Sample in
/-- C61: the two grammars of README.md:228-252. -/
theorem C61_readme_entry_rule (Q : Nat → Prop) (re : Regex) : SameGrammar Q (hiGrammar "INPUT" re) (hiGrammar "" re) := by
  have hm : mentionsIn (hiGrammar "INPUT" re) = ["_", "NAME"] := by kernel_rfl
  have h := C61_unused_names Q (hiGrammar "INPUT" re) (fun nm => if nm = "INPUT" then "" else nm) (by
    rw [hm]
    constructor
    · intro nm _ h
      simp only [List.mem_cons, List.not_mem_nil, or_false] at h
      rcases h with rfl | rfl <;> decide
    · intro nm h
      dsimp only
      split
      · exact .inl rfl
      · exact h)
  exact h

open Sample in
/-- The rules of README.md:228-237 in another order. -/
example (Q : Nat → Prop) (re : Regex) : SameGrammar Q (hiGrammar "INPUT" re)
    [.incl "_" none (.text spacesE), .alt "INPUT" (some 0) (.text hiE), .incl "NAME" (some 1) (.text (lettersE re))] :=
  C61_order Q _ _ (by
    show List.Perm [_, _, _] [_, _, _]
    exact (List.Perm.cons _ (List.Perm.swap _ _ _)).trans (List.Perm.swap _ _ _)) rfl

/-- `p+` and `p*{1,}`, with blanks and parentheses. -/
def plusForm (p : Prim) : Expr × Expr :=
  (.single (.one [] none (.plus p)) [], .single (.one [0x20] none (.prim (.group (.single (.one [0x20] none (.star p (some ⟨[], some (asc "1"), [], [], none, []⟩))) [0x20])))) [])

/-- They stand for the same expression: `b+` and ` ( b*{1,} )`. -/
example : (plusForm (.ref (asc "b"))).1.text = asc "b+" ∧ (plusForm (.ref (asc "b"))).2.text = asc " ( b*{1,} )" ∧
    (plusForm (.ref (asc "b"))).1.vp = (plusForm (.ref (asc "b"))).2.vp :=
  ⟨by kernel_rfl, by kernel_rfl, by kernel_rfl⟩

open Sample in
/-- Texts of the grammar of README.md:228-237 in parentheses. -/
example (Q : Nat → Prop) (re : Regex) : SameGrammar Q (hiGrammar "INPUT" re)
    (rewriteLines (fun e => .single (.one [] none (.prim (.group e))) []) (hiGrammar "INPUT" re)) :=
  C61_layout Q _ _ fun e => by simp [Expr.vp, Units.vps, Deco.vp, Prim.vp, VP.labelled, VP.seqOf]

/-! ## The grammars of examples/precedence -/

namespace Sample

/-- `[a-zA-Z0-9]` -/
def glyphE (re : Regex) : Expr :=
  .single (.one [] none (.prim (.cls [⟨false, 0x61⟩, ⟨false, 0x2D⟩, ⟨false, 0x7A⟩, ⟨false, 0x41⟩, ⟨false, 0x2D⟩, ⟨false, 0x5A⟩, ⟨false, 0x30⟩, ⟨false, 0x2D⟩, ⟨false, 0x39⟩] re))) []

/-- `[ \t]*` -/
def blankE (re : Regex) : Expr := .single (.one [] none (.star (.cls [⟨false, 0x20⟩, ⟨true, 0x74⟩] re) none)) []

/-- `'+' | '-'` -/
def addOpE : Expr := .choice [] (.one [] none (.prim (litE "+"))) [0x20] (.one (.one [0x20] none (.prim (litE "-")))) [] []

/-- `Expr ( _ AddOp _ Glyph )*` -/
def precSum : Units :=
  .cons [] none (.prim (.ref (asc "Expr"))) (.one [0x20] none (.star (.group (.single
    (.cons [0x20] none (.prim (.ref (asc "_"))) (.cons [0x20] none (.prim (.ref (asc "AddOp"))) (.cons [0x20] none (.prim (.ref (asc "_")))
      (.one [0x20] none (.prim (.ref (asc "Glyph"))))))) [0x20])) none))

/-- `Expr ( _ AddOp _ Glyph )* | Glyph` -/
def precE : Expr := .choice [] precSum [0x20] (.one (.one [0x20] none (.prim (.ref (asc "Glyph"))))) [] []

/-- `Expr` -/
def refExprE : Expr := .single (.one [] none (.prim (.ref (asc "Expr")))) []

/-- `Glyph` -/
def refGlyphE : Expr := .single (.one [] none (.prim (.ref (asc "Glyph")))) []

/-- examples/precedence/precedence_test.go:184-190 -/
def precBars (reG reB : Regex) : List GLine :=
  [.alt "" none (.text refExprE),
   .incl "Expr" (some 0) (.text precE),
   .incl "AddOp" none (.text addOpE),
   .incl "Glyph" none (.text (glyphE reG)),
   .incl "_" none (.text (blankE reB))]

/-- "totally equivalent to the previous grammar": examples/precedence/precedence_test.go:198-206 -/
def precRank (reG reB : Regex) : List GLine :=
  [.alt "Expr" none (.rank [
     .alt "" (some 0) (.text (.single precSum [])),
     .alt "" (some 0) (.text refGlyphE),
     .incl "AddOp" none (.text addOpE),
     .incl "Glyph" none (.text (glyphE reG)),
     .incl "_" none (.text (blankE reB))])]

/-- The texts are those of the test. -/
example (reG reB : Regex) : precE.text = asc "Expr ( _ AddOp _ Glyph )* | Glyph" ∧ addOpE.text = asc "'+' | '-'" ∧ (glyphE reG).text = asc "[a-zA-Z0-9]" ∧
    (blankE reB).text = asc "[ \\t]*" ∧ refExprE.text = asc "Expr" ∧ (Expr.single precSum []).text = asc "Expr ( _ AddOp _ Glyph )*" ∧
    refGlyphE.text = asc "Glyph" :=
  ⟨by kernel_rfl, by kernel_rfl, by kernel_rfl, by kernel_rfl, by kernel_rfl, by kernel_rfl, by kernel_rfl⟩

end Sample

open Sample

theorem prec_mentions (reG reB : Regex) : mentionsIn (precBars reG reB) = ["Expr", "Expr", "_", "AddOp", "_", "Glyph", "Glyph"] := by kernel_rfl

theorem prec_mentions' (reG reB : Regex) : mentionsIn (precRank reG reB) = ["Expr", "_", "AddOp", "_", "Glyph", "Glyph"] := by kernel_rfl

theorem prec_split (reG reB : Regex) (M : List String) : SameRule M (· = 0) (some 0) (.text precE) none (.rank [
     .alt "" (some 0) (.text (.single precSum [])),
     .alt "" (some 0) (.text refGlyphE),
     .incl "AddOp" none (.text addOpE),
     .incl "Glyph" none (.text (glyphE reG)),
     .incl "_" none (.text (blankE reB))]) := by
  have he : precE.vp = .alt "" [(Expr.single precSum []).vp, refGlyphE.vp] := by kernel_rfl
  exact .splitCb rfl he (.alt (.inl rfl) (.alt (.inl rfl) (.incl (.incl (.incl .nil)))))

/-- C61: the two grammars of examples/precedence that are "totally equivalent" are the same, for callbacks that never reject. -/
theorem C61_precedence_same (reG reB : Regex) : SameGrammar (· = 0) (precBars reG reB) (precRank reG reB) := by
  have hsplit := prec_split reG reB (mentionsIn (precBars reG reB))
  have hr : rulesOf (precBars reG reB) = [("Expr", some 0, .text precE), ("AddOp", none, .text addOpE), ("Glyph", none, .text (glyphE reG)), ("_", none, .text (blankE reB))] := rfl
  have hr' : rulesOf (precRank reG reB) = [("Expr", none, .rank [
     .alt "" (some 0) (.text (.single precSum [])),
     .alt "" (some 0) (.text refGlyphE),
     .incl "AddOp" none (.text addOpE),
     .incl "Glyph" none (.text (glyphE reG)),
     .incl "_" none (.text (blankE reB))]), ("AddOp", none, .text addOpE), ("Glyph", none, .text (glyphE reG)), ("_", none, .text (blankE reB))] := rfl
  refine ⟨?_, ?_, ?_, ?_⟩
  · refine .call (nm := "Expr") (q := false) (by kernel_rfl) (by rw [prec_mentions]; decide) ⟨_, _, by rw [hr]; exact List.mem_cons_self ..⟩ ?_ (.left (.left (.left (.left .nil))))
    intro cb b hb
    rw [hr] at hb
    simp only [List.mem_cons, List.not_mem_nil, or_false, Prod.mk.injEq, String.reduceEq, false_and, or_false, true_and] at hb
    obtain ⟨rfl, rfl⟩ := hb
    exact hsplit
  · intro nm
    rw [prec_mentions, prec_mentions']
    simp
  · intro nm cb b hb _
    rw [hr] at hb
    rw [hr']
    simp only [List.mem_cons, List.not_mem_nil, or_false, Prod.mk.injEq] at hb ⊢
    rcases hb with ⟨rfl, rfl, rfl⟩ | ⟨rfl, rfl, rfl⟩ | ⟨rfl, rfl, rfl⟩ | ⟨rfl, rfl, rfl⟩
    · exact ⟨_, _, .inl ⟨rfl, rfl, rfl⟩, hsplit⟩
    · exact ⟨_, _, .inr (.inl ⟨rfl, rfl, rfl⟩), .text rfl⟩
    · exact ⟨_, _, .inr (.inr (.inl ⟨rfl, rfl, rfl⟩)), .text rfl⟩
    · exact ⟨_, _, .inr (.inr (.inr ⟨rfl, rfl, rfl⟩)), .text rfl⟩
  · intro nm cb b hb _
    rw [hr'] at hb
    rw [hr]
    simp only [List.mem_cons, List.not_mem_nil, or_false, Prod.mk.injEq] at hb ⊢
    rcases hb with ⟨rfl, rfl, rfl⟩ | ⟨rfl, rfl, rfl⟩ | ⟨rfl, rfl, rfl⟩ | ⟨rfl, rfl, rfl⟩
    · exact ⟨_, _, .inl ⟨rfl, rfl, rfl⟩, hsplit⟩
    · exact ⟨_, _, .inr (.inl ⟨rfl, rfl, rfl⟩), .text rfl⟩
    · exact ⟨_, _, .inr (.inr (.inl ⟨rfl, rfl, rfl⟩)), .text rfl⟩
    · exact ⟨_, _, .inr (.inr (.inr ⟨rfl, rfl, rfl⟩)), .text rfl⟩

theorem prec_names (reG reB : Regex) : GoodNames (precBars reG reB) ∧ GoodNames (precRank reG reB) := by
  have hh : ∀ x : String, x ∈ (["Expr", "AddOp", "Glyph", "_"] : List String) → '[' ∉ x.toList := by
    intro x hx
    simp only [List.mem_cons, List.not_mem_nil, or_false] at hx
    rcases hx with rfl | rfl | rfl | rfl <;> decide
  refine ⟨goodNames_of rfl ?_ fun d hd => hh _ ?_, goodNames_of rfl ?_ fun d hd => hh _ ?_⟩
  · show (["Expr", "AddOp", "Glyph", "_"] : List String).Nodup
    decide
  · exact List.mem_map_of_mem (f := (·.1)) hd
  · show (["Expr", "AddOp", "Glyph", "_"] : List String).Nodup
    decide
  · exact List.mem_map_of_mem (f := (·.1)) hd

theorem prec_texts {rx : Bytes → Option Regex} {reG reB : Regex} (hG : rx (asc "[a-zA-Z0-9]") = some reG) (hB : rx (asc "[ \\t]") = some reB) :
    AllLines (TextOk rx (precBars reG reB)) (precBars reG reB) ∧ AllLines (TextOk rx (precRank reG reB)) (precRank reG reB) := by
  refine ⟨textsOk_rx (by kernel_rfl) ?_, textsOk_rx (by kernel_rfl) ?_⟩
  · simp only [precBars, AllLines, GLine.All, Body.All, Expr.RxOk, Units.RxOk, Alts.RxOk, Deco.RxOk, Prim.RxOk, refExprE, precE, precSum, addOpE, glyphE, blankE, litE, and_true, true_and]
    exact ⟨hG, hB⟩
  · simp only [precRank, AllLines, GLine.All, Body.All, Expr.RxOk, Units.RxOk, Alts.RxOk, Deco.RxOk, Prim.RxOk, refGlyphE, precSum, addOpE, glyphE, blankE, litE, and_true, true_and]
    exact ⟨hG, hB⟩

end Joeson
