import Verif.Proofs.WellFormedLeft
import Verif.Props.WellFormed
import Verif.Props.Precedence
/-!
# C71: grammars with left recursion answer every text
-/

namespace Joeson
open RuleText hiding decimal

variable {V : Type} {rx : Bytes → Option Regex} {L : List GLine} {e : String → Prop} {rank : String → Nat}

/-- C71: in a grammar that is well formed but for rules that come back to themselves at once, every text has exactly one outcome:
growing ends. Whatever the callbacks are. -/
theorem C71_outcome (hg : GoodNames L) (hL : AllLines (TextOk rx L) L) (hw : WellFormedL L e rank) (P : PureOps V) (ho : ∀ v o, P.origin v o = v) (text : Bytes) :
    ∃! r, ∃ d, YieldsL P text.length L none d (.lines L) text r := by
  obtain ⟨d, r, hy⟩ := wfL_top hw P text.length text
  exact ⟨r, ⟨d, hy⟩, fun r' ⟨d', hy'⟩ => (C57_value_unique rx L hg hL P ho text d' d r' r hy').1 hy⟩

/-- C71: and `ParseString` answers it, unless rules are nested too deeply. -/
theorem C71_answers (hg : GoodNames L) (hL : AllLines (TextOk rx L) L) (hw : WellFormedL L e rank) (P : PureOps V) (ho : ∀ v o, P.origin v o = v) (text : Bytes) :
    ∃ d r, YieldsL P text.length L none d (.lines L) text r ∧ LibGivesOrDeep rx L P text r := by
  obtain ⟨d, r, hy⟩ := wfL_top hw P text.length text
  refine ⟨d, r, hy, ?_⟩
  obtain ⟨lines, m0, h1, h2, k0, h3⟩ := C57_rule_text_left_recursion_partial rx {} rfl L hg hL ""
  refine ⟨lines, m0, h1, h2, k0, fun k' hk' => ?_⟩
  obtain ⟨m, h4, h5⟩ := h3 k' hk'
  obtain ⟨k1, h6⟩ := h5 V Unit P ho {} rfl rfl [] (by simp) () text d _ hy
  exact ⟨m, h4, k1, fun k hk => (h6 k hk).imp id (·.2)⟩

/-- C71: a value that `ParseString` gives is one that the texts say. -/
theorem C71_value_said (hg : GoodNames L) (hL : AllLines (TextOk rx L) L) (hw : WellFormedL L e rank) (P : PureOps V) (ho : ∀ v o, P.origin v o = v) (text : Bytes) (v : V)
    (h : LibGives rx L P text (.ok (some (v, [])))) : ∃ d, YieldsL P text.length L none d (.lines L) text (.ok (some (v, []))) := by
  obtain ⟨d, r, hy, hr⟩ := C71_answers hg hL hw P ho text
  obtain ⟨o, h1, h2⟩ := gives_or_deep h hr
  simp only [Gives, if_pos] at h1
  obtain ⟨s, rfl⟩ := h1
  rcases h2 with h2 | h2
  rotate_left
  · cases h2
  match r, hy, h2 with
  | .error x, _, h2 => cases h2
  | .ok none, _, h2 =>
    simp only [Gives] at h2
    split at h2
    · obtain ⟨_, h⟩ := h2; cases h
    · obtain ⟨_, _, h, _⟩ := h2; cases h
  | .ok (some (v', rest)), hy, h2 =>
    simp only [Gives] at h2
    split at h2
    · rename_i hn
      obtain ⟨_, h⟩ := h2
      cases h
      exact ⟨d, hn ▸ hy⟩
    · obtain ⟨_, _, h, _⟩ := h2; cases h

/-- C71: and so is a panic, unless rules are nested too deeply. -/
theorem C71_panic_said (hg : GoodNames L) (hL : AllLines (TextOk rx L) L) (hw : WellFormedL L e rank) (P : PureOps V) (ho : ∀ v o, P.origin v o = v) (text : Bytes) (x : Panic)
    (hx : x ≠ .stackOverflow) (h : LibGives rx L P text (.error x)) : ∃ d, YieldsL P text.length L none d (.lines L) text (.error x) := by
  obtain ⟨d, r, hy, hr⟩ := C71_answers hg hL hw P ho text
  obtain ⟨o, h1, h2⟩ := gives_or_deep h hr
  simp only [Gives] at h1
  subst h1
  rcases h2 with h2 | h2
  rotate_left
  · cases h2
    exact absurd rfl hx
  match r, hy, h2 with
  | .error x', hy, h2 => cases h2; exact ⟨d, hy⟩
  | .ok none, _, h2 =>
    simp only [Gives] at h2
    split at h2
    · obtain ⟨_, h⟩ := h2; cases h
    · obtain ⟨_, _, h, _⟩ := h2; cases h
  | .ok (some (v', rest)), hy, h2 =>
    simp only [Gives] at h2
    split at h2
    · obtain ⟨_, h⟩ := h2; cases h
    · obtain ⟨_, _, h, _⟩ := h2; cases h

/-! ## The grammars of C57 and C62 -/

open Sample

/-- C71: `E '-' N | N` is such a grammar. -/
theorem C71_minus_well_formed {re : Regex} (hre : ∀ s, re.find s ≠ some (0, 0)) :
    WellFormedL (minusLines re) (fun _ => False) (fun n => if n = "E" then 1 else 0) := by
  have n1 : nameOf (asc "E") = "E" := by kernel_rfl
  have n2 : nameOf (asc "N") = "N" := by kernel_rfl
  have hk : ∀ n, n ∈ (["E", "N"] : List String) → CallKnown (minusLines re) n := by
    intro n hn
    have : n ∈ (rulesOf (minusLines re)).map (·.1) := hn
    obtain ⟨⟨n', cb, b⟩, hm, rfl⟩ := List.mem_map.mp this
    refine ⟨⟨?_, ?_⟩, cb, b, hm⟩
    · intro h
      have h0 : "" ∈ (["E", "N"] : List String) := h ▸ hn
      revert h0
      decide
    · simp only [List.mem_cons, List.not_mem_nil, or_false] at hn
      rcases hn with h | h <;> rw [show n' = _ from h]
      · exact (minus_mentions re).1
      · exact (minus_mentions re).2
  have hr : rulesOf (minusLines re) = [("E", none, .text (.choice [] (.cons [] none (.prim (.ref (asc "E"))) (.cons [0x20] none (.prim (litE "-")) (.one [0x20] none (.prim (.ref (asc "N"))))))
      [0x20] (.one (.one [0x20] none (.prim (.ref (asc "N"))))) [] [])), ("N", none, .text (.single (.one [] none (.prim (digitCls re))) []))] := rfl
  constructor
  · intro nm cb b hm hb
    rw [hr] at hm
    simp only [List.mem_cons, List.not_mem_nil, or_false, Prod.mk.injEq] at hm
    rcases hm with ⟨rfl, rfl, rfl⟩ | ⟨rfl, rfl, rfl⟩ <;>
      simp [Body.Eps, Expr.vp, Units.vps, Alts.vps, Deco.vp, Prim.vp, VP.seqOf, VP.labelled, VP.Eps, VP.EpsAll, VP.EpsAny, digitCls, litE, hre] at hb
  · intro nm cb b hm _
    rw [hr] at hm
    simp only [List.mem_cons, List.not_mem_nil, or_false, Prod.mk.injEq] at hm
    rcases hm with ⟨rfl, rfl, rfl⟩ | ⟨rfl, rfl, rfl⟩ <;>
      simp [Body.WfL, Expr.vp, Units.vps, Alts.vps, Deco.vp, Prim.vp, VP.seqOf, VP.labelled, VP.Wf, VP.WfSeq, VP.WfAll, digitCls, litE, n1, n2, hk]
  · generalize CallKnown (minusLines re) = K at hk ⊢
    simp [minusLines, linesWfL, GLine.WfL, Body.WfL, Expr.vp, Units.vps, Alts.vps, Deco.vp, Prim.vp, VP.seqOf, VP.labelled, VP.Wf, VP.WfSeq, VP.WfAll, digitCls, litE, n1, n2, hk]

/-- The rules of examples/precedence that can match nothing. -/
def precEps (n : String) : Prop := n = "_"

/-- How its rules are looked up before something is matched. -/
def precLevel (n : String) : Nat := if n = "Expr" then 1 else 0

section
variable {reG reB : Regex}

theorem prec_known (n : String) (hn : n ∈ (["Expr", "AddOp", "Glyph", "_"] : List String)) : CallKnown (precBars reG reB) n ∧ CallKnown (precRank reG reB) n := by
  have hne : n ≠ "" := by rintro rfl; revert hn; decide
  constructor
  · have : n ∈ (rulesOf (precBars reG reB)).map (·.1) := hn
    obtain ⟨⟨n', cb, b⟩, hm, rfl⟩ := List.mem_map.mp this
    exact ⟨⟨hne, by rw [prec_mentions]; simp only [List.mem_cons, List.not_mem_nil, or_false] at hn ⊢; tauto⟩, cb, b, hm⟩
  · have : n ∈ (rulesOf (precRank reG reB)).map (·.1) := hn
    obtain ⟨⟨n', cb, b⟩, hm, rfl⟩ := List.mem_map.mp this
    exact ⟨⟨hne, by rw [prec_mentions']; simp only [List.mem_cons, List.not_mem_nil, or_false] at hn ⊢; tauto⟩, cb, b, hm⟩

/-- C71: so are the two equivalent grammars of examples/precedence: in one the rule begins with itself, in the other an
alternative of the rule does. -/
theorem C71_precedence_well_formed (hG : ∀ s, reG.find s ≠ some (0, 0)) (hB : ∀ s, reB.find s ≠ some (0, 0)) :
    WellFormedL (precBars reG reB) precEps precLevel ∧ WellFormedL (precRank reG reB) precEps precLevel := by
  have n1 : nameOf (asc "Expr") = "Expr" := by kernel_rfl
  have n2 : nameOf (asc "Glyph") = "Glyph" := by kernel_rfl
  have n3 : nameOf (asc "AddOp") = "AddOp" := by kernel_rfl
  have n4 : nameOf (asc "_") = "_" := by kernel_rfl
  have hk := fun n hn => (prec_known (reG := reG) (reB := reB) n hn).1
  have hk' := fun n hn => (prec_known (reG := reG) (reB := reB) n hn).2
  have hr : rulesOf (precBars reG reB) = [("Expr", some 0, .text precE), ("AddOp", none, .text addOpE), ("Glyph", none, .text (glyphE reG)), ("_", none, .text (blankE reB))] := rfl
  have hr' : rulesOf (precRank reG reB) = [("Expr", none, .rank [
     .alt "" (some 0) (.text (.single precSum [])),
     .alt "" (some 0) (.text refGlyphE),
     .incl "AddOp" none (.text addOpE),
     .incl "Glyph" none (.text (glyphE reG)),
     .incl "_" none (.text (blankE reB))]), ("AddOp", none, .text addOpE), ("Glyph", none, .text (glyphE reG)), ("_", none, .text (blankE reB))] := rfl
  refine ⟨⟨?_, ?_, ?_⟩, ?_, ?_, ?_⟩
  · intro nm cb b hm hb
    rw [hr] at hm
    simp only [List.mem_cons, List.not_mem_nil, or_false, Prod.mk.injEq] at hm
    rcases hm with ⟨rfl, rfl, rfl⟩ | ⟨rfl, rfl, rfl⟩ | ⟨rfl, rfl, rfl⟩ | ⟨rfl, rfl, rfl⟩
    all_goals simp [Body.Eps, precE, precSum, addOpE, glyphE, blankE, Expr.vp, Units.vps, Alts.vps, Deco.vp, Prim.vp, VP.seqOf, VP.labelled, VP.Eps, VP.EpsAll, VP.EpsAny, litE, n1, n2, n3, n4, precEps, hG] at hb ⊢
    all_goals revert hb; decide +kernel
  · intro nm cb b hm _
    rw [hr] at hm
    simp only [List.mem_cons, List.not_mem_nil, or_false, Prod.mk.injEq] at hm
    rcases hm with ⟨rfl, rfl, rfl⟩ | ⟨rfl, rfl, rfl⟩ | ⟨rfl, rfl, rfl⟩ | ⟨rfl, rfl, rfl⟩
    all_goals simp [Body.WfL, precE, precSum, addOpE, glyphE, blankE, Expr.vp, Units.vps, Alts.vps, Deco.vp, Prim.vp, VP.seqOf, VP.labelled, VP.Wf, VP.WfSeq, VP.WfAll, VP.Eps, VP.EpsAll, litE, n1, n2, n3, n4, precEps, precLevel, hk, hB]
  · generalize CallKnown (precBars reG reB) = K at hk ⊢
    simp [precBars, linesWfL, GLine.WfL, Body.WfL, refExprE, Expr.vp, Units.vps, Deco.vp, Prim.vp, VP.seqOf, VP.labelled, VP.Wf, n1, hk]
  · intro nm cb b hm hb
    rw [hr'] at hm
    simp only [List.mem_cons, List.not_mem_nil, or_false, Prod.mk.injEq] at hm
    rcases hm with ⟨rfl, rfl, rfl⟩ | ⟨rfl, rfl, rfl⟩ | ⟨rfl, rfl, rfl⟩ | ⟨rfl, rfl, rfl⟩
    all_goals simp [Body.Eps, linesEps, GLine.Eps, refGlyphE, precSum, addOpE, glyphE, blankE, Expr.vp, Units.vps, Alts.vps, Deco.vp, Prim.vp, VP.seqOf, VP.labelled, VP.Eps, VP.EpsAll, VP.EpsAny, litE, n1, n2, n3, n4, precEps, hG] at hb ⊢
    all_goals revert hb; decide +kernel
  · intro nm cb b hm _
    rw [hr'] at hm
    simp only [List.mem_cons, List.not_mem_nil, or_false, Prod.mk.injEq] at hm
    rcases hm with ⟨rfl, rfl, rfl⟩ | ⟨rfl, rfl, rfl⟩ | ⟨rfl, rfl, rfl⟩ | ⟨rfl, rfl, rfl⟩
    all_goals simp [Body.WfL, linesWfL, GLine.WfL, Callable, refGlyphE, precSum, addOpE, glyphE, blankE, Expr.vp, Units.vps, Alts.vps, Deco.vp, Prim.vp, VP.seqOf, VP.labelled, VP.Wf, VP.WfSeq, VP.WfAll, VP.Eps, VP.EpsAll, litE, n1, n2, n3, n4, precEps, precLevel, hk', hB]
  · generalize CallKnown (precRank reG reB) = K at hk' ⊢
    simp [precRank, linesWfL, GLine.WfL, Body.WfL, refGlyphE, precSum, Expr.vp, Units.vps, Deco.vp, Prim.vp, VP.seqOf, VP.labelled, VP.Wf, VP.WfSeq, VP.WfAll, VP.Eps, VP.EpsAll, n1, n2, n3, n4, precEps, hk']
end

theorem digitRe_ne : ∀ s, digitRe.find s ≠ some (0, 0) := by
  intro s h
  simp only [digitRe, Option.map_eq_some_iff, Prod.mk.injEq] at h
  obtain ⟨i, _, _, h⟩ := h
  omega

theorem glyphRe_ne : ∀ s, glyphRe.find s ≠ some (0, 0) := by
  intro s h
  simp only [glyphRe, Option.map_eq_some_iff, Prod.mk.injEq] at h
  obtain ⟨i, _, _, h⟩ := h
  omega

/-- The assumptions are met: `E '-' N | N` answers every text, whatever the callbacks. -/
example (P : PureOps V) (ho : ∀ v o, P.origin v o = v) (text : Bytes) :
    ∃ d r, YieldsL P text.length (minusLines digitRe) none d (.lines (minusLines digitRe)) text r ∧ LibGivesOrDeep (fun _ => some digitRe) (minusLines digitRe) P text r :=
  C71_answers (minus_names _) (minus_texts rfl) (C71_minus_well_formed digitRe_ne) P ho text

/-- So does the grammar of examples/precedence whose alternatives are lines. -/
example (u : UserString) (text : Bytes) :
    ∃! r, ∃ d, YieldsL (mossOps u) text.length (precRank glyphRe digitRe) none d (.lines (precRank glyphRe digitRe)) text r :=
  C71_outcome (rx := fun b => if b = asc "[a-zA-Z0-9]" then some glyphRe else some digitRe) (prec_names _ _).2
    (prec_texts (if_pos rfl) (if_neg (by decide +kernel))).2 (C71_precedence_well_formed glyphRe_ne digitRe_ne).2 _ (fun _ _ => rfl) text

end Joeson
