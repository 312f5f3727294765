import Verif.Proofs.WellFormed
import Verif.Proofs.LispOnly
import Verif.Props.Lisp
/-!
# C68: well formed grammars answer every text
-/

namespace Joeson
open RuleText hiding decimal

variable {V : Type}

/-- As `LibGives`, but the answer may be the panic for rules that are nested too deeply. -/
def LibGivesOrDeep (rx : Bytes → Option Regex) (L : List GLine) (P : PureOps V) (text : Bytes) (r : VRes V) : Prop :=
  ∃ lines m0, linesOf L = .ok lines ∧ joesonMade = .ok m0 ∧ ∃ k0, ∀ k, k0 ≤ k →
    ∃ m, grammarFromLines (compileRule rx m0.g {} k) "" lines = .ok m ∧
      ∃ k1, ∀ k', k1 ≤ k' → Gives text r (parseString (P.ops Unit) m.g {} [] k' () text).1 ∨ (parseString (P.ops Unit) m.g {} [] k' () text).1 = .panic .stackOverflow

variable {rx : Bytes → Option Regex} {L : List GLine} {e : String → Prop} {rank : String → Nat}

/-- C68: in a well formed grammar every text has exactly one outcome: it is matched with a value up to some place, not matched,
or a callback panics. Whatever the callbacks are. -/
theorem C68_outcome (hg : GoodNames L) (hL : AllLines (TextOk rx L) L) (hw : WellFormed L e rank) (P : PureOps V) (ho : ∀ v o, P.origin v o = v) (text : Bytes) :
    ∃! r, ∃ d, Yields P text.length L d (.lines L) text r := by
  obtain ⟨d, r, hy⟩ := wf_has hw P text.length _ text rfl (.lines L) hw.top
  exact ⟨r, ⟨d, hy⟩, fun r' ⟨d', hy'⟩ => C53_value_unique rx L hg hL P ho text d' d r' r hy' hy⟩

/-- C68: and `ParseString` answers it, unless rules are nested too deeply. -/
theorem C68_answers (hg : GoodNames L) (hL : AllLines (TextOk rx L) L) (hw : WellFormed L e rank) (P : PureOps V) (ho : ∀ v o, P.origin v o = v) (text : Bytes) :
    ∃ d r, Yields P text.length L d (.lines L) text r ∧ LibGivesOrDeep rx L P text r := by
  obtain ⟨d, r, hy⟩ := wf_has hw P text.length _ text rfl (.lines L) hw.top
  refine ⟨d, r, hy, ?_⟩
  obtain ⟨lines, m0, h1, h2, k0, h3⟩ := C53_rule_text_values_partial rx {} rfl L hg hL ""
  refine ⟨lines, m0, h1, h2, k0, fun k' hk' => ?_⟩
  obtain ⟨m, h4, h5⟩ := h3 k' hk'
  obtain ⟨k1, h6⟩ := h5 V Unit P ho {} rfl [] (by simp) () text d _ hy
  exact ⟨m, h4, k1, fun k hk => (h6 k hk).imp id (·.2)⟩

/-- C68: a grammar whose rules do not come back to themselves answers every text. -/
theorem C68_flat (hg : GoodNames L) (hL : AllLines (TextOk rx L) L) (hw : WellFormed L e rank) {ht : String → Nat} {k : Nat} (hf : Flat L ht k) (hk : k ≤ 1024)
    (P : PureOps V) (ho : ∀ v o, P.origin v o = v) (text : Bytes) :
    ∃ r, Yields P text.length L k (.lines L) text r ∧ LibGives rx L P text r := by
  obtain ⟨d, r, hy⟩ := wf_has hw P text.length _ text rfl (.lines L) hw.top
  have hy' := yields_within hf.rules hy k hf.top
  exact ⟨r, hy', libGives_of hg hL ho hk hy'⟩

/-- Two answers to the same text. -/
theorem gives_twice {text : Bytes} {r r' : VRes V} (h : LibGives rx L P text r) (h' : LibGives rx L P text r') :
    ∃ o : Out (Outcome V × St V Unit), Gives text r o ∧ Gives text r' o := by
  obtain ⟨lines, m0, h1, h2, k0, h3⟩ := h
  obtain ⟨lines', m0', h1', h2', k0', h3'⟩ := h'
  cases h1.symm.trans h1'
  cases h2.symm.trans h2'
  obtain ⟨m, h4, k1, h5⟩ := h3 (max k0 k0') (by omega)
  obtain ⟨m', h4', k1', h5'⟩ := h3' (max k0 k0') (by omega)
  cases h4.symm.trans h4'
  exact ⟨_, h5 (max k1 k1') (by omega), h5' (max k1 k1') (by omega)⟩

/-- C68: it gives the values that the texts say, and no others. -/
theorem C68_values_only (hg : GoodNames L) (hL : AllLines (TextOk rx L) L) (hw : WellFormed L e rank) {ht : String → Nat} {k : Nat} (hf : Flat L ht k) (hk : k ≤ 1024)
    (P : PureOps V) (ho : ∀ v o, P.origin v o = v) (text : Bytes) (v : V) :
    LibGives rx L P text (.ok (some (v, []))) ↔ Yields P text.length L k (.lines L) text (.ok (some (v, []))) := by
  refine ⟨fun h => ?_, libGives_of hg hL ho hk⟩
  obtain ⟨r, hy, hr⟩ := C68_flat hg hL hw hf hk P ho text
  obtain ⟨o, h1, h2⟩ := gives_twice h hr
  simp only [Gives, if_pos] at h1
  obtain ⟨s, rfl⟩ := h1
  match r, hy, h2 with
  | .error x, _, h2 => cases h2
  | .ok none, _, h2 =>
    simp only [Gives] at h2
    split at h2
    · obtain ⟨_, h⟩ := h2; cases h
    · obtain ⟨_, _, h, _⟩ := h2; cases h
  | .ok (some (v', rest)), hy, h2 =>
    simp only [Gives] at h2
    split at h2
    · rename_i hn
      obtain ⟨_, h⟩ := h2
      cases h
      exact hn ▸ hy
    · obtain ⟨_, _, h, _⟩ := h2; cases h

/-- C68: it panics only where the texts say that a callback does. -/
theorem C68_panics_only (hg : GoodNames L) (hL : AllLines (TextOk rx L) L) (hw : WellFormed L e rank) {ht : String → Nat} {k : Nat} (hf : Flat L ht k) (hk : k ≤ 1024)
    (P : PureOps V) (ho : ∀ v o, P.origin v o = v) (text : Bytes) (x : Panic) :
    LibGives rx L P text (.error x) ↔ Yields P text.length L k (.lines L) text (.error x) := by
  refine ⟨fun h => ?_, libGives_of hg hL ho hk⟩
  obtain ⟨r, hy, hr⟩ := C68_flat hg hL hw hf hk P ho text
  obtain ⟨o, h1, h2⟩ := gives_twice h hr
  simp only [Gives] at h1
  subst h1
  match r, hy, h2 with
  | .error x', hy, h2 => cases h2; exact hy
  | .ok none, _, h2 =>
    simp only [Gives] at h2
    split at h2
    · obtain ⟨_, h⟩ := h2; cases h
    · obtain ⟨_, _, h, _⟩ := h2; cases h
  | .ok (some (v', rest)), hy, h2 =>
    simp only [Gives] at h2
    split at h2
    · obtain ⟨_, h⟩ := h2; cases h
    · obtain ⟨_, _, h, _⟩ := h2; cases h

/-- An answer to a text, and one that may be the panic for rules that are nested too deeply. -/
theorem gives_or_deep {P : PureOps V} {text : Bytes} {r r' : VRes V} (h : LibGives rx L P text r) (h' : LibGivesOrDeep rx L P text r') :
    ∃ o : Out (Outcome V × St V Unit), Gives text r o ∧ (Gives text r' o ∨ o = .panic .stackOverflow) := by
  obtain ⟨lines, m0, h1, h2, k0, h3⟩ := h
  obtain ⟨lines', m0', h1', h2', k0', h3'⟩ := h'
  cases h1.symm.trans h1'
  cases h2.symm.trans h2'
  obtain ⟨m, h4, k1, h5⟩ := h3 (max k0 k0') (by omega)
  obtain ⟨m', h4', k1', h5'⟩ := h3' (max k0 k0') (by omega)
  cases h4.symm.trans h4'
  exact ⟨_, h5 (max k1 k1') (by omega), h5' (max k1 k1') (by omega)⟩

/-- C68: if the grammar is well formed, a value that `ParseString` gives is one that the texts say, however deep rules are
nested. -/
theorem C68_value_said (hg : GoodNames L) (hL : AllLines (TextOk rx L) L) (hw : WellFormed L e rank) (P : PureOps V) (ho : ∀ v o, P.origin v o = v) (text : Bytes) (v : V)
    (h : LibGives rx L P text (.ok (some (v, [])))) : ∃ d, Yields P text.length L d (.lines L) text (.ok (some (v, []))) := by
  obtain ⟨d, r, hy, hr⟩ := C68_answers hg hL hw P ho text
  obtain ⟨o, h1, h2⟩ := gives_or_deep h hr
  simp only [Gives, if_pos] at h1
  obtain ⟨s, rfl⟩ := h1
  rcases h2 with h2 | h2
  rotate_left
  · cases h2
  match r, hy, h2 with
  | .error x, _, h2 => cases h2
  | .ok none, _, h2 =>
    simp only [Gives] at h2
    split at h2
    · obtain ⟨_, h⟩ := h2; cases h
    · obtain ⟨_, _, h, _⟩ := h2; cases h
  | .ok (some (v', rest)), hy, h2 =>
    simp only [Gives] at h2
    split at h2
    · rename_i hn
      obtain ⟨_, h⟩ := h2
      cases h
      exact ⟨d, hn ▸ hy⟩
    · obtain ⟨_, _, h, _⟩ := h2; cases h

/-- C68: and so is a panic, unless rules are nested too deeply. -/
theorem C68_panic_said (hg : GoodNames L) (hL : AllLines (TextOk rx L) L) (hw : WellFormed L e rank) (P : PureOps V) (ho : ∀ v o, P.origin v o = v) (text : Bytes) (x : Panic)
    (hx : x ≠ .stackOverflow) (h : LibGives rx L P text (.error x)) : ∃ d, Yields P text.length L d (.lines L) text (.error x) := by
  obtain ⟨d, r, hy, hr⟩ := C68_answers hg hL hw P ho text
  obtain ⟨o, h1, h2⟩ := gives_or_deep h hr
  simp only [Gives] at h1
  subst h1
  rcases h2 with h2 | h2
  rotate_left
  · cases h2
    exact absurd rfl hx
  match r, hy, h2 with
  | .error x', hy, h2 => cases h2; exact ⟨d, hy⟩
  | .ok none, _, h2 =>
    simp only [Gives] at h2
    split at h2
    · obtain ⟨_, h⟩ := h2; cases h
    · obtain ⟨_, _, h, _⟩ := h2; cases h
  | .ok (some (v', rest)), hy, h2 =>
    simp only [Gives] at h2
    split at h2
    · obtain ⟨_, h⟩ := h2; cases h
    · obtain ⟨_, _, h, _⟩ := h2; cases h

/-! ## The reader of the Lisp example -/

section
open Lisp

/-- The rules of the Lisp grammar that can match nothing. -/
def lispEps (n : String) : Prop := n = "_"

/-- How rules of the Lisp grammar are looked up before something is matched. -/
def lispRank : String → Nat
  | "expr" => 3
  | "operator" => 2
  | "_" | "__" => 1
  | "ESC1" => 1
  | _ => 0

theorem lisp_known (rs rn rw : Regex) {n : String} (h : n ∈ (["expr", "list", "string", "number", "operator", "word", "_", "__", "_SPACECHAR", ".", "ESC1"] : List String)) :
    Known (lispLines rs rn rw) n := by
  have : n ∈ (rulesOf (lispLines rs rn rw)).map (·.1) := h
  obtain ⟨⟨n', cb, b⟩, hm, rfl⟩ := List.mem_map.mp this
  exact ⟨cb, b, hm⟩

/-- C68: the grammar of the Lisp example is well formed. -/
theorem C68_lisp_well_formed {rs rn rw : Regex} (hs : ∀ s, rs.find s ≠ some (0, 0)) (hn : ∀ s, rn.find s ≠ some (0, 0)) (hw : ∀ s, rw.find s ≠ some (0, 0)) :
    WellFormed (lispLines rs rn rw) lispEps lispRank := by
  have n1 : nameOf (asc "_") = "_" := by kernel_rfl
  have n2 : nameOf (asc "expr") = "expr" := by kernel_rfl
  have n3 : nameOf (asc "__") = "__" := by kernel_rfl
  have n4 : nameOf (asc "_SPACECHAR") = "_SPACECHAR" := by kernel_rfl
  have n5 : nameOf (asc "word") = "word" := by kernel_rfl
  have n6 : nameOf (asc ".") = "." := by kernel_rfl
  have hk := @lisp_known rs rn rw
  have hr : rulesOf (lispLines rs rn rw) = [("expr", none, .rank (exprLines rs rn rw)), ("list", some 0, .text listE), ("string", some 1, .text (stringE rs)),
    ("number", some 2, .text (numberE rn)), ("operator", some 3, .text operatorE), ("word", none, .text (wordE rw)), ("_", none, .text blanksE), ("__", none, .text Lisp.gapE),
    ("_SPACECHAR", none, .text spaceE), (".", none, .text anyE), ("ESC1", none, .text escE)] := rfl
  constructor
  · intro nm cb b hm hb
    rw [hr] at hm
    simp only [List.mem_cons, List.not_mem_nil, or_false, Prod.mk.injEq] at hm
    rcases hm with ⟨rfl, rfl, rfl⟩ | ⟨rfl, rfl, rfl⟩ | ⟨rfl, rfl, rfl⟩ | ⟨rfl, rfl, rfl⟩ | ⟨rfl, rfl, rfl⟩ | ⟨rfl, rfl, rfl⟩ | ⟨rfl, rfl, rfl⟩ | ⟨rfl, rfl, rfl⟩ | ⟨rfl, rfl, rfl⟩ | ⟨rfl, rfl, rfl⟩ | ⟨rfl, rfl, rfl⟩
    all_goals simp [Body.Eps, exprLines, linesEps, GLine.Eps, listE, stringE, numberE, operatorE, wordE, blanksE, Lisp.gapE, spaceE, anyE, escE, Expr.vp, Units.vps, Alts.vps, Deco.vp, Prim.vp, VP.seqOf, VP.labelled, VP.Eps, VP.EpsAll, VP.EpsAny, quoteU, quoteP, refP, n1, n2, n3, n4, n5, n6, lispEps, hs, hn, hw] at hb ⊢
    all_goals revert hb; decide +kernel
  · intro nm cb b hm
    rw [hr] at hm
    simp only [List.mem_cons, List.not_mem_nil, or_false, Prod.mk.injEq] at hm
    rcases hm with ⟨rfl, rfl, rfl⟩ | ⟨rfl, rfl, rfl⟩ | ⟨rfl, rfl, rfl⟩ | ⟨rfl, rfl, rfl⟩ | ⟨rfl, rfl, rfl⟩ | ⟨rfl, rfl, rfl⟩ | ⟨rfl, rfl, rfl⟩ | ⟨rfl, rfl, rfl⟩ | ⟨rfl, rfl, rfl⟩ | ⟨rfl, rfl, rfl⟩ | ⟨rfl, rfl, rfl⟩
    all_goals simp [Body.Wf, linesWf, GLine.Wf, VP.Wf, VP.WfSeq, VP.WfAll, hk, lispRank, Body.Eps, exprLines, linesEps, GLine.Eps, listE, stringE, numberE, operatorE, wordE, blanksE, Lisp.gapE, spaceE, anyE, escE, Expr.vp, Units.vps, Alts.vps, Deco.vp, Prim.vp, VP.seqOf, VP.labelled, VP.Eps, VP.EpsAll, VP.EpsAny, quoteU, quoteP, refP, n1, n2, n3, n4, n5, n6, lispEps, hs, hn, hw]
    all_goals decide +kernel
  · generalize Known (lispLines rs rn rw) = K at hk ⊢
    simp [lispLines, topE, Body.Wf, linesWf, GLine.Wf, VP.Wf, VP.WfSeq, VP.WfAll, hk, lispRank, Body.Eps, exprLines, linesEps, GLine.Eps, listE, stringE, numberE, operatorE, wordE, blanksE, Lisp.gapE, spaceE, anyE, escE, Expr.vp, Units.vps, Alts.vps, Deco.vp, Prim.vp, VP.seqOf, VP.labelled, VP.Eps, VP.EpsAll, VP.EpsAny, quoteU, quoteP, refP, n1, n2, n3, n4, n5, n6, lispEps, hs, hn, hw]

/-- C68: the reader of the Lisp example answers every text, with what the texts of its rules say, unless lists are nested too
deeply. -/
theorem C68_lisp {rs rn rw : Regex} (h : Classes rx rs rn rw) (f : Int → Float64) (u : UserString) (text : Bytes) :
    ∃ d r, Yields (lispOps f u) text.length (lispLines rs rn rw) d (.lines (lispLines rs rn rw)) text r ∧ LibGivesOrDeep rx (lispLines rs rn rw) (lispOps f u) text r :=
  C68_answers (lisp_names rs rn rw) (lisp_texts h) (C68_lisp_well_formed h.finds.s.ne (number_ne h.finds.n) (word_ne h.finds.w)) _ (fun _ _ => rfl) text

/-- The assumptions are met: each text is answered. -/
example (f : Int → Float64) (u : UserString) (text : Bytes) :
    ∃ d r, Yields (lispOps f u) text.length (lispLines Sample.notQuoteRe numberRe wordRe) d (.lines (lispLines Sample.notQuoteRe numberRe wordRe)) text r ∧
      LibGivesOrDeep lispRx (lispLines Sample.notQuoteRe numberRe wordRe) (lispOps f u) text r :=
  C68_lisp classes_ex f u text

/-- `'a'* T`, `T: 'b'` -/
def flatLines : List GLine :=
  [.alt "S" none (.text (.single (.cons [] none (.star (.str (charsOf "a")) none) (.one [0x20] none (refP "T"))) [])),
   .incl "T" none (.text (.single (.one [] none (.prim (.str (charsOf "b")))) []))]

/-- Each text is answered. -/
example (P : PureOps V) (ho : ∀ v o, P.origin v o = v) (text : Bytes) : ∃ r, LibGives (fun _ => none) flatLines P text r := by
  have n1 : nameOf (asc "T") = "T" := by kernel_rfl
  have hk : Known flatLines "T" := ⟨none, _, List.mem_cons_of_mem _ (List.mem_cons_self ..)⟩
  have hr : rulesOf flatLines = [("S", none, .text (.single (.cons [] none (.star (.str (charsOf "a")) none) (.one [0x20] none (refP "T"))) [])),
    ("T", none, .text (.single (.one [] none (.prim (.str (charsOf "b")))) []))] := rfl
  have hw : WellFormed flatLines (fun _ => False) (fun n => if n = "S" then 1 else 0) := by
    constructor
    · intro nm cb b hm hb
      rw [hr] at hm
      simp only [List.mem_cons, List.not_mem_nil, or_false, Prod.mk.injEq] at hm
      rcases hm with ⟨rfl, rfl, rfl⟩ | ⟨rfl, rfl, rfl⟩
      · simp [Body.Eps, Expr.vp, Units.vps, Deco.vp, Prim.vp, VP.seqOf, VP.labelled, VP.Eps, VP.EpsAll, refP] at hb
      · revert hb
        simp only [Body.Eps, Expr.vp, Units.vps, Deco.vp, Prim.vp, VP.seqOf, VP.labelled, VP.Eps]
        decide +kernel
    · intro nm cb b hm
      rw [hr] at hm
      simp only [List.mem_cons, List.not_mem_nil, or_false, Prod.mk.injEq] at hm
      rcases hm with ⟨rfl, rfl, rfl⟩ | ⟨rfl, rfl, rfl⟩
      · simp [Body.Wf, Expr.vp, Units.vps, Deco.vp, Prim.vp, VP.seqOf, VP.labelled, VP.Wf, VP.WfSeq, VP.Eps, refP, n1, hk]
        decide +kernel
      · simp [Body.Wf, Expr.vp, Units.vps, Deco.vp, Prim.vp, VP.seqOf, VP.labelled, VP.Wf]
    · generalize Known flatLines = K at hk ⊢
      simp [flatLines, linesWf, GLine.Wf, Body.Wf, Expr.vp, Units.vps, Deco.vp, Prim.vp, VP.seqOf, VP.labelled, VP.Wf, VP.WfSeq, VP.Eps, refP, n1, hk]
      decide +kernel
  have hf : Flat flatLines (fun n => if n = "S" then 2 else 1) 2 := by
    constructor
    · intro nm cb b hm
      rw [hr] at hm
      simp only [List.mem_cons, List.not_mem_nil, or_false, Prod.mk.injEq] at hm
      rcases hm with ⟨rfl, rfl, rfl⟩ | ⟨rfl, rfl, rfl⟩ <;>
        simp [Body.Within, Expr.vp, Units.vps, Deco.vp, Prim.vp, VP.seqOf, VP.labelled, VP.Within, VP.WithinAll, refP, n1]
    · simp [flatLines, linesWithin, GLine.Within, Body.Within, Expr.vp, Units.vps, Deco.vp, Prim.vp, VP.seqOf, VP.labelled, VP.Within, VP.WithinAll, refP, n1]
  have hL : AllLines (TextOk (fun _ => none) flatLines) flatLines := textsOk_rx (by kernel_rfl) (by
    simp only [flatLines, AllLines, GLine.All, Body.All, Expr.RxOk, Units.RxOk, Deco.RxOk, Prim.RxOk, refP, and_true])
  obtain ⟨r, _, hr⟩ := C68_flat (goodNames_of rfl (by show (["S", "T"] : List String).Nodup; decide) (by
    intro d hd
    have : d.1 ∈ (["S", "T"] : List String) := List.mem_map_of_mem (f := (·.1)) hd
    simp only [List.mem_cons, List.not_mem_nil, or_false] at this
    rcases this with h | h <;> rw [h] <;> decide)) hL hw hf (by omega) P ho text
  exact ⟨r, hr⟩

end

end Joeson
