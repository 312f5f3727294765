import Verif.Props.Deep
import Verif.Props.Laws
import Verif.Props.Same
import Verif.Props.WellFormed
import Verif.Props.WellFormedLeft
/-!
# C61, C68, C71, C74 for texts nested to any depth, with any tracing, for values of any representation

As Props/Deep.lean does for C51, C53, C57 and C76.
-/

namespace Joeson
open Spec RuleText

/-- The answer, or one of the two things that can go wrong: rules nested too deeply, or the tracing code. -/
def AnswersOr {V V' H : Type} (see : V → V') (tr : Trace) (opts : List ParseOption) (text : Bytes) (r : VRes V') (d : Nat) (o : Out (Outcome V × St V H)) : Prop :=
  GivesSeen see text r o ∨ (1024 < d ∧ o = .panic .stackOverflow) ∨ TraceFailed tr opts text o

/-- C68: `ParseString` of a well formed grammar ends for every text, with every tracing, options, callbacks and representation of
values. -/
theorem C68_or_stack_overflow (rx : Bytes → Option Regex) (tr0 : Trace) (L : List GLine) (htr0 : TraceOk tr0 L)
    (hg : GoodNames L) (hL : AllLines (TextFits rx L) L) {e : String → Prop} {rank : String → Nat} (hw : WellFormed L e rank) (name : String) :
    ∃ lines m0, linesOf L = .ok lines ∧ joesonMade = .ok m0 ∧ ∃ k0, ∀ k, k0 ≤ k →
      grammarFromLines (compileRule rx m0.g tr0 k) name lines = .error .stackOverflow ∨
      ∃ m, grammarFromLines (compileRule rx m0.g tr0 k) name lines = .ok m ∧
        ∀ (V V' H : Type) (ops : Ops V H) (P : PureOps V') (see : V → V'), Seen ops P see →
          ∀ (tr : Trace) (opts : List ParseOption) (h : H) (text : Bytes), ∃ d r,
          Yields P text.length L d (.lines L) text r ∧ ∃ k1, ∀ k', k1 ≤ k' → AnswersOr see tr opts text r d (parseString ops m.g tr opts k' h text).1 := by
  obtain ⟨lines, m0, hl, hm0, k0, hk0⟩ := C53_or_stack_overflow rx tr0 L htr0 hg hL name
  refine ⟨lines, m0, hl, hm0, k0, fun k hk => (hk0 k hk).imp id ?_⟩
  rintro ⟨m, hm, h1⟩
  refine ⟨m, hm, fun V V' H ops P see hs tr opts h text => ?_⟩
  obtain ⟨d, r, hy⟩ := wf_has hw P text.length _ text rfl (.lines L) hw.top
  exact ⟨d, r, hy, h1 V V' H ops P see hs tr opts h text d r hy⟩

/-- C71: the same for grammars with left recursion. -/
theorem C71_or_stack_overflow (rx : Bytes → Option Regex) (tr0 : Trace) (L : List GLine) (htr0 : TraceOk tr0 L)
    (hg : GoodNames L) (hL : AllLines (TextFits rx L) L) {e : String → Prop} {rank : String → Nat} (hw : WellFormedL L e rank) (name : String) :
    ∃ lines m0, linesOf L = .ok lines ∧ joesonMade = .ok m0 ∧ ∃ k0, ∀ k, k0 ≤ k →
      grammarFromLines (compileRule rx m0.g tr0 k) name lines = .error .stackOverflow ∨
      ∃ m, grammarFromLines (compileRule rx m0.g tr0 k) name lines = .ok m ∧
        ∀ (V V' H : Type) (ops : Ops V H) (P : PureOps V') (see : V → V'), Seen ops P see →
          ∀ (tr : Trace) (opts : List ParseOption) (h : H) (text : Bytes), ∃ d r,
          YieldsL P text.length L none d (.lines L) text r ∧ ∃ k1, ∀ k', k1 ≤ k' → AnswersOr see tr opts text r d (parseString ops m.g tr opts k' h text).1 := by
  obtain ⟨lines, m0, hl, hm0, k0, hk0⟩ := C57_or_stack_overflow rx tr0 L htr0 hg hL name
  refine ⟨lines, m0, hl, hm0, k0, fun k hk => (hk0 k hk).imp id ?_⟩
  rintro ⟨m, hm, h1⟩
  refine ⟨m, hm, fun V V' H ops P see hs tr opts h text => ?_⟩
  obtain ⟨d, r, hy⟩ := wfL_top hw P text.length text
  exact ⟨d, r, hy, h1 V V' H ops P see hs tr opts h text d r hy⟩

/-- C61: two ways to write a grammar, with any tracing, options and representation of values. Both grammars answer what the texts
of the first say. -/
theorem C61_or_stack_overflow (rx : Bytes → Option Regex) (tr0 : Trace) {Q : Nat → Prop} (L L' : List GLine) (hG : SameGrammar Q L L')
    (htr0 : TraceOk tr0 L) (htr0' : TraceOk tr0 L') (hg : GoodNames L) (hL : AllLines (TextFits rx L) L) (hg' : GoodNames L')
    (hL' : AllLines (TextFits rx L') L') (name name' : String) :
    ∃ lines lines' m0, linesOf L = .ok lines ∧ linesOf L' = .ok lines' ∧ joesonMade = .ok m0 ∧ ∃ k0, ∀ k, k0 ≤ k →
      grammarFromLines (compileRule rx m0.g tr0 k) name lines = .error .stackOverflow ∨
      grammarFromLines (compileRule rx m0.g tr0 k) name' lines' = .error .stackOverflow ∨
      ∃ m m', grammarFromLines (compileRule rx m0.g tr0 k) name lines = .ok m ∧ grammarFromLines (compileRule rx m0.g tr0 k) name' lines' = .ok m' ∧
        ∀ (V V' H : Type) (ops : Ops V H) (P : PureOps V') (see : V → V'), Seen ops P see → (∀ c, Q c → ∀ v p, P.cb c v p ≠ .ok none) →
          ∀ (tr : Trace) (opts : List ParseOption) (h : H) (text : Bytes) (d : Nat) (r : VRes V'),
          YieldsL P text.length L none d (.lines L) text r → ∃ k1, ∀ k', k1 ≤ k' →
            AnswersOr see tr opts text r d (parseString ops m.g tr opts k' h text).1 ∧
            AnswersOr see tr opts text r (2 * d) (parseString ops m'.g tr opts k' h text).1 := by
  obtain ⟨lines, m0, hl, hm0, k0, hk0⟩ := C57_or_stack_overflow rx tr0 L htr0 hg hL name
  obtain ⟨lines', m0', hl', hm0', k0', hk0'⟩ := C57_or_stack_overflow rx tr0 L' htr0' hg' hL' name'
  cases hm0.symm.trans hm0'
  refine ⟨lines, lines', m0, hl, hl', hm0, max k0 k0', fun k hk => ?_⟩
  rcases hk0 k (by omega) with h1 | ⟨m, hm, h1⟩
  · exact .inl h1
  rcases hk0' k (by omega) with h1' | ⟨m', hm', h1'⟩
  · exact .inr (.inl h1')
  refine .inr (.inr ⟨m, m', hm, hm', fun V V' H ops P see hs hQ tr opts h text d r hy => ?_⟩)
  have hy' := same_to hQ hG hy _ _ _ (.top hG.lines) (2 * d) (by omega)
  rw [called_none] at hy'
  obtain ⟨k1, h1⟩ := h1 V V' H ops P see hs tr opts h text d r hy
  obtain ⟨k1', h1'⟩ := h1' V V' H ops P see hs tr opts h text _ r hy'
  exact ⟨max k1 k1', fun k' hk' => ⟨h1 k' (by omega), h1' k' (by omega)⟩⟩

/-- C74: rewriting the texts of a grammar by the laws, with any tracing and options: both recognise the same, unless something goes
wrong. -/
theorem C74_or_stack_overflow (rx : Bytes → Option Regex) (tr0 : Trace) (L L' : List GLine) (htr0 : TraceOk tr0 L) (htr0' : TraceOk tr0 L')
    (hg : GoodNames L) (hL : AllLines (TextFits rx L) L) (hu : AllLines Expr.Unlabelled L) (hL' : AllLines (TextFits rx L') L')
    (hu' : AllLines Expr.Unlabelled L') (h : RewritesLines L L') (name name' : String) :
    ∃ lines lines' m0, linesOf L = .ok lines ∧ linesOf L' = .ok lines' ∧ joesonMade = .ok m0 ∧ ∃ k0, ∀ k, k0 ≤ k →
      grammarFromLines (compileRule rx m0.g tr0 k) name lines = .error .stackOverflow ∨
      grammarFromLines (compileRule rx m0.g tr0 k) name' lines' = .error .stackOverflow ∨
      ∃ m m', grammarFromLines (compileRule rx m0.g tr0 k) name lines = .ok m ∧ grammarFromLines (compileRule rx m0.g tr0 k) name' lines' = .ok m' ∧
        ∀ (V H : Type) (P P' : PureOps V), TotalCb P → TotalCb P' → ∀ (tr : Trace) (opts : List ParseOption) (h : H) (text : Bytes) (d : Nat) (x : Option Bytes),
          Parses L d (.lines L) text x → ∃ k1, ∀ k', k1 ≤ k' →
            Alike (parseString (P.ops H) m.g tr opts k' h text).1 (parseString (P'.ops H) m'.g tr opts k' h text).1 ∨
            (1024 < d ∧ ((parseString (P.ops H) m.g tr opts k' h text).1 = .panic .stackOverflow ∨
              (parseString (P'.ops H) m'.g tr opts k' h text).1 = .panic .stackOverflow)) ∨
            TraceFailed tr opts text (parseString (P.ops H) m.g tr opts k' h text).1 ∨
            TraceFailed tr opts text (parseString (P'.ops H) m'.g tr opts k' h text).1 := by
  obtain ⟨lines, m0, hl, hm0, k0, hk0⟩ := C51_or_stack_overflow rx tr0 L htr0 hg hL name
  obtain ⟨lines', m0', hl', hm0', k0', hk0'⟩ := C51_or_stack_overflow rx tr0 L' htr0' (goodNames_rewritten h hg) hL' name'
  cases hm0.symm.trans hm0'
  refine ⟨lines, lines', m0, hl, hl', hm0, max k0 k0', fun k hk => ?_⟩
  rcases hk0 k (by omega) with h1 | ⟨m, hm, h1⟩
  · exact .inl h1
  rcases hk0' k (by omega) with h1' | ⟨m', hm', h1'⟩
  · exact .inr (.inl h1')
  refine .inr (.inr ⟨m, m', hm, hm', fun V H P P' hP hP' tr opts hh text d x hp => ?_⟩)
  obtain ⟨k1, h1⟩ := h1 V H P hP tr opts hh text d x hp
  obtain ⟨k1', h1'⟩ := h1' V H P' hP' tr opts hh text d x ((C74_rewritten_grammar L L' hg h d text x).mp hp)
  refine ⟨max k1 k1', fun k' hk' => ?_⟩
  rcases h1 k' (by omega) with r1 | ⟨hd, r1⟩ | ⟨r1, _⟩ | r1
  · rcases h1' k' (by omega) with r2 | ⟨hd, r2⟩ | ⟨r2, _⟩ | r2
    · exact .inl (alike_of r1 r2)
    · exact .inr (.inl ⟨hd, .inr r2⟩)
    · exact absurd hu' r2
    · exact .inr (.inr (.inr r2))
  · exact .inr (.inl ⟨hd, .inl r1⟩)
  · exact absurd hu r1
  · exact .inr (.inr (.inl r1))

/-! ## The assumptions are met -/

open Sample in
/-- `E: E '-' N | N` is well formed: every text has an answer, with every tracing of the parse. -/
example := C71_or_stack_overflow (fun _ => some digitRe) {} (minusLines digitRe) (.inl rfl) (minus_names _) (lines_all_mono (fun _ h => TextOk.fits h) _ (minus_texts rfl))
  (C71_minus_well_formed digitRe_ne) ""

open Lisp in
/-- So is the grammar of the Lisp example. -/
example := C68_or_stack_overflow lispRx {} (lispLines Sample.notQuoteRe numberRe wordRe) (.inl rfl) (lisp_names _ _ _) (lines_all_mono (fun _ h => TextOk.fits h) _ (lisp_texts classes_ex))
  (C68_lisp_well_formed classes_ex.finds.s.ne (number_ne classes_ex.finds.n) (word_ne classes_ex.finds.w)) "lisp"

open Sample in
/-- The two grammars of examples/precedence. -/
example := C61_or_stack_overflow (fun b => if b = asc "[a-zA-Z0-9]" then some glyphRe else some digitRe) {} _ _ (C61_precedence_same glyphRe digitRe) (.inl rfl) (.inl rfl)
  (prec_names _ _).1 (lines_all_mono (fun _ h => TextOk.fits h) _ (prec_texts (if_pos rfl) (if_neg (by decide +kernel))).1) (prec_names _ _).2
  (lines_all_mono (fun _ h => TextOk.fits h) _ (prec_texts (if_pos rfl) (if_neg (by decide +kernel))).2) "bars" "rank"

open Sample in
/-- `'a' S 'b' | 'a' S 'c' | 'd'` and `'a' S ('b' | 'c') | 'd'`. -/
example := C74_or_stack_overflow (fun _ => none) {} longLines shortLines (.inl rfl) (.inl rfl) longLines_names (lines_all_mono (fun _ h => TextOk.fits h) _ (textsOk_of _ (by kernel_rfl)))
  (by simp [longLines, AllLines, GLine.All, Body.All, Expr.Unlabelled, Units.Unlabelled, Alts.Unlabelled, Deco.Unlabelled, Prim.Unlabelled, litE])
  (lines_all_mono (fun _ h => TextOk.fits h) _ (textsOk_of _ (by kernel_rfl)))
  (by simp [shortLines, AllLines, GLine.All, Body.All, Expr.Unlabelled, Units.Unlabelled, Alts.Unlabelled, Deco.Unlabelled, Prim.Unlabelled, litE])
  longLines_rewritten "long" "short"

end Joeson
