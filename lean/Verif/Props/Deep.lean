import Verif.Props.Indirect
import Verif.Props.Origins
import Verif.Props.RealMaps
import Verif.Props.Traced
/-!
# C51, C53, C57, C76 for texts nested to any depth, with any tracing, for values of any representation

Compiling a text that is nested deeper than 72 may exhaust the rule stack. Then the grammar is not built, and this is the only
thing that can go wrong: if it is built, it does what the texts say.
-/

namespace Joeson
open Spec RuleText
variable {V H : Type}

/-- A text that is supported, nested to any depth. -/
structure TextFits (rx : Bytes → Option Regex) (L : List GLine) (e : Expr) : Prop where
  ok : e.Ok rx
  merges : e.Merges L

theorem TextOk.fits {rx : Bytes → Option Regex} {L : List GLine} {e : Expr} (h : TextOk rx L e) : TextFits rx L e := ⟨h.ok, h.merges⟩

/-! ## A compiler that gives up sometimes -/

section
variable {c c' : Bytes → Except Panic Node} {E : Panic}

theorem bindSame {α β : Type} {x y : Except Panic α} {f g : α → Except Panic β} (h : x = y ∨ x = .error E)
    (hf : ∀ a, f a = g a ∨ f a = .error E) : (x >>= f) = (y >>= g) ∨ (x >>= f) = .error E := by
  rcases h with rfl | rfl
  · cases x with
    | error e => exact .inl rfl
    | ok a => exact hf a
  · exact .inr rfl

mutual
theorem getRule_same (h : ∀ s, c s = c' s ∨ c s = .error E) (name parent : String) (opts : RuleOpts) (next : Nat) :
    ∀ l : Line, getRule c name parent opts next l = getRule c' name parent opts next l ∨ getRule c name parent opts next l = .error E
  | .a lines => by
    simp only [getRule]
    exact bindSame (rankLines_same h lines _ _) fun a => .inl rfl
  | .c t p => .inl (by simp only [getRule])
  | .i _ _ _ => .inl (by simp only [getRule])
  | .o own content o => by
    simp only [getRule]
    exact bindSame (getRule_same h _ _ _ _ content) fun a => .inl rfl
  | .s text => by
    simp only [getRule]
    exact bindSame (h text) fun a => .inl rfl
theorem rankLine_same (h : ∀ s, c s = c' s ∨ c s = .error E) (r : Rank) (next : Nat) :
    ∀ l : Line, rankLine c r next l = rankLine c' r next l ∨ rankLine c r next l = .error E
  | .o own content opts => by
    simp only [rankLine]
    exact bindSame (getRule_same h _ _ _ _ content) fun a => .inl rfl
  | .i name content opts => by
    simp only [rankLine]
    exact bindSame (getRule_same h _ _ _ _ content) fun a => .inl rfl
  | .a _ => .inl (by simp only [rankLine])
  | .s _ => .inl (by simp only [rankLine])
  | .c _ _ => .inl (by simp only [rankLine])
theorem rankLines_same (h : ∀ s, c s = c' s ∨ c s = .error E) :
    ∀ (ls : List Line) (r : Rank) (next : Nat), rankLines c ls r next = rankLines c' ls r next ∨ rankLines c ls r next = .error E
  | [], _, _ => .inl (by simp only [rankLines])
  | l :: ls, r, next => by
    simp only [rankLines]
    exact bindSame (rankLine_same h r next l) fun a => rankLines_same h ls a.1 a.2
end

/-- If one compiler of rule texts differs from another only in that it gives up sometimes, then so does the building of grammars. -/
theorem grammarFromLines_same (h : ∀ s, c s = c' s ∨ c s = .error E) (name : String) (lines : List Line) :
    grammarFromLines c name lines = grammarFromLines c' name lines ∨ grammarFromLines c name lines = .error E := by
  unfold grammarFromLines rankFromLines
  exact bindSame (bindSame (rankLines_same h lines _ _) fun a => .inl rfl) fun a => .inl rfl

end

/-- Tracing does not disturb the compilation of the texts: nothing is traced but loops, or the texts are ASCII. -/
def TraceOk (tr : Trace) (L : List GLine) : Prop :=
  tr.stack = false ∨ ((tr.loop = true → tr.filterLine < 0) ∧ AllLines (fun e => ∀ b ∈ e.text, b < 0x80) L)

theorem compiles_or_overflows {rx : Bytes → Option Regex} {tr0 : Trace} {L : List GLine} (htr0 : TraceOk tr0 L) (hL : AllLines (TextFits rx L) L)
    {m0 : Made} (hm0 : joesonMade = .ok m0) :
    AllLines (fun e => ∃ k, (∀ k', k ≤ k' → compileRule rx m0.g tr0 k' e.text = .ok e.node ∨
      compileRule rx m0.g tr0 k' e.text = .error .stackOverflow) ∧ TextFits rx L e) L := by
  have key : ∀ tr : Trace, tr.stack = false → ∀ e, TextFits rx L e → ∃ k, ∀ k', k ≤ k' → compileText rx m0.g tr k' e.text = .ok e.node ∨
      compileText rx m0.g tr k' e.text = .panic .stackOverflow := by
    intro tr htr e he
    obtain ⟨m, hm, k, hk⟩ := C47_or_stack_overflow rx tr htr e he.ok
    cases hm0.symm.trans hm
    exact ⟨k, hk⟩
  have fin : ∀ e, TextFits rx L e → (∃ k, ∀ k', k ≤ k' → compileText rx m0.g tr0 k' e.text = .ok e.node ∨
      compileText rx m0.g tr0 k' e.text = .panic .stackOverflow) → ∃ k, (∀ k', k ≤ k' → compileRule rx m0.g tr0 k' e.text = .ok e.node ∨
      compileRule rx m0.g tr0 k' e.text = .error .stackOverflow) ∧ TextFits rx L e := by
    rintro e he ⟨k, hk⟩
    refine ⟨k, fun k' hk' => ?_, he⟩
    unfold compileRule
    rcases hk k' hk' with h | h
    · exact .inl (by rw [h])
    · exact .inr (by rw [h])
  rcases htr0 with htr0 | ⟨h0, hA⟩
  · exact lines_all_mono (fun e he => fin e he (key tr0 htr0 e he)) L hL
  · refine lines_all_and (fun e he ha => fin e he ?_) L hL hA
    obtain ⟨k, hk⟩ := key {} rfl e he
    refine ⟨k, fun k' hk' => ?_⟩
    obtain ⟨m, hm, h⟩ := C47_tracing rx tr0 h0 k' e.text ha
    cases hm0.symm.trans hm
    rw [h]
    exact hk k' hk'

/-- `c'` compiles each text to what it denotes, and the library does the same or gives up. -/
theorem rule_texts_ideal (rx : Bytes → Option Regex) (tr0 : Trace) (L : List GLine) (htr0 : TraceOk tr0 L) (hL : AllLines (TextFits rx L) L)
    {m0 : Made} (hm0 : joesonMade = .ok m0) :
    ∃ k0, ∀ k, k0 ≤ k → ∃ c' : Bytes → Except Panic Node, (∀ s, compileRule rx m0.g tr0 k s = c' s ∨ compileRule rx m0.g tr0 k s = .error .stackOverflow) ∧
      AllLines (fun e => c' e.text = .ok e.node ∧ e.Merges L) L := by
  classical
  have hex := compiles_or_overflows htr0 hL hm0
  obtain ⟨k0, hk0⟩ := lines_all_bound (fun k k' e hkk h => ⟨fun k'' h'' => h.1 k'' (Nat.le_trans hkk h''), h.2⟩) L hex
  refine ⟨k0, fun k hk => ?_⟩
  have hc := hk0 k hk
  let c := compileRule rx m0.g tr0 k
  let c' : Bytes → Except Panic Node := fun s =>
    if c s = .error .stackOverflow then
      if h : ∃ e : Expr, e.Ok rx ∧ e.text = s then .ok h.choose.node else .error .stackOverflow
    else c s
  refine ⟨c', fun s => ?_, lines_all_mono (fun e he => ⟨?_, he.2.merges⟩) L hc⟩
  · by_cases h : c s = .error .stackOverflow
    · exact .inr h
    · exact .inl (by simp only [c', if_neg h]; rfl)
  · rcases he.1 k (Nat.le_refl _) with h | h
    · have h1 : c e.text = .ok e.node := h
      simp only [c', h1]
      rfl
    · have h1 : c e.text = .error .stackOverflow := h
      have hx : ∃ e' : Expr, e'.Ok rx ∧ e'.text = e.text := ⟨e, he.2.ok, rfl⟩
      simp only [c', h1, if_true, dif_pos hx]
      rw [C47_unambiguous rx _ e hx.choose_spec.1 he.2.ok hx.choose_spec.2]

/-- What a grammar written as rule texts is built into, for texts of any depth. `c'` compiles each text to what it denotes. -/
theorem rule_texts_build (rx : Bytes → Option Regex) (tr0 : Trace) (L : List GLine) (htr0 : TraceOk tr0 L)
    (hg : GoodNames L) (hL : AllLines (TextFits rx L) L) (name : String) :
    ∃ lines m0, linesOf L = .ok lines ∧ joesonMade = .ok m0 ∧ ∃ k0, ∀ k, k0 ≤ k →
      grammarFromLines (compileRule rx m0.g tr0 k) name lines = .error .stackOverflow ∨
      ∃ c' m, AllLines (fun e => c' e.text = .ok e.node ∧ ∀ nm ∈ e.vp.spliced, Labelled L nm) L ∧
        grammarFromLines c' name lines = .ok m ∧ grammarFromLines (compileRule rx m0.g tr0 k) name lines = .ok m := by
  obtain ⟨lines, hl⟩ := linesOf_total L hg.named
  obtain ⟨m0, hm0, _⟩ := Joe.made
  refine ⟨lines, m0, hl, hm0, ?_⟩
  obtain ⟨k0, hk0⟩ := rule_texts_ideal rx tr0 L htr0 hL hm0
  refine ⟨k0, fun k hk => ?_⟩
  obtain ⟨c', hcc, hc'⟩ := hk0 k hk
  obtain ⟨m, hm⟩ := grammar_total hg hc' name hl
  rcases grammarFromLines_same hcc name lines with h | h
  · exact .inr ⟨c', m, merges_labelled hc', hm, h.trans hm⟩
  · exact .inl h

theorem mentions_words_fits {rx : Bytes → Option Regex} {L : List GLine} (hL : AllLines (TextFits rx L) L) : ∀ nm ∈ mentionsIn L, Auto nm = false :=
  mentionsIn_of L (lines_all_mono (fun e he nm hnm => isWord_auto (expr_words e he.ok nm hnm)) L hL)

theorem TraceFailed.of {tr : Trace} {opts : List ParseOption} {text : Bytes} {V V' H H' : Type} {o : Out (Outcome V × St V H)} {o' : Out (Outcome V' × St V' H')}
    (h : ∀ e, o' = .panic e → o = .panic e) (hf : TraceFailed tr opts text o') : TraceFailed tr opts text o :=
  hf.imp (fun hf => ⟨h _ hf.1, hf.2⟩) fun hf => ⟨h _ hf.1, hf.2⟩

/-- From values that remember nothing and no tracing to any representation and any tracing. -/
theorem seen_traced {V' : Type} {ops : Ops V H} {P : PureOps V'} {see : V → V'} (hs : Seen ops P see) {g : Grammar} (hb : g.Built)
    (hd : ∀ n ∈ g.rules, n.info.debug = false ∧ n.info.skipCache = false) (tr : Trace) (opts : List ParseOption) (k : Nat) (h : H) (text : Bytes)
    {r : VRes V'} {B : Prop} (hg : Gives text r (parseString (P.ops Unit) g {} [] k () text).1 ∨
      (B ∧ (parseString (P.ops Unit) g {} [] k () text).1 = .panic .stackOverflow)) :
    GivesSeen see text r (parseString ops g tr opts k h text).1 ∨ (B ∧ (parseString ops g tr opts k h text).1 = .panic .stackOverflow) ∨
      TraceFailed tr opts text (parseString ops g tr opts k h text).1 := by
  have key := (parseString_seen (H' := Unit) hs hb tr opts k h () text).2
  rcases traced_gives hd _ tr opts k () text hg with h | ⟨h1, h2⟩ | h
  · exact .inl (givesSeen_of key h)
  · exact .inr (.inl ⟨h1, overflow_of key h2⟩)
  · exact .inr (.inr (h.of fun e he => overflow_of key he))

theorem recognises_of_seen {text : Bytes} {x : Option Bytes} {o o' : Out (Outcome V × St V H)} (hs : o.seen = o'.seen) (h : Recognises text x o') : Recognises text x o := by
  have key : ∀ (a : Outcome V) (s : St V H), o' = .ok (a, s) → ∃ s', o = .ok (a, s') ∧ s'.pos = s.pos := by
    rintro a s rfl
    match o, hs with
    | .ok (a', s'), hs =>
      simp only [Out.seen, Out.ok.injEq, Prod.mk.injEq] at hs
      exact ⟨s', by rw [hs.1], hs.2.2.2⟩
    | .panic e, hs => cases hs
    | .oof, hs => cases hs
  unfold Recognises at h ⊢
  split <;> rename_i hx <;> simp only at h <;> split <;> rename_i ht
  · rw [if_pos ht] at h
    obtain ⟨v, s, h⟩ := h
    obtain ⟨s', h, _⟩ := key _ _ h
    exact ⟨v, s', h⟩
  · rw [if_neg ht] at h
    obtain ⟨rep, s, h, hp⟩ := h
    obtain ⟨s', h, hp'⟩ := key _ _ h
    exact ⟨rep, s', h, by rw [hp', hp]⟩
  · rw [if_pos ht] at h
    obtain ⟨s, h⟩ := h
    obtain ⟨s', h, _⟩ := key _ _ h
    exact ⟨s', h⟩
  · rw [if_neg ht] at h
    obtain ⟨rep, s, h, hp⟩ := h
    obtain ⟨s', h, hp'⟩ := key _ _ h
    exact ⟨rep, s', h, by rw [hp', hp]⟩

/-! ## The claims -/

/-- C51 for texts of any depth. -/
theorem C51_or_stack_overflow (rx : Bytes → Option Regex) (tr0 : Trace) (L : List GLine) (htr0 : TraceOk tr0 L)
    (hg : GoodNames L) (hL : AllLines (TextFits rx L) L) (name : String) :
    ∃ lines m0, linesOf L = .ok lines ∧ joesonMade = .ok m0 ∧ ∃ k0, ∀ k, k0 ≤ k →
      grammarFromLines (compileRule rx m0.g tr0 k) name lines = .error .stackOverflow ∨
      ∃ m, grammarFromLines (compileRule rx m0.g tr0 k) name lines = .ok m ∧
        ∀ (V H : Type) (P : PureOps V), TotalCb P →
          ∀ (tr : Trace) (opts : List ParseOption) (h : H) (text : Bytes) (d : Nat) (x : Option Bytes),
          Parses L d (.lines L) text x → ∃ k1, ∀ k', k1 ≤ k' →
            Recognises text x (parseString (P.ops H) m.g tr opts k' h text).1 ∨
            (1024 < d ∧ (parseString (P.ops H) m.g tr opts k' h text).1 = .panic .stackOverflow) ∨
            (¬ AllLines Expr.Unlabelled L ∧ ∃ e, LabelPanic P e ∧ (parseString (P.ops H) m.g tr opts k' h text).1 = .panic e) ∨
            TraceFailed tr opts text (parseString (P.ops H) m.g tr opts k' h text).1 := by
  obtain ⟨lines, m0, hl, hm0, k0, hk0⟩ := rule_texts_build rx tr0 L htr0 hg hL name
  refine ⟨lines, m0, hl, hm0, k0, fun k hk => (hk0 k hk).imp id ?_⟩
  rintro ⟨c', m, hc, hm', hm⟩
  refine ⟨m, hm, ?_⟩
  intro V H P ht tr opts h text d x hp
  obtain ⟨k1, hk1⟩ := C51_grammar_parses_partial P ht _ L hg (lines_all_mono (fun e h => h.1) L hc) name lines hl m hm' {} rfl [] (by simp) h text d x hp
  refine ⟨k1, fun k' hk' => ?_⟩
  obtain ⟨_, husual, _⟩ := grammar_implV hg hc hl hm'
  rcases traced_seen husual (P.ops H) tr opts k' h text with hs | hf
  · have hpan : ∀ e, (parseString (P.ops H) m.g {} [] k' h text).1 = .panic e → (parseString (P.ops H) m.g tr opts k' h text).1 = .panic e := by
      intro e he
      rw [he] at hs
      match (parseString (P.ops H) m.g tr opts k' h text).1, hs with
      | .ok (a, s), hs => cases hs
      | .panic e, hs => cases hs; rfl
      | .oof, hs => cases hs
    rcases hk1 k' hk' with h1 | ⟨h1, h2⟩ | ⟨h1, e, h2, h3⟩
    · exact .inl (recognises_of_seen hs h1)
    · exact .inr (.inl ⟨h1, hpan _ h2⟩)
    · exact .inr (.inr (.inl ⟨h1, e, h2, hpan _ h3⟩))
  · exact .inr (.inr (.inr hf))

/-- C53 for texts of any depth. -/
theorem C53_or_stack_overflow (rx : Bytes → Option Regex) (tr0 : Trace) (L : List GLine) (htr0 : TraceOk tr0 L)
    (hg : GoodNames L) (hL : AllLines (TextFits rx L) L) (name : String) :
    ∃ lines m0, linesOf L = .ok lines ∧ joesonMade = .ok m0 ∧ ∃ k0, ∀ k, k0 ≤ k →
      grammarFromLines (compileRule rx m0.g tr0 k) name lines = .error .stackOverflow ∨
      ∃ m, grammarFromLines (compileRule rx m0.g tr0 k) name lines = .ok m ∧
        ∀ (V V' H : Type) (ops : Ops V H) (P : PureOps V') (see : V → V'), Seen ops P see →
          ∀ (tr : Trace) (opts : List ParseOption) (h : H) (text : Bytes) (d : Nat) (r : VRes V'),
          Yields P text.length L d (.lines L) text r → ∃ k1, ∀ k', k1 ≤ k' →
            GivesSeen see text r (parseString ops m.g tr opts k' h text).1 ∨
            (1024 < d ∧ (parseString ops m.g tr opts k' h text).1 = .panic .stackOverflow) ∨
            TraceFailed tr opts text (parseString ops m.g tr opts k' h text).1 := by
  obtain ⟨lines, m0, hl, hm0, k0, hk0⟩ := rule_texts_build rx tr0 L htr0 hg hL name
  refine ⟨lines, m0, hl, hm0, k0, fun k hk => (hk0 k hk).imp id ?_⟩
  rintro ⟨c', m, hc, hm', hm⟩
  refine ⟨m, hm, ?_⟩
  intro V V' H ops P see hs tr opts h text d r hp
  obtain ⟨k1, hk1⟩ := C53_grammar_values_partial P hs.none _ L hg hc name lines hl m hm' {} rfl [] (by simp) () text d r hp
  refine ⟨k1, fun k' hk' => ?_⟩
  obtain ⟨hbuilt, husual, _⟩ := grammar_implV hg hc hl hm'
  exact seen_traced hs hbuilt husual tr opts k' h text (hk1 k' hk')

/-- C57 for texts of any depth. -/
theorem C57_or_stack_overflow (rx : Bytes → Option Regex) (tr0 : Trace) (L : List GLine) (htr0 : TraceOk tr0 L)
    (hg : GoodNames L) (hL : AllLines (TextFits rx L) L) (name : String) :
    ∃ lines m0, linesOf L = .ok lines ∧ joesonMade = .ok m0 ∧ ∃ k0, ∀ k, k0 ≤ k →
      grammarFromLines (compileRule rx m0.g tr0 k) name lines = .error .stackOverflow ∨
      ∃ m, grammarFromLines (compileRule rx m0.g tr0 k) name lines = .ok m ∧
        ∀ (V V' H : Type) (ops : Ops V H) (P : PureOps V') (see : V → V'), Seen ops P see →
          ∀ (tr : Trace) (opts : List ParseOption) (h : H) (text : Bytes) (d : Nat) (r : VRes V'),
          YieldsL P text.length L none d (.lines L) text r → ∃ k1, ∀ k', k1 ≤ k' →
            GivesSeen see text r (parseString ops m.g tr opts k' h text).1 ∨
            (1024 < d ∧ (parseString ops m.g tr opts k' h text).1 = .panic .stackOverflow) ∨
            TraceFailed tr opts text (parseString ops m.g tr opts k' h text).1 := by
  obtain ⟨lines, m0, hl, hm0, k0, hk0⟩ := rule_texts_build rx tr0 L htr0 hg hL name
  refine ⟨lines, m0, hl, hm0, k0, fun k hk => (hk0 k hk).imp id ?_⟩
  rintro ⟨c', m, hc, hm', hm⟩
  refine ⟨m, hm, ?_⟩
  intro V V' H ops P see hs tr opts h text d r hp
  obtain ⟨k1, hk1⟩ := C57_grammar_left_recursion_partial P hs.none _ L hg hc (mentions_words_fits hL) name lines hl m hm' {} rfl rfl [] (by simp) () text d r hp
  refine ⟨k1, fun k' hk' => ?_⟩
  obtain ⟨hbuilt, husual, _⟩ := grammar_implV hg hc hl hm'
  exact seen_traced hs hbuilt husual tr opts k' h text (hk1 k' hk')

/-- C76 for texts of any depth, and values of any representation. -/
theorem C76_or_stack_overflow (rx : Bytes → Option Regex) (tr0 : Trace) (L : List GLine) (htr0 : TraceOk tr0 L)
    (hg : GoodNames L) (hL : AllLines (TextFits rx L) L) (W : List String) (hW : HelpersOk L W) (name : String) :
    ∃ lines m0, linesOf L = .ok lines ∧ joesonMade = .ok m0 ∧ ∃ k0, ∀ k, k0 ≤ k →
      grammarFromLines (compileRule rx m0.g tr0 k) name lines = .error .stackOverflow ∨
      ∃ m, grammarFromLines (compileRule rx m0.g tr0 k) name lines = .ok m ∧
        ∀ (V V' H : Type) (ops : Ops V H) (P : PureOps V') (see : V → V'), Seen ops P see →
          ∀ (tr : Trace) (opts : List ParseOption) (h : H) (text : Bytes) (d : Nat) (r : VRes V'),
          YieldsI P text.length L W none d (.lines L) text r → ∃ k1, ∀ k', k1 ≤ k' →
            GivesSeen see text r (parseString ops m.g tr opts k' h text).1 ∨
            (1024 < d ∧ (parseString ops m.g tr opts k' h text).1 = .panic .stackOverflow) ∨
            TraceFailed tr opts text (parseString ops m.g tr opts k' h text).1 := by
  obtain ⟨lines, m0, hl, hm0, k0, hk0⟩ := rule_texts_build rx tr0 L htr0 hg hL name
  refine ⟨lines, m0, hl, hm0, k0, fun k hk => (hk0 k hk).imp id ?_⟩
  rintro ⟨c', m, hc, hm', hm⟩
  refine ⟨m, hm, ?_⟩
  intro V V' H ops P see hs tr opts h text d r hp
  obtain ⟨k1, hk1⟩ := C76_grammar_through_helpers_partial P hs.none _ L hg hc (mentions_words_fits hL) W hW name lines hl m hm' {} rfl rfl [] (by simp) () text d r hp
  refine ⟨k1, fun k' hk' => ?_⟩
  obtain ⟨hbuilt, husual, _⟩ := grammar_implV hg hc hl hm'
  exact seen_traced hs hbuilt husual tr opts k' h text (hk1 k' hk')

/-- C42 for texts of any depth, with left recursion and helpers. -/
theorem C42_or_stack_overflow (rx : Bytes → Option Regex) (tr0 : Trace) (L : List GLine) (htr0 : TraceOk tr0 L)
    (hg : GoodNames L) (hL : AllLines (TextFits rx L) L) (ho : AllLines (fun e => e.vp.OwnMaps) L) (W : List String) (hW : HelpersOk L W) (name : String) :
    ∃ lines m0, linesOf L = .ok lines ∧ joesonMade = .ok m0 ∧ ∃ k0, ∀ k, k0 ≤ k →
      grammarFromLines (compileRule rx m0.g tr0 k) name lines = .error .stackOverflow ∨
      ∃ m, grammarFromLines (compileRule rx m0.g tr0 k) name lines = .ok m ∧
        ∀ cb tcb, PureCallbacks cb tcb → ∀ (tr : Trace) (opts : List ParseOption) (text : Bytes) (d : Nat) (r : VRes Ast),
          YieldsI (treePure tcb) text.length L W none d (.lines L) text r → ∃ k1, ∀ k', k1 ≤ k' →
            GivesRead text r (parseString (heapOps cb) m.g tr opts k' Store.empty text).1 ∨
            (1024 < d ∧ (parseString (heapOps cb) m.g tr opts k' Store.empty text).1 = .panic .stackOverflow) ∨
            TraceFailed tr opts text (parseString (heapOps cb) m.g tr opts k' Store.empty text).1 := by
  obtain ⟨lines, m0, hl, hm0, k0, hk0⟩ := rule_texts_build rx tr0 L htr0 hg hL name
  refine ⟨lines, m0, hl, hm0, k0, fun k hk => (hk0 k hk).imp id ?_⟩
  rintro ⟨c', m, hc, hm', hm⟩
  refine ⟨m, hm, ?_⟩
  intro cb tcb hcb tr opts text d r hp
  obtain ⟨k1, h1⟩ := C76_grammar_through_helpers_partial (treePure tcb) (fun _ _ => rfl) _ L hg hc (mentions_words_fits hL) W hW name lines hl m hm' {} rfl rfl [] (by simp) () text d r hp
  have hgr := grammar_own hg hc ho hl hm'
  obtain ⟨_, husual, _⟩ := grammar_implV hg hc hl hm'
  refine ⟨k1, fun k' hk' => ?_⟩
  rcases traced_gives husual _ tr opts k' () text (h1 k' hk') with h | ⟨h1, h2⟩ | h
  · exact .inl ((gives_read hcb hgr).1 r h)
  · exact .inr (.inl ⟨h1, (gives_read hcb hgr).2 _ h2⟩)
  · exact .inr (.inr (h.of fun e he => (gives_read hcb hgr).2 _ he))

/-! ## Texts nested deeper than 72 -/

namespace Sample

/-- `'a'` in `n` pairs of parentheses -/
def deep : Nat → Prim
  | 0 => litE "a"
  | n + 1 => .group (.single (.one [] none (.prim (deep n))) [])

/-- `S: ((...('a')...))`, `n` deep -/
def deepTextLines (n : Nat) : List GLine := [.alt "S" none (.text (.single (.one [] none (.prim (deep n))) []))]

theorem noLabel {p : Bytes → Prop} : ∀ w, (none : Option Bytes) = some w → p w := fun _ h => nomatch h

theorem deep_ok (rx : Bytes → Option Regex) : ∀ n, (deep n).Ok rx
  | 0 => by
    intro p hp
    simp at hp
    subst hp
    exact ⟨.inl (by decide), fun _ => ⟨by decide, by decide⟩⟩
  | n + 1 => ⟨⟨blank_nil, noLabel, deep_ok rx n⟩, blank_nil, fun _ => rfl⟩

theorem deep_noAt : ∀ n, (deep n).NoAt
  | 0 => trivial
  | n + 1 => ⟨noLabel, deep_noAt n⟩

theorem deep_nest : ∀ n, (deep n).nest = n
  | 0 => rfl
  | n + 1 => congrArg (· + 1) (deep_nest n)

theorem deepTextLines_fit (rx : Bytes → Option Regex) (n : Nat) : AllLines (TextFits rx (deepTextLines n)) (deepTextLines n) :=
  ⟨⟨⟨⟨blank_nil, noLabel, deep_ok rx n⟩, blank_nil, fun _ => rfl⟩,
    Expr.NoAt.merges ⟨noLabel, deep_noAt n⟩⟩, trivial⟩

theorem deepTextLines_names (n : Nat) : GoodNames (deepTextLines n) := by
  refine ⟨?_, ?_, ?_⟩
  · simp [deepTextLines, NamedLines, GLine.Named, Body.Named]
  · exact (List.nodup_singleton "S" : ["S"].Nodup)
  · intro d hd
    have hd : d ∈ [("S", Body.text (.single (.one [] none (.prim (deep n))) []))] := hd
    simp only [List.mem_singleton] at hd
    subst hd
    show '[' ∉ "S".toList
    decide

theorem deep_parses (L : List GLine) (d : Nat) : ∀ n, Parses L d (.pat (deep n).pat) (asc "a") (some [])
  | 0 => Parses.lit (b := asc "a") (s := [])
  | n + 1 => deep_parses L d n

end Sample

open Sample in
/-- At every depth the text `a` matches. -/
example (n : Nat) : Parses (deepTextLines n) 1 (.lines (deepTextLines n)) (asc "a") (some []) := .altHit (.text (deep_parses _ _ n))

open Sample in
/-- The grammar `S: ((...('a')...))` meets the conditions for every depth; here is the text for depth 3, and the depth. -/
example (n : Nat) : GoodNames (deepTextLines n) ∧ AllLines (TextFits (fun _ => none) (deepTextLines n)) (deepTextLines n) ∧
    (deep n).nest = n ∧ (deep 3).text = asc "((('a')))" :=
  ⟨deepTextLines_names n, deepTextLines_fit _ n, deep_nest n, by rfl⟩

end Joeson
