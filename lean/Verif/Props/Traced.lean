import Verif.Props.Tracing
import Verif.Props.Indirect
/-!
# C47, C53, C57 and C76 with any tracing
-/

namespace Joeson
open RuleText Sample
variable {V H : Type}

/-- The tracing code itself has panicked: on a text that is not ASCII, or with `Loop` and `FilterLine`. -/
def TraceFailed (tr : Trace) (opts : List ParseOption) (text : Bytes) (o : Out (Outcome V × St V H)) : Prop :=
  (o = .panic .runeError ∧ (tr.stack = true ∨ ParseOption.debug true ∈ opts) ∧ ∃ b ∈ text, 0x80 ≤ b) ∨
  (o = .panic .loopStackEmpty ∧ tr.loop = true ∧ 0 ≤ tr.filterLine)

/-- A grammar none of whose rules is debugged. -/
theorem setDebug_none {g : Grammar} (hd : ∀ n ∈ g.rules, n.info.debug = false) : (g.setDebug fun _ => false) = g := by
  conv => rhs; rw [← setDebug_self g]
  unfold Grammar.setDebug
  congr 1
  apply List.ext_getElem?
  intro i
  rw [List.getElem?_mapIdx, List.getElem?_mapIdx]
  cases hb : g.rules[i]? with
  | none => rfl
  | some n => simp only [Option.map_some, hb, hd n (List.mem_of_getElem? hb)]

theorem traced_seen {g : Grammar} (hd : ∀ n ∈ g.rules, n.info.debug = false ∧ n.info.skipCache = false) (ops : Ops V H) (tr : Trace) (opts : List ParseOption) (k : Nat) (h : H) (text : Bytes) :
    (parseString ops g tr opts k h text).1.seen = (parseString ops g {} [] k h text).1.seen ∨ TraceFailed tr opts text (parseString ops g tr opts k h text).1 := by
  have := C39_tracing_partial ops g (fun _ => false) tr opts k h text
  rw [setDebug_none fun n hn => (hd n hn).1] at this
  rcases this with h | ⟨e, he, (⟨hp, (⟨rfl, hb⟩ | ⟨rfl, n, hn, hs⟩)⟩ | ⟨h1, h2, rfl⟩)⟩
  · exact .inl h
  · refine .inr (.inl ⟨he, hp.resolve_right ?_, hb⟩)
    rintro ⟨n, hn, h⟩
    rw [(hd n hn).1] at h
    cases h
  · rw [(hd n hn).2] at hs
    cases hs
  · exact .inr (.inr ⟨he, h1, h2⟩)

theorem gives_of_seen {text : Bytes} {r : VRes V} {o o' : Out (Outcome V × St V H)} (hs : o.seen = o'.seen) (h : Gives text r o') : Gives text r o := by
  have key : ∀ (a : Outcome V) (s : St V H), o' = .ok (a, s) → ∃ s', o = .ok (a, s') ∧ s'.pos = s.pos := by
    rintro a s rfl
    match o, hs with
    | .ok (a', s'), hs =>
      simp only [Out.seen, Out.ok.injEq, Prod.mk.injEq] at hs
      exact ⟨s', by rw [hs.1], hs.2.2.2⟩
    | .panic e, hs => cases hs
    | .oof, hs => cases hs
  match r with
  | .error e =>
    simp only [Gives] at h ⊢
    subst h
    match o, hs with
    | .ok (a, s), hs => cases hs
    | .panic e, hs => cases hs; rfl
    | .oof, hs => cases hs
  | .ok none =>
    simp only [Gives] at h ⊢
    split <;> rename_i ht
    · rw [if_pos ht] at h
      obtain ⟨s, h⟩ := h
      obtain ⟨s', h, _⟩ := key _ _ h
      exact ⟨s', h⟩
    · rw [if_neg ht] at h
      obtain ⟨rep, s, h, hp⟩ := h
      obtain ⟨s', h, hp'⟩ := key _ _ h
      exact ⟨rep, s', h, by rw [hp', hp]⟩
  | .ok (some (v, rest)) =>
    simp only [Gives] at h ⊢
    split <;> rename_i ht
    · rw [if_pos ht] at h
      obtain ⟨s, h⟩ := h
      obtain ⟨s', h, _⟩ := key _ _ h
      exact ⟨s', h⟩
    · rw [if_neg ht] at h
      obtain ⟨rep, s, h, hp⟩ := h
      obtain ⟨s', h, hp'⟩ := key _ _ h
      exact ⟨rep, s', h, by rw [hp', hp]⟩

theorem traced_gives {g : Grammar} (hd : ∀ n ∈ g.rules, n.info.debug = false ∧ n.info.skipCache = false) (ops : Ops V H) (tr : Trace) (opts : List ParseOption) (k : Nat) (h : H) (text : Bytes)
    {r : VRes V} {B : Prop} (hg : Gives text r (parseString ops g {} [] k h text).1 ∨ (B ∧ (parseString ops g {} [] k h text).1 = .panic .stackOverflow)) :
    Gives text r (parseString ops g tr opts k h text).1 ∨ (B ∧ (parseString ops g tr opts k h text).1 = .panic .stackOverflow) ∨
      TraceFailed tr opts text (parseString ops g tr opts k h text).1 := by
  rcases traced_seen hd ops tr opts k h text with hs | hf
  · rcases hg with hg | ⟨hb, hg⟩
    · exact .inl (gives_of_seen hs hg)
    · refine .inr (.inl ⟨hb, ?_⟩)
      rw [hg] at hs
      match (parseString ops g tr opts k h text).1, hs with
      | .ok (a, s), hs => cases hs
      | .panic e, hs => cases hs; rfl
      | .oof, hs => cases hs
  · exact .inr (.inr hf)

/-- C47: compiling a rule text of ASCII does not depend on tracing, whatever the text, in time or outcome. -/
theorem C47_tracing (rx : Bytes → Option Regex) (tr : Trace) (hl : tr.loop = true → tr.filterLine < 0) (k : Nat) (text : Bytes) (ha : ∀ b ∈ text, b < 0x80) :
    ∃ m, joesonMade = .ok m ∧ compileText rx m.g tr k text = compileText rx m.g {} k text := by
  obtain ⟨m, hm, hG⟩ := Joe.made
  refine ⟨m, hm, ?_⟩
  rw [hG]
  have hd : ∀ n ∈ Joe.G.rules, n.info.debug = false ∧ n.info.skipCache = false := by
    have : Joe.G.rules.all (fun n => !n.info.debug && !n.info.skipCache) = true := by decide +kernel
    intro n hn
    simpa using List.all_eq_true.mp this n hn
  have hs : (parseString ((joesonOps rx).ops Unit) Joe.G tr [] k () text).1.seen = (parseString ((joesonOps rx).ops Unit) Joe.G {} [] k () text).1.seen := by
    rcases traced_seen hd ((joesonOps rx).ops Unit) tr [] k () text with hs | (⟨_, _, b, hb, hb'⟩ | ⟨_, h1, h2⟩)
    · exact hs
    · exact absurd (ha b hb) (UInt8.not_lt.mpr hb')
    · exact absurd (hl h1) (by omega)
  unfold compileText
  match (parseString ((joesonOps rx).ops Unit) Joe.G tr [] k () text).1, (parseString ((joesonOps rx).ops Unit) Joe.G {} [] k () text).1, hs with
  | .ok (a, s), .ok (a', s'), hs =>
    simp only [Out.seen, Out.ok.injEq, Prod.mk.injEq] at hs
    rw [hs.1]
    cases a' <;> rfl
  | .panic e, .panic e', hs => cases hs; rfl
  | .oof, .oof, _ => rfl

/-- Rule texts of ASCII compile with any tracing. -/
theorem rule_texts_compile_traced (rx : Bytes → Option Regex) (tr0 : Trace) (h0 : tr0.loop = true → tr0.filterLine < 0) (L : List GLine)
    (hg : GoodNames L) (hL : AllLines (TextOk rx L) L) (hA : AllLines (fun e => ∀ b ∈ e.text, b < 0x80) L) (name : String) :
    ∃ lines m0, linesOf L = .ok lines ∧ joesonMade = .ok m0 ∧ ∃ k0, ∀ k, k0 ≤ k →
      AllLines (fun e => compileRule rx m0.g tr0 k e.text = .ok e.node ∧ ∀ nm ∈ e.vp.spliced, Labelled L nm) L ∧
      ∃ m, grammarFromLines (compileRule rx m0.g tr0 k) name lines = .ok m := by
  obtain ⟨lines, m0, hl, hm0, k0, hk0⟩ := rule_texts_compile rx {} rfl L hg hL name
  refine ⟨lines, m0, hl, hm0, k0, fun k hk => ?_⟩
  obtain ⟨hc, _⟩ := hk0 k hk
  have hc1 : AllLines (fun e => compileRule rx m0.g tr0 k e.text = .ok e.node ∧ e.Merges L) L := by
    refine lines_all_and (fun e he ha => ?_) L (lines_all_and (E := fun e => compileRule rx m0.g {} k e.text = .ok e.node ∧ e.Merges L) (fun e h h' => ⟨h.1, h'.merges⟩) L hc hL) hA
    obtain ⟨m, hm, h⟩ := C47_tracing rx tr0 h0 k e.text ha
    cases hm0.symm.trans hm
    refine ⟨?_, he.2⟩
    rw [← he.1, compileRule, compileRule, h]
  obtain ⟨m, hm⟩ := grammar_total hg hc1 name hl
  exact ⟨merges_labelled hc1, m, hm⟩

/-- C53 with any tracing and options, while the rule texts are compiled and while the text is parsed: the value is the one that the rule texts say, unless the tracing code itself panics. -/
theorem C53_traced_partial (rx : Bytes → Option Regex) (tr0 : Trace) (h0 : tr0.loop = true → tr0.filterLine < 0) (L : List GLine)
    (hg : GoodNames L) (hL : AllLines (TextOk rx L) L) (hA : AllLines (fun e => ∀ b ∈ e.text, b < 0x80) L) (name : String) :
    ∃ lines m0, linesOf L = .ok lines ∧ joesonMade = .ok m0 ∧ ∃ k0, ∀ k, k0 ≤ k →
      ∃ m, grammarFromLines (compileRule rx m0.g tr0 k) name lines = .ok m ∧
        ∀ (V H : Type) (P : PureOps V), (∀ v o, P.origin v o = v) → ∀ (tr : Trace) (opts : List ParseOption) (h : H) (text : Bytes) (d : Nat) (r : VRes V),
          Yields P text.length L d (.lines L) text r → ∃ k1, ∀ k', k1 ≤ k' →
            Gives text r (parseString (P.ops H) m.g tr opts k' h text).1 ∨
            (1024 < d ∧ (parseString (P.ops H) m.g tr opts k' h text).1 = .panic .stackOverflow) ∨
            TraceFailed tr opts text (parseString (P.ops H) m.g tr opts k' h text).1 := by
  obtain ⟨lines, m0, hl, hm0, k0, hk0⟩ := rule_texts_compile_traced rx tr0 h0 L hg hL hA name
  refine ⟨lines, m0, hl, hm0, k0, fun k hk => ?_⟩
  obtain ⟨hc, m, hm⟩ := hk0 k hk
  refine ⟨m, hm, ?_⟩
  intro V H P horigin tr opts h text d r hp
  obtain ⟨_, husual, _⟩ := grammar_implV hg hc hl hm
  obtain ⟨k1, hk1⟩ := C53_grammar_values_partial P horigin _ L hg hc name lines hl m hm {} rfl [] (by simp) h text d r hp
  exact ⟨k1, fun k' hk' => traced_gives husual _ tr opts k' h text (hk1 k' hk')⟩

/-- C57, the same. -/
theorem C57_traced_partial (rx : Bytes → Option Regex) (tr0 : Trace) (h0 : tr0.loop = true → tr0.filterLine < 0) (L : List GLine)
    (hg : GoodNames L) (hL : AllLines (TextOk rx L) L) (hA : AllLines (fun e => ∀ b ∈ e.text, b < 0x80) L) (name : String) :
    ∃ lines m0, linesOf L = .ok lines ∧ joesonMade = .ok m0 ∧ ∃ k0, ∀ k, k0 ≤ k →
      ∃ m, grammarFromLines (compileRule rx m0.g tr0 k) name lines = .ok m ∧
        ∀ (V H : Type) (P : PureOps V), (∀ v o, P.origin v o = v) → ∀ (tr : Trace) (opts : List ParseOption) (h : H) (text : Bytes) (d : Nat) (r : VRes V),
          YieldsL P text.length L none d (.lines L) text r → ∃ k1, ∀ k', k1 ≤ k' →
            Gives text r (parseString (P.ops H) m.g tr opts k' h text).1 ∨
            (1024 < d ∧ (parseString (P.ops H) m.g tr opts k' h text).1 = .panic .stackOverflow) ∨
            TraceFailed tr opts text (parseString (P.ops H) m.g tr opts k' h text).1 := by
  obtain ⟨lines, m0, hl, hm0, k0, hk0⟩ := rule_texts_compile_traced rx tr0 h0 L hg hL hA name
  refine ⟨lines, m0, hl, hm0, k0, fun k hk => ?_⟩
  obtain ⟨hc, m, hm⟩ := hk0 k hk
  refine ⟨m, hm, ?_⟩
  intro V H P horigin tr opts h text d r hp
  obtain ⟨_, husual, _⟩ := grammar_implV hg hc hl hm
  obtain ⟨k1, hk1⟩ := C57_grammar_left_recursion_partial P horigin _ L hg hc (mentions_words hL) name lines hl m hm {} rfl rfl [] (by simp) h text d r hp
  exact ⟨k1, fun k' hk' => traced_gives husual _ tr opts k' h text (hk1 k' hk')⟩

/-- C76, the same. -/
theorem C76_traced_partial (rx : Bytes → Option Regex) (tr0 : Trace) (h0 : tr0.loop = true → tr0.filterLine < 0) (L : List GLine)
    (hg : GoodNames L) (hL : AllLines (TextOk rx L) L) (hA : AllLines (fun e => ∀ b ∈ e.text, b < 0x80) L) (W : List String) (hW : HelpersOk L W) (name : String) :
    ∃ lines m0, linesOf L = .ok lines ∧ joesonMade = .ok m0 ∧ ∃ k0, ∀ k, k0 ≤ k →
      ∃ m, grammarFromLines (compileRule rx m0.g tr0 k) name lines = .ok m ∧
        ∀ (V H : Type) (P : PureOps V), (∀ v o, P.origin v o = v) → ∀ (tr : Trace) (opts : List ParseOption) (h : H) (text : Bytes) (d : Nat) (r : VRes V),
          YieldsI P text.length L W none d (.lines L) text r → ∃ k1, ∀ k', k1 ≤ k' →
            Gives text r (parseString (P.ops H) m.g tr opts k' h text).1 ∨
            (1024 < d ∧ (parseString (P.ops H) m.g tr opts k' h text).1 = .panic .stackOverflow) ∨
            TraceFailed tr opts text (parseString (P.ops H) m.g tr opts k' h text).1 := by
  obtain ⟨lines, m0, hl, hm0, k0, hk0⟩ := rule_texts_compile_traced rx tr0 h0 L hg hL hA name
  refine ⟨lines, m0, hl, hm0, k0, fun k hk => ?_⟩
  obtain ⟨hc, m, hm⟩ := hk0 k hk
  refine ⟨m, hm, ?_⟩
  intro V H P horigin tr opts h text d r hp
  obtain ⟨_, husual, _⟩ := grammar_implV hg hc hl hm
  obtain ⟨k1, hk1⟩ := C76_grammar_through_helpers_partial P horigin _ L hg hc (mentions_words hL) W hW name lines hl m hm {} rfl rfl [] (by simp) h text d r hp
  exact ⟨k1, fun k' hk' => traced_gives husual _ tr opts k' h text (hk1 k' hk')⟩

/-- All of it together: `E: E '-' N | N`, `N: [0-9]`, compiled and parsed with everything traced. ASCII texts never make the tracing code panic. -/
example {rx : Bytes → Option Regex} {re : Regex} (hrx : rx (asc "[0-9]") = some re) (hre : FindsDigit re) (h : H) (P : PureOps V) (ho : ∀ v o, P.origin v o = v)
    (opts : List ParseOption) :
    ∃ lines m0, linesOf (minusLines re) = .ok lines ∧ joesonMade = .ok m0 ∧ ∃ k0, ∀ k, k0 ≤ k →
      ∃ m, grammarFromLines (compileRule rx m0.g { stack := true, loop := true } k) "" lines = .ok m ∧
        ∃ k1, ∀ k', k1 ≤ k' → ∃ s, (parseString (P.ops H) m.g { stack := true, loop := true } opts k' h (asc "7-2-1")).1 =
          .ok (.value (P.arr [P.arr [P.str (asc "7"), P.str (asc "2")], P.str (asc "1")]), s) := by
  obtain ⟨lines, m0, hl, hm0, k0, hk⟩ := C57_traced_partial rx { stack := true, loop := true } (by decide) (minusLines re) (minus_names re) (minus_texts hrx)
    (by
      have h1 : ∀ b ∈ asc "E '-' N | N", b < 0x80 := by decide +kernel
      have h2 : ∀ b ∈ asc "[0-9]", b < 0x80 := by decide +kernel
      exact ⟨h1, h2, trivial⟩) ""
  refine ⟨lines, m0, hl, hm0, k0, fun k hkk => ?_⟩
  obtain ⟨m, hm, hv⟩ := hk k hkk
  refine ⟨m, hm, ?_⟩
  obtain ⟨k1, h1⟩ := hv V H P ho { stack := true, loop := true } opts h (asc "7-2-1") 2 _ (minus_yields (N := 5) (l := asc "21") hre (by decide) (by decide))
  refine ⟨k1, fun k' hk' => ?_⟩
  rcases h1 k' hk' with h1 | ⟨h1, _⟩ | (⟨_, _, h1⟩ | ⟨_, _, h1⟩)
  · exact h1
  · exact absurd h1 (by decide)
  · exact absurd h1 (by decide +kernel)
  · exact absurd h1 (by decide)

end Joeson
