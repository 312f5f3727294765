import Verif.Proofs.Indirect3
import Verif.Proofs.Indirect4
/-!
# C76: left recursion through helper rules
-/

namespace Joeson
open RuleText

variable {V H : Type}

/-- What is known of a grammar made from lines, for helpers. -/
theorem grammar_privacyI {compile : Bytes → Except Panic Node} {L : List GLine} {W : List String} (hW : HelpersOk L W) (hg : GoodNames L)
    (hc : AllLines (CompilesV (Labelled L) compile) L) (hM : ∀ nm ∈ mentionsIn L, Auto nm = false) {name : String} {lines : List Line}
    (hl : linesOf L = .ok lines) {m : Made} (h : grammarFromLines compile name lines = .ok m) :
    (privacyI W (mentionsIn L) m.g).Ok m.g := by
  obtain ⟨_, _, hdecl, hnames, i, l, hr, _, _, ha⟩ := grammar_implV hg hc hl h
  obtain ⟨hF, i', l', hr', hno⟩ := grammar_forest hg hc (mentionsIn_all L) hl h
  obtain ⟨hC, hK⟩ := grammar_helpers hg hc hl h
  rw [hr] at hr'
  cases hr'
  exact privacyI_ok hF hW hdecl hnames (fun d hd => hg.auto _ (rulesOf_named L hg.named d hd).2) hM hC hK ⟨i, l, hr, ha, hno⟩

/-- The meaning of a text in a grammar made from lines, with helpers. -/
theorem grammar_meansI {P : PureOps V} (ho : ∀ v o, P.origin v o = v) {compile : Bytes → Except Panic Node} {L : List GLine} {W : List String}
    (hW : HelpersOk L W) (hg : GoodNames L) (hc : AllLines (CompilesV (Labelled L) compile) L) (hM : ∀ nm ∈ mentionsIn L, Auto nm = false) {name : String}
    {lines : List Line} (hl : linesOf L = .ok lines) {m : Made} (h : grammarFromLines compile name lines = .ok m) {text : Bytes} {d : Nat} {r : VRes V}
    (hp : YieldsI P text.length L W none d (.lines L) text r) :
    TextMeansG (privacyI W (mentionsIn L) m.g) P m.g text d (toRes text.length r) ∧ Inside text r := by
  have hX := grammar_privacyI hW hg hc hM hl h
  obtain ⟨_, husual, hdecl, hnames, i, l, hr, hlab, hcb, ha⟩ := grammar_implV hg hc hl h
  obtain ⟨hF, _⟩ := grammar_forest hg hc (mentionsIn_all L) hl h
  have hauto : ∀ d ∈ rulesOf L, Auto d.1 = false := fun d hd => hg.auto _ (rulesOf_named L hg.named d hd).2
  have hWA : ∀ nm ∈ W, Auto nm = false := by
    intro nm hnm
    obtain ⟨cb, b, hd⟩ := hW.decl nm hnm
    exact hauto _ hd
  obtain ⟨hin, hdo⟩ := yieldsI_does ho hdecl hnames hauto (fun d hd => (rulesOf_named L hg.named d hd).1) husual hM hWA hF hp trivial (List.suffix_refl _)
  refine ⟨?_, hin⟩
  have hm := hdo hauto l ha none 0 (.inl rfl) (.inl ⟨rfl, rfl, fun id hid => hX.root i l id hr hid⟩)
  rw [Nat.sub_self] at hm
  unfold TextMeansG
  rw [hr]
  have hm' : MeansL (closed W (mentionsIn L) m.g) ⟨P, Stream.ofText text, m.g⟩ d none 0 (.node (.choice i l)) 0 (toRes text.length r) := by
    refine .plain rfl ?_ (.choice hm)
    simp [Node.wraps, Node.info, Info.ownLabel, hlab, hcb]
  exact hm'.eval

/-- C76 with any compiler of the texts. -/
theorem C76_grammar_through_helpers_partial (P : PureOps V) (horigin : ∀ v o, P.origin v o = v) (compile : Bytes → Except Panic Node) (L : List GLine)
    (hg : GoodNames L) (hc : AllLines (fun e => compile e.text = .ok e.node ∧ ∀ nm ∈ e.vp.spliced, Labelled L nm) L)
    (hM : ∀ nm ∈ mentionsIn L, nm.toList.contains '[' = false) (W : List String) (hW : HelpersOk L W) (name : String) (lines : List Line)
    (hl : linesOf L = .ok lines) (m : Made) (hm : grammarFromLines compile name lines = .ok m) (tr : Trace) (htr : tr.stack = false)
    (hloop : tr.loop = false) (opts : List ParseOption) (ho : ∀ b, ParseOption.debug b ∈ opts → b = false) (h : H) (text : Bytes) (d : Nat)
    (r : VRes V) (hp : YieldsI P text.length L W none d (.lines L) text r) :
    ∃ k, ∀ k', k ≤ k' →
      Gives text r (parseString (P.ops H) m.g tr opts k' h text).1 ∨
      (1024 < d ∧ (parseString (P.ops H) m.g tr opts k' h text).1 = .panic .stackOverflow) := by
  obtain ⟨hbuilt, husual, _⟩ := grammar_implV hg hc hl hm
  obtain ⟨hmean, hin⟩ := grammar_meansI horigin hW hg hc hM hl hm hp
  obtain ⟨k, hk⟩ := answers_of_gpeg (grammar_privacyI hW hg hc hM hl hm) hbuilt (tr := tr) (opts := opts) ⟨htr, ho, fun n hn => (husual n hn).1⟩ hloop h hmean
    (B := 1024 < d) (by unfold stackCap; omega)
  refine ⟨k, fun k' hk' => ?_⟩
  rcases hk k' hk' with h1 | h1
  · exact .inr h1
  · exact .inl (gives_of_answers hin h1)

/-- C76: a grammar written as rule texts, in which a rule may begin with a helper that begins with that rule: `ParseString` gives
the value that the texts say, where the helper is part of the rule that calls it, and that rule is grown from a failure. -/
theorem C76_left_recursion_through_helpers_partial (rx : Bytes → Option Regex) (tr0 : Trace) (htr0 : tr0.stack = false) (L : List GLine)
    (hg : GoodNames L) (hL : AllLines (TextOk rx L) L) (W : List String) (hW : HelpersOk L W) (name : String) :
    ∃ lines m0, linesOf L = .ok lines ∧ joesonMade = .ok m0 ∧ ∃ k0, ∀ k, k0 ≤ k →
      ∃ m, grammarFromLines (compileRule rx m0.g tr0 k) name lines = .ok m ∧
        ∀ (V H : Type) (P : PureOps V), (∀ v o, P.origin v o = v) → ∀ tr : Trace, tr.stack = false → tr.loop = false →
          ∀ opts : List ParseOption, (∀ b, ParseOption.debug b ∈ opts → b = false) → ∀ (h : H) (text : Bytes) (d : Nat) (r : VRes V),
          YieldsI P text.length L W none d (.lines L) text r → ∃ k1, ∀ k', k1 ≤ k' →
            Gives text r (parseString (P.ops H) m.g tr opts k' h text).1 ∨
            (1024 < d ∧ (parseString (P.ops H) m.g tr opts k' h text).1 = .panic .stackOverflow) := by
  obtain ⟨lines, m0, hl, hm0, k0, hk0⟩ := rule_texts_compile rx tr0 htr0 L hg hL name
  refine ⟨lines, m0, hl, hm0, k0, fun k hk => ?_⟩
  obtain ⟨hc, m, hm⟩ := hk0 k hk
  refine ⟨m, hm, ?_⟩
  intro V H P horigin tr htr hloop opts ho h text d r hp
  exact C76_grammar_through_helpers_partial P horigin _ L hg hc (mentions_words hL) W hW name lines hl m hm tr htr hloop opts ho h text d r hp

/-- C76: the value is determined by the text. -/
theorem C76_value_unique (rx : Bytes → Option Regex) (L : List GLine) (hg : GoodNames L) (hL : AllLines (TextOk rx L) L) (W : List String)
    (hW : HelpersOk L W) (P : PureOps V) (horigin : ∀ v o, P.origin v o = v) (text : Bytes) (d d' : Nat) (r r' : VRes V)
    (h : YieldsI P text.length L W none d (.lines L) text r) (h' : YieldsI P text.length L W none d' (.lines L) text r') : r = r' := by
  obtain ⟨lines, m0, hl, hm0, k0, hk⟩ := rule_texts_compile rx {} rfl L hg hL ""
  obtain ⟨hc, m, hm⟩ := hk k0 (Nat.le_refl _)
  obtain ⟨m1, i1⟩ := grammar_meansI horigin hW hg hc (mentions_words hL) hl hm h
  obtain ⟨m2, i2⟩ := grammar_meansI horigin hW hg hc (mentions_words hL) hl hm h'
  exact toRes_inj i1 i2 (m1.unique m2)

/-- C76: if a text has a value as a whole then it does not matter which rules are taken to be helpers, if any. -/
theorem C76_helpers_agree (rx : Bytes → Option Regex) (L : List GLine) (hg : GoodNames L) (hL : AllLines (TextOk rx L) L) (W : List String)
    (hW : HelpersOk L W) (P : PureOps V) (horigin : ∀ v o, P.origin v o = v) (text : Bytes) (d d' : Nat) (hd : d ≤ 1024) (hd' : d' ≤ 1024) (v v' : V)
    (h : YieldsI P text.length L W none d (.lines L) text (.ok (some (v, [])))) :
    (∀ W', HelpersOk L W' → YieldsI P text.length L W' none d' (.lines L) text (.ok (some (v', []))) → v = v') ∧
    (YieldsL P text.length L none d' (.lines L) text (.ok (some (v', []))) → v = v') := by
  have key : ∀ {o : Out (Outcome V × St V Unit)}, Gives text (.ok (some (v, []))) o → Gives text (.ok (some (v', []))) o → v = v' := by
    intro o h1 h2
    simp only [Gives, if_true] at h1 h2
    obtain ⟨s, h1⟩ := h1
    obtain ⟨s', h2⟩ := h2
    rw [h1] at h2
    cases h2
    rfl
  obtain ⟨lines, m0, hl, hm0, k0, hk⟩ := C76_left_recursion_through_helpers_partial rx {} rfl L hg hL W hW ""
  constructor
  · intro W' hW' h'
    obtain ⟨lines', m0', hl', hm0', k0', hk'⟩ := C76_left_recursion_through_helpers_partial rx {} rfl L hg hL W' hW' ""
    cases hl.symm.trans hl'
    cases hm0.symm.trans hm0'
    obtain ⟨m, hm, h1⟩ := hk (max k0 k0') (Nat.le_max_left _ _)
    obtain ⟨m', hm', h2⟩ := hk' (max k0 k0') (Nat.le_max_right _ _)
    cases hm.symm.trans hm'
    obtain ⟨k1, h1⟩ := h1 V Unit P horigin {} rfl rfl [] (by simp) () text d _ h
    obtain ⟨k2, h2⟩ := h2 V Unit P horigin {} rfl rfl [] (by simp) () text d' _ h'
    rcases h1 (max k1 k2) (Nat.le_max_left _ _) with h1 | ⟨h1, _⟩
    · rcases h2 (max k1 k2) (Nat.le_max_right _ _) with h2 | ⟨h2, _⟩
      · exact key h1 h2
      · omega
    · omega
  · intro h'
    obtain ⟨lines', m0', hl', hm0', k0', hk'⟩ := C57_rule_text_left_recursion_partial rx {} rfl L hg hL ""
    cases hl.symm.trans hl'
    cases hm0.symm.trans hm0'
    obtain ⟨m, hm, h1⟩ := hk (max k0 k0') (Nat.le_max_left _ _)
    obtain ⟨m', hm', h2⟩ := hk' (max k0 k0') (Nat.le_max_right _ _)
    cases hm.symm.trans hm'
    obtain ⟨k1, h1⟩ := h1 V Unit P horigin {} rfl rfl [] (by simp) () text d _ h
    obtain ⟨k2, h2⟩ := h2 V Unit P horigin {} rfl rfl [] (by simp) () text d' _ h'
    rcases h1 (max k1 k2) (Nat.le_max_left _ _) with h1 | ⟨h1, _⟩
    · rcases h2 (max k1 k2) (Nat.le_max_right _ _) with h2 | ⟨h2, _⟩
      · exact key h1 h2
      · omega
    · omega

/-! ## `Sub | N` with `E '-' N` -/

namespace Sample

/-- `Sub | N` -/
def subOrN : Expr := .choice [] (.one [] none (.prim (.ref (asc "Sub")))) [0x20] (.one (.one [0x20] none (.prim (.ref (asc "N"))))) [] []

/-- `E '-' N` -/
def subE : Expr := .single (.cons [] none (.prim (.ref (asc "E"))) (.cons [0x20] none (.prim (litE "-")) (.one [0x20] none (.prim (.ref (asc "N")))))) []

/-- `[0-9]` -/
def digitE (re : Regex) : Expr := .single (.one [] none (.prim (digitCls re))) []

/-- `O(Named("E", "Sub | N")), I(Named("Sub", "E '-' N"), cb), I(Named("N", "[0-9]"))` -/
def subLines (cb : Option Nat) (re : Regex) : List GLine :=
  [.alt "E" none (.text subOrN), .incl "Sub" cb (.text subE), .incl "N" none (.text (digitE re))]

/-- The texts. -/
example (re : Regex) : subOrN.text = asc "Sub | N" ∧ subE.text = asc "E '-' N" ∧ (digitE re).text = asc "[0-9]" :=
  ⟨by kernel_rfl, by kernel_rfl, by kernel_rfl⟩

end Sample

open Sample

theorem sub_names (cb : Option Nat) (re : Regex) : GoodNames (subLines cb re) := by
  refine goodNames_of rfl ?_ ?_
  · show (["E", "Sub", "N"] : List String).Nodup
    decide
  · intro d hd
    have : d.1 ∈ (["E", "Sub", "N"] : List String) := List.mem_map_of_mem (f := (·.1)) hd
    revert this
    generalize d.1 = x
    intro hx
    simp only [List.mem_cons, List.not_mem_nil, or_false] at hx
    rcases hx with rfl | rfl | rfl <;> decide

theorem sub_texts {rx : Bytes → Option Regex} {re : Regex} (h : rx (asc "[0-9]") = some re) (cb : Option Nat) : AllLines (TextOk rx (subLines cb re)) (subLines cb re) := by
  refine textsOk_rx (by kernel_rfl) ?_
  simp only [subLines, subOrN, subE, digitE, AllLines, GLine.All, Body.All, Expr.RxOk, Units.RxOk, Alts.RxOk, Deco.RxOk, Prim.RxOk, digitCls, litE, and_true, true_and]
  exact h

theorem sub_mentions (cb : Option Nat) (re : Regex) : mentionsIn (subLines cb re) = ["Sub", "N", "E", "N"] := by kernel_rfl

theorem sub_rules (cb : Option Nat) (re : Regex) :
    rulesOf (subLines cb re) = [("E", none, .text subOrN), ("Sub", cb, .text subE), ("N", none, .text (digitE re))] := by kernel_rfl

/-- `Sub` is a helper: only `E` mentions it. -/
theorem sub_helpers (cb : Option Nat) (re : Regex) : HelpersOk (subLines cb re) ["Sub"] where
  decl := by
    intro nm h
    cases List.mem_singleton.mp h
    exact ⟨cb, .text subE, by rw [sub_rules]; simp⟩
  incl := by
    intro nm h
    cases List.mem_singleton.mp h
    have : altNamesIn (subLines cb re) = ["E"] := by kernel_rfl
    rw [this]
    decide
  once := by
    intro nm h
    cases List.mem_singleton.mp h
    have : countTextsIn (fun e => e.vp.names.contains "Sub") (subLines cb re) = 1 := by kernel_rfl
    omega
  up := by
    intro A nm B h nm' hnm' cb' b hd
    have hB : nm = "Sub" ∧ B = [] := by
      match A, h with
      | [], h => simp at h; exact ⟨h.1.symm, h.2⟩
      | a :: A, h => simp at h
    obtain ⟨rfl, rfl⟩ := hB
    cases List.mem_singleton.mp hnm'
    rw [sub_rules] at hd
    simp only [List.mem_cons, Prod.mk.injEq, List.not_mem_nil, or_false] at hd
    rcases hd with ⟨h, _⟩ | ⟨_, _, rfl⟩ | ⟨h, _⟩
    · exact absurd h (by decide)
    · have : (Body.text subE).mentions = ["E", "N"] := by kernel_rfl
      rw [this]
      decide
    · exact absurd h (by decide)

/-- A part without a label of its own. -/
theorem _root_.Joeson.RuleText.YieldsI.bare {P : PureOps V} {N : Nat} {L : List GLine} {W : List String} {c : Around V} {d : Nat} {h : Bool} {p : VP} {s : Bytes}
    {r : VRes V} (hp : h = true ∨ p.outLab = "") (hy : YieldsI P N L W c d (.core h p) s r) : YieldsI P N L W c d (.part h p) s r := by
  have : own P h p r = r := by
    match r with
    | .error e => rfl
    | .ok none => rfl
    | .ok (some (v, s')) => rcases hp with rfl | hp <;> simp [own, *]
  exact this ▸ .part hy

/-- A rule that does not use the value of its left recursive calls. -/
theorem _root_.Joeson.RuleText.YieldsI.steady {P : PureOps V} {N : Nat} {L : List GLine} {W : List String} {c : Around V} {d : Nat} {nm : String} {cb : Option Nat}
    {b : Body} {s : Bytes} {r : VRes V} (hW : nm ∉ W) (hc : ∀ y, c ≠ some (nm, s, y)) (hne : nm ≠ "") (hmem : nm ∈ mentionsIn L)
    (hy : ∀ x, YieldsI P N L W (some (nm, s, x)) d (.body cb b) s r) : YieldsI P N L W c d (.rule nm cb b) s r := by
  match r, hy with
  | .error e, hy => exact .grownPanic (n := 0) (fun _ => none) hW hc hne hmem rfl (fun i hi => by omega) (fun i hi => by omega) (hy none)
  | .ok none, hy => exact .grown (n := 0) (fun _ => none) hW hc hne hmem rfl (fun i hi => by omega) (fun h => h) fun i hi => hy none
  | .ok (some y), hy =>
    have h := YieldsI.grown (P := P) (N := N) (L := L) (W := W) (c := c) (d := d) (cb := cb) (b := b) (s := s) (n := 1) (fun i => if i = 0 then none else some y)
      hW hc hne hmem rfl (fun i hi => ?_) (fun h => ?_) fun i hi => ?_
    · exact h
    · have : i = 0 := by omega
      subst this
      exact trivial
    · simp [Exceeds] at h
    · exact hy _

/-- `N` on a digit. -/
theorem sub_digit {P : PureOps V} {N : Nat} {re : Regex} (hre : FindsDigit re) {d : Nat} {c : Around V} (hc : ∀ x s, c ≠ some ("N", s, x)) (h : Bool)
    {a : UInt8} (ha : 0x30 ≤ a ∧ a ≤ 0x39) (s : Bytes) :
    YieldsI P N (subLines none re) ["Sub"] c (d + 1) (.part h (.name "" "N" false)) (a :: s) (.ok (some (P.str [a], s))) := by
  have hM : "N" ∈ mentionsIn (subLines none re) := by rw [sub_mentions]; simp
  refine YieldsI.bare (.inr rfl) (.name (cb := none) (b := .text (digitE re)) (by decide) (fun x => hc x _) hM ?_ ?_)
  · rw [sub_rules]; simp
  · refine YieldsI.steady (by decide) (fun x => hc x _) (by decide) hM fun x => ?_
    have h1 : YieldsI P N (subLines none re) ["Sub"] (some ("N", a :: s, x)) d (.part false (.re "" re)) (a :: s) (.ok (some (P.str [a], s))) :=
      YieldsI.bare (.inr rfl) (YieldsI.re (n := 1) (hre.1 a s ha.1 ha.2))
    exact YieldsI.text (cb := none) (e := digitE re) h1

theorem sub_yields {P : PureOps V} {N : Nat} {re : Regex} (hre : FindsDigit re) {a : UInt8} (ha : 0x30 ≤ a ∧ a ≤ 0x39) {l : Bytes}
    (hl : ∀ c ∈ l, 0x30 ≤ c ∧ c ≤ 0x39) :
    YieldsI P N (subLines none re) ["Sub"] none 3 (.lines (subLines none re)) (a :: minuses l) (.ok (some (minusValue P a l, []))) := by
  have hlen : ∀ l : Bytes, (minuses l).length = 2 * l.length := by
    intro l
    induction l with
    | nil => rfl
    | cons c l ih => simp only [minuses, List.flatMap_cons, List.length_append, List.length_cons, List.length_nil] at ih ⊢; omega
  have hend : minusGrown P a l (l.length + 1) = some (minusValue P a l, []) := by
    simp [minusGrown, minuses]
  have hM : ∀ nm ∈ ["Sub", "N", "E"], nm ∈ mentionsIn (subLines none re) := by
    rw [sub_mentions]
    decide
  rw [← hend]
  refine .altDone (.grown (minusGrown P a l) (by decide) (by simp) (by decide) (hM _ (by decide)) rfl ?_ ?_ ?_) (by simp [hend])
  · intro i hi
    match i with
    | 0 => simp [minusGrown, Exceeds]
    | i + 1 =>
      rw [minusGrown, minusGrown, if_pos (by omega), if_pos (by omega)]
      simp only [Exceeds, hlen, List.length_drop]
      omega
  · rw [hend, minusGrown, if_neg (by omega)]
    simp [Exceeds]
  · intro i hi
    have hN : ∀ (y : Option (V × Bytes)) (s : Bytes), some ("E", a :: minuses l, minusGrown P a l i) ≠ some ("N", s, y) := by
      intro y s h
      simp at h
    have hfirst : YieldsI P N (subLines none re) ["Sub"] (some ("E", a :: minuses l, minusGrown P a l i)) 1 (.part true (.name "" "E" false)) (a :: minuses l)
        (.ok (minusGrown P a l i)) := YieldsI.bare (.inl rfl) (.again rfl)
    have hform : formOf minusSeq = .array := by kernel_rfl
    have hbody : ∀ r, YieldsI P N (subLines none re) ["Sub"] (some ("E", a :: minuses l, minusGrown P a l i)) 2 (.part false (.alt "" [.name "" "Sub" false, .name "" "N" false]))
        (a :: minuses l) (.ok r) → YieldsI P N (subLines none re) ["Sub"] (some ("E", a :: minuses l, minusGrown P a l i)) 3
        (.body none (.text subOrN)) (a :: minuses l) (.ok r) := by
      intro r h
      have h2 := YieldsI.text (cb := none) (e := subOrN) h
      match r with
      | none => exact h2
      | some (v, s) => exact h2
    have hsub : ∀ r, YieldsI P N (subLines none re) ["Sub"] (some ("E", a :: minuses l, minusGrown P a l i)) 1 (.part false (.seq "" minusSeq))
        (a :: minuses l) (.ok r) → YieldsI P N (subLines none re) ["Sub"] (some ("E", a :: minuses l, minusGrown P a l i)) 2
        (.part false (.name "" "Sub" false)) (a :: minuses l) (.ok r) := by
      intro r h
      refine YieldsI.bare (.inr rfl) (.help (by decide) rfl (cb := none) (b := .text subE) (by rw [sub_rules]; simp) ?_)
      have h2 := YieldsI.text (cb := none) (e := subE) h
      match r with
      | none => exact h2
      | some (v, s) => exact h2
    have hlast : YieldsI P N (subLines none re) ["Sub"] (some ("E", a :: minuses l, minusGrown P a l i)) 2 (.part false (.name "" "N" false)) (a :: minuses l)
        (.ok (some (P.str [a], minuses l))) := sub_digit hre hN false ha _
    refine hbody _ (YieldsI.bare (.inr rfl) (.alt ?_))
    have hmiss : YieldsI P N (subLines none re) ["Sub"] (some ("E", a :: minuses l, minusGrown P a l i)) 1 (.part false (.seq "" minusSeq)) (a :: minuses l) (.ok none) →
        YieldsI P N (subLines none re) ["Sub"] (some ("E", a :: minuses l, minusGrown P a l i)) 2 (.alts [.name "" "Sub" false, .name "" "N" false]) (a :: minuses l)
          (.ok (some (P.str [a], minuses l))) := fun h => .altsMiss (hsub _ h) (.altsDone hlast (by simp))
    generalize some ("E", a :: minuses l, minusGrown P a l i) = c0 at hN hfirst hlast hmiss hsub ⊢
    cases i with
    | zero =>
      exact hmiss (YieldsI.bare (.inr rfl) (.seq (.itemsMiss hfirst)))
    | succ i =>
      have hi' : i ≤ l.length := by omega
      by_cases he : i < l.length
      · have hd : l.drop i = l[i] :: l.drop (i + 1) := List.drop_eq_getElem_cons he
        have hx : minusGrown P a l (i + 1) = some (minusValue P a (l.take i), asc "-" ++ l[i] :: minuses (l.drop (i + 1))) := by
          rw [minusGrown, if_pos hi', hd]
          rfl
        have hy : minusGrown P a l (i + 1 + 1) = some (P.arr [minusValue P a (l.take i), P.str [l[i]]], minuses (l.drop (i + 1))) := by
          rw [minusGrown, if_pos (by omega)]
          unfold minusValue
          rw [List.take_succ_eq_append_getElem he, List.foldl_append]
          rfl
        rw [hy]
        rw [hx] at hfirst
        refine .altsDone (hsub _ (YieldsI.bare (.inr rfl) (.seq ?_))) (by simp)
        rw [hform]
        refine .itemsPut hfirst rfl (.itemsPut (YieldsI.bare (.inl rfl) .lit) rfl (.itemsPut (sub_digit hre hN true ?_ _) rfl (.itemsEnd rfl)))
        exact hl _ (List.getElem_mem he)
      · have he' : i = l.length := by omega
        have hx : minusGrown P a l (i + 1) = some (minusValue P a l, []) := by rw [he', hend]
        have hy : minusGrown P a l (i + 1 + 1) = some (P.str [a], minuses l) := by rw [minusGrown, if_neg (by omega)]
        rw [hy]
        rw [hx] at hfirst
        refine hmiss (YieldsI.bare (.inr rfl) (.seq ?_))
        rw [hform]
        refine .itemsPut hfirst rfl (.itemsMiss (YieldsI.bare (.inl rfl) (.litMiss fun s' h => ?_)))
        exact absurd h (by rw [show asc "-" = [0x2D] by kernel_rfl]; simp)

/-- C76: left recursion through a helper is left associative too, for texts of any length. The grammar of the rules `Sub | N`, `E '-' N`
and `[0-9]`, built with the library's compiler of rule texts, gives `a-b-c-...` the value `[[[a b] c] ...]`, the one that the grammar
with `E '-' N | N` gives (`C57_minus_is_left_associative`). -/
theorem C76_minus_through_helper (rx : Bytes → Option Regex) (re : Regex) (hrx : rx (asc "[0-9]") = some re) (hre : FindsDigit re) :
    ∃ lines m0, linesOf (subLines none re) = .ok lines ∧ joesonMade = .ok m0 ∧ ∃ k0, ∀ k, k0 ≤ k →
      ∃ m, grammarFromLines (compileRule rx m0.g {} k) "minus" lines = .ok m ∧
        ∀ (V H : Type) (P : PureOps V), (∀ v o, P.origin v o = v) → ∀ (h : H) (a : UInt8) (l : Bytes), (∀ c ∈ a :: l, 0x30 ≤ c ∧ c ≤ 0x39) →
          ∃ k1, ∀ k', k1 ≤ k' → ∃ s, (parseString (P.ops H) m.g {} [] k' h (a :: l.flatMap fun c => [0x2D, c])).1 =
            .ok (.value (l.foldl (fun v c => P.arr [v, P.str [c]]) (P.str [a])), s) := by
  obtain ⟨lines, m0, hl, hm0, k0, hk0⟩ :=
    C76_left_recursion_through_helpers_partial rx {} rfl _ (sub_names none re) (sub_texts hrx none) _ (sub_helpers none re) "minus"
  refine ⟨lines, m0, hl, hm0, k0, fun k hk => ?_⟩
  obtain ⟨m, hm, hk1⟩ := hk0 k hk
  refine ⟨m, hm, ?_⟩
  intro V H P horigin h a l hal
  obtain ⟨k1, hk1⟩ := hk1 V H P horigin {} rfl rfl [] (by simp) h _ 3 _ (sub_yields hre (hal a (List.mem_cons_self ..)) fun c hc => hal c (List.mem_cons_of_mem _ hc))
  refine ⟨k1, fun k' hk' => ?_⟩
  rcases hk1 k' hk' with h | h
  · simpa [Gives, minuses, minusValue] using h
  · exact absurd h.1 (by decide)

/-! ## Helpers of helpers -/

/-- `HelpersOk` as a function. -/
def helpersB (L : List GLine) : List String → Bool
  | [] => true
  | nm :: B => (rulesOf L).any (·.1 == nm) && !(altNamesIn L).contains nm && decide (countTextsIn (fun e => e.vp.names.contains nm) L ≤ 1) &&
      ((rulesOf L).all fun d => !((nm :: B).contains d.1 && d.2.2.mentions.contains nm)) && helpersB L B

theorem helpers_of {L : List GLine} : ∀ {W : List String}, helpersB L W = true → HelpersOk L W
  | [], _ => ⟨by simp, by simp, by simp, by simp⟩
  | nm :: B, h => by
    simp only [helpersB, Bool.and_eq_true, List.any_eq_true, beq_iff_eq, Bool.not_eq_true', decide_eq_true_eq, List.all_eq_true] at h
    obtain ⟨⟨⟨⟨⟨d, hd, rfl⟩, h2⟩, h3⟩, h4⟩, h5⟩ := h
    have ih := helpers_of h5
    refine ⟨?_, ?_, ?_, ?_⟩
    · intro x hx
      rcases List.mem_cons.mp hx with rfl | hx
      · exact ⟨d.2.1, d.2.2, hd⟩
      · exact ih.decl x hx
    · intro x hx
      rcases List.mem_cons.mp hx with rfl | hx
      · simpa using h2
      · exact ih.incl x hx
    · intro x hx
      rcases List.mem_cons.mp hx with rfl | hx
      · exact h3
      · exact ih.once x hx
    · intro A x B' he nm' hnm' cb b hb
      match A, he with
      | [], he =>
        simp only [List.nil_append, List.cons.injEq] at he
        obtain ⟨rfl, rfl⟩ := he
        intro hm
        have h6 := h4 _ hb
        have h7 : (d.1 :: B).contains nm' = true := by simpa using hnm'
        have h8 : b.mentions.contains d.1 = true := by simpa using hm
        rw [h7, h8] at h6
        cases h6
      | a :: A, he =>
        simp only [List.cons_append, List.cons.injEq] at he
        exact ih.up A x B' he.2 nm' hnm' cb b hb

namespace Sample

/-- A rule text that is one reference or literal. -/
def oneE (p : Prim) : Expr := .single (.one [] none (.prim p)) []

/-- `p | q` -/
def orE (p q : Prim) : Expr := .choice [] (.one [] none (.prim p)) [0x20] (.one (.one [0x20] none (.prim q))) [] []

/-- `l:p q r:r` -/
def threeE (p q r : Prim) : Expr :=
  .single (.cons [] (some (asc "l")) (.prim p) (.cons [0x20] none (.prim q) (.one [0x20] (some (asc "r")) (.prim r)))) []

/-- `O(Named("E", "Bin | N")), I(Named("Bin", "Add | Sub")), I(Named("Add", "l:E '+' r:N"), cb), I(Named("Sub", "l:E '-' r:N"), cb)` and
`I(Named("N", []Line{O("'1'"), O("'2'"), O("'(' E ')'")}))`: the helper `Bin` has helpers, and begins again inside parentheses. -/
def binLines : List GLine :=
  [.alt "E" none (.text (orE (.ref (asc "Bin")) (.ref (asc "N")))),
   .incl "Bin" none (.text (orE (.ref (asc "Add")) (.ref (asc "Sub")))),
   .incl "Add" (some 0) (.text (threeE (.ref (asc "E")) (litE "+") (.ref (asc "N")))),
   .incl "Sub" (some 1) (.text (threeE (.ref (asc "E")) (litE "-") (.ref (asc "N")))),
   .incl "N" none (.rank [
     .alt "" none (.text (oneE (litE "1"))),
     .alt "" none (.text (oneE (litE "2"))),
     .alt "" none (.text (.single (.cons [] none (.prim (litE "(")) (.cons [0x20] none (.prim (.ref (asc "E"))) (.one [0x20] none (.prim (litE ")"))))) []))])]

example : (orE (.ref (asc "Bin")) (.ref (asc "N"))).text = asc "Bin | N" ∧ (threeE (.ref (asc "E")) (litE "+") (.ref (asc "N"))).text = asc "l:E '+' r:N" :=
  ⟨by kernel_rfl, by kernel_rfl⟩

/-- The hypotheses of `C76_left_recursion_through_helpers_partial` are met. -/
example : GoodNames binLines ∧ (∀ rx, AllLines (TextOk rx binLines) binLines) ∧ HelpersOk binLines ["Bin", "Add", "Sub"] := by
  refine ⟨goodNames_of rfl ?_ ?_, fun rx => textsOk_of rx (by kernel_rfl), helpers_of (by kernel_rfl)⟩
  · show (["E", "Bin", "Add", "Sub", "N"] : List String).Nodup
    decide
  · intro d hd
    have : d.1 ∈ (["E", "Bin", "Add", "Sub", "N"] : List String) := by
      have := List.mem_map_of_mem (f := (·.1)) hd
      exact this
    revert this
    generalize d.1 = x
    intro hx
    simp only [List.mem_cons, List.not_mem_nil, or_false] at hx
    rcases hx with rfl | rfl | rfl | rfl | rfl <;> decide

/-- The value of `1-(2+1)+2`: what `Sub` makes of `1` and `2+1`, then `Add`. -/
example : YieldsI pure 9 binLines ["Bin", "Add", "Sub"] none 50 (.lines binLines) (asc "1-(2+1)+2")
    (.ok (some (.user 9 [.map [("l", .user 7 [.map [("l", .str (asc "1")),
        ("r", .user 6 [.map [("l", .str (asc "2")), ("r", .str (asc "1"))]])]]),
      ("r", .str (asc "2"))]], []))) := irun_sound 120 _ _ _ _ _ (by kernel_rfl)

/-- `Sub` may be called from one text only. -/
example : ¬ HelpersOk (.alt "" none (.text (oneE (.ref (asc "Sub")))) :: subLines none digitRe) ["Sub"] := fun h => by
  have := h.once "Sub" (by simp)
  have h2 : countTextsIn (fun e => e.vp.names.contains "Sub") (.alt "" none (.text (oneE (.ref (asc "Sub")))) :: subLines none digitRe) = 2 := by kernel_rfl
  omega

end Sample

end Joeson
