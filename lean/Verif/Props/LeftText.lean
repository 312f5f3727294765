import Verif.Proofs.LeftText
import Verif.Proofs.LeftText2
import Verif.Proofs.Mentions
import Verif.Props.LeftRank
import Verif.Props.Values2
/-!
# C57: left recursion in a grammar written as rule texts
-/

namespace Joeson
open RuleText

variable {V H : Type}

mutual
theorem lineRules_named : ∀ (l : GLine), l.Named → ∀ d ∈ l.rules, d.1 ≠ "" ∧ (d.1, d.2.2) ∈ l.decls
  | .alt nm cb y, h, d, hd => by
    simp only [GLine.Named] at h
    simp only [GLine.rules, GLine.decls, List.mem_append] at hd ⊢
    rcases hd with hd | hd
    · split at hd
      · cases hd
      · rename_i hne
        cases List.mem_singleton.mp hd
        exact ⟨hne, .inl (by rw [if_neg hne]; exact List.mem_cons_self ..)⟩
    · have := bodyRules_named y h d hd
      exact ⟨this.1, .inr this.2⟩
  | .incl nm cb y, h, d, hd => by
    simp only [GLine.Named] at h
    simp only [GLine.rules, GLine.decls, List.mem_cons] at hd ⊢
    rcases hd with hd | hd
    · cases hd
      exact ⟨h.1, .inl rfl⟩
    · have := bodyRules_named y h.2 d hd
      exact ⟨this.1, .inr this.2⟩
theorem bodyRules_named : ∀ (y : Body), y.Named → ∀ d ∈ y.rules, d.1 ≠ "" ∧ (d.1, d.2.2) ∈ y.decls
  | .text _, _, d, hd => by simp only [Body.rules] at hd; cases hd
  | .rank ls, h, d, hd => by
    simp only [Body.Named] at h
    simp only [Body.rules, Body.decls] at hd ⊢
    exact rulesOf_named ls h d hd
theorem rulesOf_named : ∀ (ls : List GLine), NamedLines ls → ∀ d ∈ rulesOf ls, d.1 ≠ "" ∧ (d.1, d.2.2) ∈ declsOf ls
  | [], _, d, hd => by simp only [rulesOf] at hd; cases hd
  | l :: ls, h, d, hd => by
    simp only [NamedLines] at h
    simp only [rulesOf, declsOf, List.mem_append] at hd ⊢
    rcases hd with hd | hd
    · have := lineRules_named l h.1 d hd
      exact ⟨this.1, .inl this.2⟩
    · have := rulesOf_named ls h.2 d hd
      exact ⟨this.1, .inr this.2⟩
end

/-- The meaning of a text in a grammar made from lines, with left recursion. -/
theorem grammar_meansL {P : PureOps V} (ho : ∀ v o, P.origin v o = v) {g : Grammar} {L : List GLine} (hg : GoodNames L)
    (husual : ∀ n ∈ g.rules, n.info.Usual)
    (hdecl : ∀ nm cb y, (nm, cb, y) ∈ rulesOf L → ∃ id, g.lookup nm = some id ∧ ImplV stage3 g.rules cb y id)
    (hnames : ∀ nm, Auto nm = false → ∀ id n, g.rules[id]? = some n → (g.lookup nm = some id ↔ n.info.name = nm))
    (hroot : ∃ i' l, g.root = .choice i' l ∧ i'.label = "" ∧ i'.cb = none ∧ ImplVA stage3 g.rules L l)
    (hM : ∀ nm ∈ mentionsIn L, Auto nm = false) {C : Expr → Prop} (hF : Forest stage3 C g.rules)
    (htop : ∃ i' l, g.root = .choice i' l ∧ ∀ id, .rule id ∈ l → ¬ HasParent g.rules id) {text : Bytes} {d : Nat} {r : VRes V}
    (hp : YieldsL P text.length L none d (.lines L) text r) :
    TextMeansG (privacyOf (mentionsIn L) g) P g text d (toRes text.length r) ∧ Inside text r := by
  obtain ⟨i, l, hr, hlab, hcb, ha⟩ := hroot
  obtain ⟨i', l', hr', hno⟩ := htop
  rw [hr] at hr'
  cases hr'
  have hauto : ∀ d ∈ rulesOf L, Auto d.1 = false := fun d hd => hg.auto _ (rulesOf_named L hg.named d hd).2
  obtain ⟨hin, hdo⟩ := yieldsL_does ho hdecl hnames hauto (fun d hd => (rulesOf_named L hg.named d hd).1) husual hM hF hp trivial (List.suffix_refl _)
  refine ⟨?_, hin⟩
  have hm := hdo hauto l ha none 0 (.inl rfl) (fun id x h => by cases h) (.inl ⟨rfl, hno⟩)
  rw [Nat.sub_self] at hm
  unfold TextMeansG
  rw [hr]
  have hm' : MeansL (hidden (mentionsIn L) g) ⟨P, Stream.ofText text, g⟩ d none 0 (.node (.choice i l)) 0 (toRes text.length r) := by
    refine .plain rfl ?_ (.choice hm)
    simp [Node.wraps, Node.info, Info.ownLabel, hlab, hcb]
  exact hm'.eval

/-- C57 for any way of compiling texts that is right about the texts of the grammar. The texts do not mention the names that the
library makes up, such as `E[0]`. -/
theorem C57_grammar_left_recursion_partial (P : PureOps V) (horigin : ∀ v o, P.origin v o = v) (compile : Bytes → Except Panic Node) (L : List GLine)
    (hg : GoodNames L) (hc : AllLines (fun e => compile e.text = .ok e.node ∧ ∀ nm ∈ e.vp.spliced, Labelled L nm) L)
    (hM : ∀ nm ∈ mentionsIn L, nm.toList.contains '[' = false) (name : String) (lines : List Line)
    (hl : linesOf L = .ok lines) (m : Made) (hm : grammarFromLines compile name lines = .ok m) (tr : Trace) (htr : tr.stack = false)
    (hloop : tr.loop = false) (opts : List ParseOption) (ho : ∀ b, ParseOption.debug b ∈ opts → b = false) (h : H) (text : Bytes) (d : Nat)
    (r : VRes V) (hp : YieldsL P text.length L none d (.lines L) text r) :
    ∃ k, ∀ k', k ≤ k' →
      Gives text r (parseString (P.ops H) m.g tr opts k' h text).1 ∨
      (1024 < d ∧ (parseString (P.ops H) m.g tr opts k' h text).1 = .panic .stackOverflow) := by
  obtain ⟨hbuilt, husual, hdecl, hnames, hroot⟩ := grammar_implV hg hc hl hm
  obtain ⟨hF, htop⟩ := grammar_forest hg hc (mentionsIn_all L) hl hm
  obtain ⟨hmean, hin⟩ := grammar_meansL horigin hg husual hdecl hnames hroot hM hF htop hp
  obtain ⟨k, hk⟩ := answers_of_gpeg (privacyOf_ok hF htop) hbuilt (tr := tr) (opts := opts) ⟨htr, ho, fun n hn => (husual n hn).1⟩ hloop h hmean (B := 1024 < d)
    (by unfold stackCap; omega)
  refine ⟨k, fun k' hk' => ?_⟩
  rcases hk k' hk' with h1 | h1
  · exact .inr h1
  · exact .inl (gives_of_answers hin h1)

/-- What a grammar written as rule texts is built into, when the texts are compiled by the grammar of rule texts of this library. -/
theorem rule_texts_compile (rx : Bytes → Option Regex) (tr0 : Trace) (htr0 : tr0.stack = false) (L : List GLine)
    (hg : GoodNames L) (hL : AllLines (TextOk rx L) L) (name : String) :
    ∃ lines m0, linesOf L = .ok lines ∧ joesonMade = .ok m0 ∧ ∃ k0, ∀ k, k0 ≤ k →
      AllLines (fun e => compileRule rx m0.g tr0 k e.text = .ok e.node ∧ ∀ nm ∈ e.vp.spliced, Labelled L nm) L ∧
      ∃ m, grammarFromLines (compileRule rx m0.g tr0 k) name lines = .ok m := by
  obtain ⟨lines, hl⟩ := linesOf_total L hg.named
  obtain ⟨m0, hm0, _⟩ := Joe.made
  refine ⟨lines, m0, hl, hm0, ?_⟩
  have hex : AllLines (fun e => ∃ k, (∀ k', k ≤ k' → compileRule rx m0.g tr0 k' e.text = .ok e.node) ∧ e.Merges L) L := by
    refine lines_all_mono (fun e he => ?_) L hL
    obtain ⟨m, hm, k, hk⟩ := C47_rule_text_compiles_partial rx tr0 htr0 e he.ok he.nest
    cases hm0.symm.trans hm
    refine ⟨k, fun k' hk' => ?_, he.merges⟩
    unfold compileRule
    rw [hk k' hk']
  obtain ⟨k0, hk0⟩ := lines_all_bound (fun k k' e hkk h => ⟨fun k'' h'' => h.1 k'' (Nat.le_trans hkk h''), h.2⟩) L hex
  refine ⟨k0, fun k hk => ?_⟩
  have hc := hk0 k hk
  have hc1 : AllLines (fun e => compileRule rx m0.g tr0 k e.text = .ok e.node ∧ e.Merges L) L :=
    lines_all_mono (fun e h => ⟨h.1 k (Nat.le_refl _), h.2⟩) L hc
  obtain ⟨m, hm⟩ := grammar_total hg hc1 name hl
  exact ⟨merges_labelled hc1, m, hm⟩

/-- Names in rule texts have no brackets. -/
theorem mentions_words {rx : Bytes → Option Regex} {L : List GLine} (hL : AllLines (TextOk rx L) L) : ∀ nm ∈ mentionsIn L, Auto nm = false :=
  mentionsIn_of L (lines_all_mono (fun e he nm hnm => isWord_auto (expr_words e he.ok nm hnm)) L hL)

/-- C57: a grammar written as rule texts, in which rules may begin with themselves, or have alternatives that do: `ParseString`
gives the value that the texts say, where a rule that begins with itself is grown from a failure. -/
theorem C57_rule_text_left_recursion_partial (rx : Bytes → Option Regex) (tr0 : Trace) (htr0 : tr0.stack = false) (L : List GLine)
    (hg : GoodNames L) (hL : AllLines (TextOk rx L) L) (name : String) :
    ∃ lines m0, linesOf L = .ok lines ∧ joesonMade = .ok m0 ∧ ∃ k0, ∀ k, k0 ≤ k →
      ∃ m, grammarFromLines (compileRule rx m0.g tr0 k) name lines = .ok m ∧
        ∀ (V H : Type) (P : PureOps V), (∀ v o, P.origin v o = v) → ∀ tr : Trace, tr.stack = false → tr.loop = false →
          ∀ opts : List ParseOption, (∀ b, ParseOption.debug b ∈ opts → b = false) → ∀ (h : H) (text : Bytes) (d : Nat) (r : VRes V),
          YieldsL P text.length L none d (.lines L) text r → ∃ k1, ∀ k', k1 ≤ k' →
            Gives text r (parseString (P.ops H) m.g tr opts k' h text).1 ∨
            (1024 < d ∧ (parseString (P.ops H) m.g tr opts k' h text).1 = .panic .stackOverflow) := by
  obtain ⟨lines, m0, hl, hm0, k0, hk0⟩ := rule_texts_compile rx tr0 htr0 L hg hL name
  refine ⟨lines, m0, hl, hm0, k0, fun k hk => ?_⟩
  obtain ⟨hc, m, hm⟩ := hk0 k hk
  refine ⟨m, hm, ?_⟩
  intro V H P horigin tr htr hloop opts ho h text d r hp
  exact C57_grammar_left_recursion_partial P horigin _ L hg hc (mentions_words hL) name lines hl m hm tr htr hloop opts ho h text d r hp

/-- The meaning with left recursion is determined. -/
theorem TextMeansG.unique {X : Privacy} {P : PureOps V} {g : Grammar} {text : Bytes} {d d' : Nat} {r r' : Res V} (h : TextMeansG X P g text d r)
    (h' : TextMeansG X P g text d' r') : r = r' := by
  obtain ⟨k, hk⟩ := h
  obtain ⟨k', hk'⟩ := h'
  have h1 := Out.le_eq (gpeg_mono X.pv ⟨P, Stream.ofText text, g⟩ k (max k k') d (max d d') none none (Nat.le_max_left _ _) (Nat.le_max_left _ _) trivial
    g.root 0 0) (by rw [hk]; exact r.out_ne_oof)
  have h2 := Out.le_eq (gpeg_mono X.pv ⟨P, Stream.ofText text, g⟩ k' (max k k') d' (max d d') none none (Nat.le_max_right _ _) (Nat.le_max_right _ _) trivial
    g.root 0 0) (by rw [hk']; exact r'.out_ne_oof)
  have h3 := h1.symm.trans h2
  rw [hk, hk'] at h3
  match r, r' with
  | .error e, .error e' => simpa [Res.out] using h3
  | .error e, .ok x => simp [Res.out] at h3
  | .ok x, .error e => simp [Res.out] at h3
  | .ok x, .ok x' => simpa [Res.out] using h3

/-- In a grammar made from lines the meaning with left recursion extends the meaning without. -/
theorem C57_growth_extends_peg {P : PureOps V} {g : Grammar} {M : List String} (hF : Forest stage3 (fun e => ∀ nm ∈ e.vp.names, nm ∈ M) g.rules)
    (hroot : ∃ i' l, g.root = .choice i' l ∧ (∀ c ∈ l, ∃ id, c = .rule id) ∧ ∀ id, .rule id ∈ l → ¬ HasParent g.rules id) {text : Bytes} {d : Nat}
    {r : Res V} (hm : TextMeans P g text d r) : TextMeansG (privacyOf M g) P g text d r := by
  obtain ⟨k, hk⟩ := (means_iff _ _ _ _ _ _).mp hm
  obtain ⟨i, l, hr, hl, hno⟩ := hroot
  have hall : g.root.All (Shown (hidden M g) g) := by
    rw [hr]
    refine .choice trivial fun c hc => ?_
    obtain ⟨id, rfl⟩ := hl c hc
    exact .rule (Bool.eq_false_iff.mpr fun h => hno id hc (hidden_iff.mp h).1)
  refine ⟨k + 1, ?_⟩
  have := Out.le_eq (peg_le_gpeg (hidden M g) ⟨P, Stream.ofText text, g⟩ (forest_bodies hF) k d none g.root 0 0 (.inl hall) (fun _ _ h => absurd rfl h))
    (by rw [hk]; exact r.out_ne_oof)
  rw [← hk, ← this]
  rfl

/-- C57: the value is determined by the text; and it is that of C53 where that defines one, that is, without left recursion. -/
theorem C57_value_unique (rx : Bytes → Option Regex) (L : List GLine) (hg : GoodNames L) (hL : AllLines (TextOk rx L) L)
    (P : PureOps V) (horigin : ∀ v o, P.origin v o = v) (text : Bytes) (d d' : Nat) (r r' : VRes V)
    (h : YieldsL P text.length L none d (.lines L) text r) :
    (YieldsL P text.length L none d' (.lines L) text r' → r = r') ∧ (Yields P text.length L d' (.lines L) text r' → r = r') := by
  obtain ⟨lines, m0, hl, hm0, k0, hk⟩ := rule_texts_compile rx {} rfl L hg hL ""
  obtain ⟨hc, m, hm⟩ := hk k0 (Nat.le_refl _)
  obtain ⟨_, husual, hdecl, hnames, hroot⟩ := grammar_implV hg hc hl hm
  obtain ⟨hF, htop⟩ := grammar_forest hg hc (mentionsIn_all L) hl hm
  have hM := mentions_words hL
  obtain ⟨m1, i1⟩ := grammar_meansL horigin hg husual hdecl hnames hroot hM hF htop h
  constructor
  · intro h'
    obtain ⟨m2, i2⟩ := grammar_meansL horigin hg husual hdecl hnames hroot hM hF htop h'
    exact toRes_inj i1 i2 (m1.unique m2)
  · intro h'
    obtain ⟨m2, i2⟩ := grammar_meansV horigin hdecl hroot h'
    refine toRes_inj i1 i2 (m1.unique (C57_growth_extends_peg hF ?_ m2))
    obtain ⟨i', l', hr, _, _, ha⟩ := hroot
    obtain ⟨i'', l'', hr', hno⟩ := htop
    rw [hr] at hr'
    cases hr'
    exact ⟨i', l', hr, implVA_links L ha, hno⟩

/-! ## `E '-' N | N` -/

namespace Sample

/-- `[0-9]` -/
def digitCls (re : Regex) : Prim := .cls [⟨false, 0x30⟩, ⟨false, 0x2D⟩, ⟨false, 0x39⟩] re

/-- `O(Named("E", "E '-' N | N")), I(Named("N", "[0-9]"))` -/
def minusLines (re : Regex) : List GLine :=
  [.alt "E" none (.text (.choice [] (.cons [] none (.prim (.ref (asc "E"))) (.cons [0x20] none (.prim (litE "-")) (.one [0x20] none (.prim (.ref (asc "N"))))))
      [0x20] (.one (.one [0x20] none (.prim (.ref (asc "N"))))) [] [])),
   .incl "N" none (.text (.single (.one [] none (.prim (digitCls re))) []))]

/-- The texts. -/
example (re : Regex) : ∃ e e', minusLines re = [.alt "E" none (.text e), .incl "N" none (.text e')] ∧ e.text = asc "E '-' N | N" ∧ e'.text = asc "[0-9]" :=
  ⟨_, _, rfl, by kernel_rfl, by kernel_rfl⟩

end Sample

open Sample

/-- What the regular expression `[0-9]` finds at the beginning of a text: one digit. -/
def FindsDigit (re : Regex) : Prop :=
  (∀ c s, 0x30 ≤ c → c ≤ 0x39 → re.find (c :: s) = some (0, 1)) ∧ ∀ s n, re.find s = some (0, n) → ∃ c s', s = c :: s' ∧ 0x30 ≤ c ∧ c ≤ 0x39

/-- `-` and a digit, any number of times. -/
def minuses (l : Bytes) : Bytes := l.flatMap fun c => [0x2D, c]

theorem minus_names (re : Regex) : GoodNames (minusLines re) := by
  refine goodNames_of rfl ?_ ?_
  · show (["E", "N"] : List String).Nodup
    decide
  · intro d hd
    have : d.1 ∈ (["E", "N"] : List String) := by
      have := List.mem_map_of_mem (f := (·.1)) hd
      exact this
    revert this
    generalize d.1 = x
    intro hx
    simp only [List.mem_cons, List.not_mem_nil, or_false] at hx
    rcases hx with rfl | rfl <;> decide

theorem minus_texts {rx : Bytes → Option Regex} {re : Regex} (h : rx (asc "[0-9]") = some re) : AllLines (TextOk rx (minusLines re)) (minusLines re) := by
  refine textsOk_rx (by kernel_rfl) ?_
  simp only [minusLines, AllLines, GLine.All, Body.All, Expr.RxOk, Units.RxOk, Alts.RxOk, Deco.RxOk, Prim.RxOk, digitCls, litE, and_true, true_and]
  exact h

theorem minus_mentions (re : Regex) : "E" ∈ mentionsIn (minusLines re) ∧ "N" ∈ mentionsIn (minusLines re) := by
  have : mentionsIn (minusLines re) = ["E", "N", "N"] := by kernel_rfl
  rw [this]
  decide

/-- A part without a label of its own. -/
theorem _root_.Joeson.RuleText.YieldsL.bare {P : PureOps V} {N : Nat} {L : List GLine} {c : Around V} {d : Nat} {h : Bool} {p : VP} {s : Bytes} {r : VRes V}
    (hp : h = true ∨ p.outLab = "") (hy : YieldsL P N L c d (.core h p) s r) : YieldsL P N L c d (.part h p) s r := by
  have : own P h p r = r := by
    match r with
    | .error e => rfl
    | .ok none => rfl
    | .ok (some (v, s')) => rcases hp with rfl | hp <;> simp [own, *]
  exact this ▸ .part hy

/-- A rule that does not use the value of its left recursive calls. -/
theorem _root_.Joeson.RuleText.YieldsL.steady {P : PureOps V} {N : Nat} {L : List GLine} {c : Around V} {d : Nat} {nm : String} {cb : Option Nat} {b : Body}
    {s : Bytes} {r : VRes V} (hne : nm ≠ "") (hmem : nm ∈ mentionsIn L) (hy : ∀ x, YieldsL P N L (some (nm, s, x)) d (.body cb b) s r) : YieldsL P N L c d (.rule nm cb b) s r := by
  match r, hy with
  | .error e, hy => exact .grownPanic (n := 0) (fun _ => none) hne hmem rfl (fun i hi => by omega) (fun i hi => by omega) (hy none)
  | .ok none, hy => exact .grown (n := 0) (fun _ => none) hne hmem rfl (fun i hi => by omega) (fun h => h) fun i hi => hy none
  | .ok (some y), hy =>
    have h := YieldsL.grown (P := P) (N := N) (L := L) (c := c) (d := d) (cb := cb) (b := b) (s := s) (n := 1) (fun i => if i = 0 then none else some y) hne hmem rfl (fun i hi => ?_) (fun h => ?_) fun i hi => ?_
    · exact h
    · have : i = 0 := by omega
      subst this
      exact trivial
    · simp [Exceeds] at h
    · exact hy _

/-- `N` on a digit. -/
theorem digit_yields {P : PureOps V} {N : Nat} {re : Regex} (hre : FindsDigit re) {d : Nat} {c : Around V} (hc : ∀ x s, c ≠ some ("N", s, x)) (h : Bool)
    {a : UInt8} (ha : 0x30 ≤ a ∧ a ≤ 0x39) (s : Bytes) :
    YieldsL P N (minusLines re) c (d + 1) (.part h (.name "" "N" false)) (a :: s) (.ok (some (P.str [a], s))) := by
  refine YieldsL.bare (.inr rfl) (.name (cb := none) (b := .text (.single (.one [] none (.prim (digitCls re))) [])) (fun x => hc x _) (minus_mentions re).2 ?_ ?_)
  · simp [minusLines, rulesOf, GLine.rules, Body.rules]
  · refine YieldsL.steady (by decide) (minus_mentions re).2 fun x => ?_
    have h1 : YieldsL P N (minusLines re) (some ("N", a :: s, x)) d (.part false (.re "" re)) (a :: s) (.ok (some (P.str [a], s))) :=
      YieldsL.bare (.inr rfl) (YieldsL.re (n := 1) (hre.1 a s ha.1 ha.2))
    exact YieldsL.text (cb := none) (e := .single (.one [] none (.prim (digitCls re))) []) h1

/-- `E '-' N` -/
def minusSeq : List VP := [.name "" "E" false, .lit "" (asc "-"), .name "" "N" false]

/-- The value of `a-b-...`: the first digit, then an array for each that follows. -/
def minusValue (P : PureOps V) (a : UInt8) (l : Bytes) : V := l.foldl (fun v c => P.arr [v, P.str [c]]) (P.str [a])

/-- What `E` gives the `i`-th time. -/
def minusGrown (P : PureOps V) (a : UInt8) (l : Bytes) : Nat → Option (V × Bytes)
  | 0 => none
  | i + 1 => if i ≤ l.length then some (minusValue P a (l.take i), minuses (l.drop i)) else some (P.str [a], minuses l)

theorem minus_yields {P : PureOps V} {N : Nat} {re : Regex} (hre : FindsDigit re) {a : UInt8} (ha : 0x30 ≤ a ∧ a ≤ 0x39) {l : Bytes}
    (hl : ∀ c ∈ l, 0x30 ≤ c ∧ c ≤ 0x39) :
    YieldsL P N (minusLines re) none 2 (.lines (minusLines re)) (a :: minuses l) (.ok (some (minusValue P a l, []))) := by
  have hlen : ∀ l : Bytes, (minuses l).length = 2 * l.length := by
    intro l
    induction l with
    | nil => rfl
    | cons c l ih => simp only [minuses, List.flatMap_cons, List.length_append, List.length_cons, List.length_nil] at ih ⊢; omega
  have hend : minusGrown P a l (l.length + 1) = some (minusValue P a l, []) := by
    simp [minusGrown, minuses]
  rw [← hend]
  refine .altDone (.grown (minusGrown P a l) (by decide) (minus_mentions re).1 rfl ?_ ?_ ?_) (by simp [hend])
  · intro i hi
    match i with
    | 0 => simp [minusGrown, Exceeds]
    | i + 1 =>
      rw [minusGrown, minusGrown, if_pos (by omega), if_pos (by omega)]
      simp only [Exceeds, hlen, List.length_drop]
      omega
  · rw [hend, minusGrown, if_neg (by omega)]
    simp [Exceeds]
  · intro i hi
    have hN : ∀ (x : Option (V × Bytes)) (s : Bytes) (y : V) (t : Bytes), some ("E", a :: minuses l, x) ≠ some ("N", s, some (y, t)) := by
      intro x s y t h
      simp at h
    have hN : ∀ (y : Option (V × Bytes)) (s : Bytes), some ("E", a :: minuses l, minusGrown P a l i) ≠ some ("N", s, y) := by
      intro y s h
      simp at h
    have hfirst : YieldsL P N (minusLines re) (some ("E", a :: minuses l, minusGrown P a l i)) 1 (.part true (.name "" "E" false)) (a :: minuses l)
        (.ok (minusGrown P a l i)) := YieldsL.bare (.inl rfl) (.again rfl)
    have hform : formOf minusSeq = .array := by kernel_rfl
    have hbody : ∀ r, YieldsL P N (minusLines re) (some ("E", a :: minuses l, minusGrown P a l i)) 1 (.part false (.alt "" [.seq "" minusSeq, .name "" "N" false]))
        (a :: minuses l) (.ok r) → YieldsL P N (minusLines re) (some ("E", a :: minuses l, minusGrown P a l i)) 2
        (.body none (.text (.choice [] (.cons [] none (.prim (.ref (asc "E"))) (.cons [0x20] none (.prim (litE "-")) (.one [0x20] none (.prim (.ref (asc "N"))))))
          [0x20] (.one (.one [0x20] none (.prim (.ref (asc "N"))))) [] []))) (a :: minuses l) (.ok r) := by
      intro r h
      have h2 := YieldsL.text (cb := none) (e := .choice [] (.cons [] none (.prim (.ref (asc "E"))) (.cons [0x20] none (.prim (litE "-")) (.one [0x20] none (.prim (.ref (asc "N"))))))
          [0x20] (.one (.one [0x20] none (.prim (.ref (asc "N"))))) [] []) h
      match r with
      | none => exact h2
      | some (v, s) => exact h2
    have hlast : YieldsL P N (minusLines re) (some ("E", a :: minuses l, minusGrown P a l i)) 1 (.part false (.name "" "N" false)) (a :: minuses l)
        (.ok (some (P.str [a], minuses l))) := digit_yields hre hN false ha _
    refine hbody _ (YieldsL.bare (.inr rfl) (.alt ?_))
    have hmiss : YieldsL P N (minusLines re) (some ("E", a :: minuses l, minusGrown P a l i)) 1 (.part false (.seq "" minusSeq)) (a :: minuses l) (.ok none) →
        YieldsL P N (minusLines re) (some ("E", a :: minuses l, minusGrown P a l i)) 1 (.alts [.seq "" minusSeq, .name "" "N" false]) (a :: minuses l)
          (.ok (some (P.str [a], minuses l))) := fun h => .altsMiss h (.altsDone hlast (by simp))
    generalize some ("E", a :: minuses l, minusGrown P a l i) = c0 at hN hfirst hlast hmiss ⊢
    cases i with
    | zero =>
      exact hmiss (YieldsL.bare (.inr rfl) (.seq (.itemsMiss hfirst)))
    | succ i =>
      have hi' : i ≤ l.length := by omega
      by_cases he : i < l.length
      · have hd : l.drop i = l[i] :: l.drop (i + 1) := List.drop_eq_getElem_cons he
        have hx : minusGrown P a l (i + 1) = some (minusValue P a (l.take i), asc "-" ++ l[i] :: minuses (l.drop (i + 1))) := by
          rw [minusGrown, if_pos hi', hd]
          rfl
        have hy : minusGrown P a l (i + 1 + 1) = some (P.arr [minusValue P a (l.take i), P.str [l[i]]], minuses (l.drop (i + 1))) := by
          rw [minusGrown, if_pos (by omega)]
          unfold minusValue
          rw [List.take_succ_eq_append_getElem he, List.foldl_append]
          rfl
        rw [hy]
        rw [hx] at hfirst
        refine .altsDone (YieldsL.bare (.inr rfl) (.seq ?_)) (by simp)
        rw [hform]
        refine .itemsPut hfirst rfl (.itemsPut (YieldsL.bare (.inl rfl) .lit) rfl (.itemsPut (digit_yields hre hN true ?_ _) rfl (.itemsEnd rfl)))
        exact hl _ (List.getElem_mem he)
      · have he' : i = l.length := by omega
        have hx : minusGrown P a l (i + 1) = some (minusValue P a l, []) := by rw [he', hend]
        have hy : minusGrown P a l (i + 1 + 1) = some (P.str [a], minuses l) := by rw [minusGrown, if_neg (by omega)]
        rw [hy]
        rw [hx] at hfirst
        refine hmiss (YieldsL.bare (.inr rfl) (.seq ?_))
        rw [hform]
        refine .itemsPut hfirst rfl (.itemsMiss (YieldsL.bare (.inl rfl) (.litMiss fun s' h => ?_)))
        exact absurd h (by rw [show asc "-" = [0x2D] by kernel_rfl]; simp)

/-- C57: left recursion is left associative, for texts of any length. The grammar of the rules `E '-' N | N` and `[0-9]`, built
with the library's compiler of rule texts, gives `a-b-c-...` the value `[[[a b] c] ...]`. -/
theorem C57_minus_is_left_associative (rx : Bytes → Option Regex) (re : Regex) (hrx : rx (asc "[0-9]") = some re) (hre : FindsDigit re) :
    ∃ lines m0, linesOf (minusLines re) = .ok lines ∧ joesonMade = .ok m0 ∧ ∃ k0, ∀ k, k0 ≤ k →
      ∃ m, grammarFromLines (compileRule rx m0.g {} k) "minus" lines = .ok m ∧
        ∀ (V H : Type) (P : PureOps V), (∀ v o, P.origin v o = v) → ∀ (h : H) (a : UInt8) (l : Bytes), (∀ c ∈ a :: l, 0x30 ≤ c ∧ c ≤ 0x39) →
          ∃ k1, ∀ k', k1 ≤ k' → ∃ s, (parseString (P.ops H) m.g {} [] k' h (a :: l.flatMap fun c => [0x2D, c])).1 =
            .ok (.value (l.foldl (fun v c => P.arr [v, P.str [c]]) (P.str [a])), s) := by
  obtain ⟨lines, m0, hl, hm0, k0, hk0⟩ := C57_rule_text_left_recursion_partial rx {} rfl _ (minus_names re) (minus_texts hrx) "minus"
  refine ⟨lines, m0, hl, hm0, k0, fun k hk => ?_⟩
  obtain ⟨m, hm, hk1⟩ := hk0 k hk
  refine ⟨m, hm, ?_⟩
  intro V H P horigin h a l hal
  obtain ⟨k1, hk1⟩ := hk1 V H P horigin {} rfl rfl [] (by simp) h _ 2 _ (minus_yields hre (hal a (List.mem_cons_self ..)) fun c hc => hal c (List.mem_cons_of_mem _ hc))
  refine ⟨k1, fun k' hk' => ?_⟩
  rcases hk1 k' hk' with h | h
  · simpa [Gives, minuses, minusValue] using h
  · exact absurd h.1 (by decide)

namespace Sample

/-- `[0-9]`: the leftmost digit. -/
def digitRe : Regex where
  find s := (s.findIdx? fun c => decide (0x30 ≤ c ∧ c ≤ 0x39)).map fun i => (i, i + 1)
  bounds := by
    intro s a b h
    simp only [Option.map_eq_some_iff, Prod.mk.injEq] at h
    obtain ⟨i, hi, rfl, rfl⟩ := h
    obtain ⟨hlt, _⟩ := List.findIdx?_eq_some_iff_getElem.mp hi
    exact ⟨by omega, by omega⟩

/-- The hypotheses of `C57_minus_is_left_associative` can be met. -/
example : FindsDigit digitRe := by
  refine ⟨fun c s h1 h2 => ?_, fun s n h => ?_⟩
  · simp only [digitRe, List.findIdx?_cons]
    rw [if_pos (by simpa using ⟨h1, h2⟩)]
    rfl
  · simp only [digitRe, Option.map_eq_some_iff, Prod.mk.injEq] at h
    obtain ⟨i, hi, rfl, rfl⟩ := h
    obtain ⟨hlt, h1, _⟩ := List.findIdx?_eq_some_iff_getElem.mp hi
    match s, hlt, h1 with
    | c :: s, _, h1 => exact ⟨c, s, rfl, by simpa using h1⟩

/-- `O(Named("E", "l:E '-' r:N | N"), cb), I(Named("N", ...))` where `N` is a rank with the alternatives `'1'`, `'2'` and `'(' E ')'`:
left recursion inside parentheses inside left recursion. -/
def minusParens : List GLine :=
  [.alt "E" (some 0) (.text (.choice [] (.cons [] (some (asc "l")) (.prim (.ref (asc "E"))) (.cons [0x20] none (.prim (litE "-"))
      (.one [0x20] (some (asc "r")) (.prim (.ref (asc "N")))))) [0x20] (.one (.one [0x20] none (.prim (.ref (asc "N"))))) [] [])),
   .incl "N" none (.rank [
     .alt "" none (.text (.single (.one [] none (.prim (litE "1"))) [])),
     .alt "" none (.text (.single (.one [] none (.prim (litE "2"))) [])),
     .alt "Par" none (.text (.single (.cons [] none (.prim (litE "(")) (.cons [0x20] none (.prim (.ref (asc "E"))) (.one [0x20] none (.prim (litE ")"))))) []))])]

/-- The value of `1-(2-1-2)-1`. The callback makes a `user` value with the position where the match ends. -/
example : YieldsL pure 11 minusParens none 20 (.lines minusParens) (asc "1-(2-1-2)-1")
    (.ok (some (.user 11 [.map [("l", .user 9 [.map [("l", .user 1 [.str (asc "1")]),
        ("r", .user 8 [.map [("l", .user 6 [.map [("l", .user 4 [.str (asc "2")]), ("r", .str (asc "1"))]]), ("r", .str (asc "2"))]])]]),
      ("r", .str (asc "1"))]], []))) := lrun_sound 60 _ _ _ _ _ (by kernel_rfl)

example : GoodNames minusParens ∧ ∀ rx, AllLines (TextOk rx minusParens) minusParens := by
  refine ⟨goodNames_of rfl ?_ ?_, fun rx => textsOk_of rx (by kernel_rfl)⟩
  · show (["E", "N", "Par"] : List String).Nodup
    decide
  · intro d hd
    have : d.1 ∈ (["E", "N", "Par"] : List String) := by
      have := List.mem_map_of_mem (f := (·.1)) hd
      exact this
    revert this
    generalize d.1 = x
    intro hx
    simp only [List.mem_cons, List.not_mem_nil, or_false] at hx
    rcases hx with rfl | rfl | rfl <;> decide

/-- `O(Named("E", []Line{O("E '-' N", cb), O("N"), I(Named("N", "'1' | '2'"))}))`: the left recursive call is in an alternative of
the rule, as in examples/precedence/precedence_test.go lines 196-206. -/
def minusRankText : List GLine :=
  [.alt "E" none (.rank [
     .alt "" (some 0) (.text (.single (.cons [] none (.prim (.ref (asc "E"))) (.cons [0x20] none (.prim (litE "-"))
       (.one [0x20] none (.prim (.ref (asc "N")))))) [])),
     .alt "" none (.text (.single (.one [] none (.prim (.ref (asc "N")))) [])),
     .incl "N" none (.text (.choice [] (.one [] none (.prim (litE "1"))) [0x20] (.one (.one [0x20] none (.prim (litE "2")))) [] []))])]

/-- The value of `1-2-1`: left associative. -/
example : YieldsL pure 5 minusRankText none 20 (.lines minusRankText) (asc "1-2-1")
    (.ok (some (.user 5 [.arr [.user 3 [.arr [.str (asc "1"), .str (asc "2")]], .str (asc "1")]], []))) := lrun_sound 60 _ _ _ _ _ (by kernel_rfl)

example : GoodNames minusRankText ∧ ∀ rx, AllLines (TextOk rx minusRankText) minusRankText := by
  refine ⟨goodNames_of rfl ?_ ?_, fun rx => textsOk_of rx (by kernel_rfl)⟩
  · show (["E", "N"] : List String).Nodup
    decide
  · intro d hd
    have : d.1 ∈ (["E", "N"] : List String) := by
      have := List.mem_map_of_mem (f := (·.1)) hd
      exact this
    revert this
    generalize d.1 = x
    intro hx
    simp only [List.mem_cons, List.not_mem_nil, or_false] at hx
    rcases hx with rfl | rfl <;> decide

end Sample

end Joeson
