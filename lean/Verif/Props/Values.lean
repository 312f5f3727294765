import Verif.Proofs.Values3
import Verif.Proofs.Values4
import Verif.Proofs.Means
import Verif.Props.Lang
/-!
# C53, C54: the values of a grammar written as rule texts
-/

namespace Joeson
open RuleText

variable {V H : Type}

/-- What `ParseString` should answer when matching the text has the outcome `r`: the value if the whole text is matched; a
`ParseError` at the place where the match ends otherwise; when there is no match a `ParseError` at the beginning, or nil
if the text is empty; a panic if there is one. -/
def Gives (text : Bytes) (r : VRes V) (o : Out (Outcome V × St V H)) : Prop :=
  match r with
  | .error e => o = .panic e
  | .ok (some (v, rest)) =>
    if rest = [] then ∃ s, o = .ok (.value v, s) else ∃ rep s, o = .ok (.error rep, s) ∧ text.drop s.pos = rest
  | .ok none => if text = [] then ∃ s, o = .ok (.nil, s) else ∃ rep s, o = .ok (.error rep, s) ∧ s.pos = 0

theorem gives_of_answers {text : Bytes} {r : VRes V} (hi : Inside text r) {o : Out (Outcome V × St V H)}
    (h : Answers text (toRes text.length r) o) : Gives text r o := by
  match r with
  | .error e => exact h
  | .ok none => exact h
  | .ok (some (v, rest)) =>
    have hs := hi v rest rfl
    have hle := hs.length_le
    simp only [toRes, Answers] at h
    simp only [Gives]
    by_cases he : rest = []
    · rw [if_pos he]
      rwa [if_pos (by simp [he])] at h
    · rw [if_neg he]
      have hpos : 0 < rest.length := List.length_pos_iff.mpr he
      rw [if_neg (by omega)] at h
      obtain ⟨rep, s, hs', hp⟩ := h
      exact ⟨rep, s, hs', by rw [hp, drop_pos hs]⟩

/-- What a grammar made from lines has to do with them, with labels, captures and callbacks. -/
theorem grammar_implV {compile : Bytes → Except Panic Node} {L : List GLine} (hg : GoodNames L)
    (hc : AllLines (CompilesV (Labelled L) compile) L) {name : String} {lines : List Line} (hl : linesOf L = .ok lines) {m : Made}
    (h : grammarFromLines compile name lines = .ok m) :
    m.g.Built ∧ (∀ n ∈ m.g.rules, n.info.Usual) ∧
      (∀ nm cb y, (nm, cb, y) ∈ rulesOf L → ∃ id, m.g.lookup nm = some id ∧ ImplV stage3 m.g.rules cb y id) ∧
      (∀ nm, Auto nm = false → ∀ id n, m.g.rules[id]? = some n → (m.g.lookup nm = some id ↔ n.info.name = nm)) ∧
      ∃ i' l, m.g.root = .choice i' l ∧ i'.label = "" ∧ i'.cb = none ∧ ImplVA stage3 m.g.rules L l := by
  unfold grammarFromLines rankFromLines at h
  simp only [exceptBindOk, exceptPureOk, Prod.exists] at h
  obtain ⟨x, ⟨r, n, h1, rfl⟩, h2⟩ := h
  have hnd : (({ name := name } : Rank).names ++ inclNames L).Nodup := by
    simpa [Rank.names] using (inclNames_sub L).nodup hg.distinct
  have hc' : AllLines (Compiles false compile) L :=
    lines_all_mono (fun e h => ⟨e.node, h.1, expr_like e fun h => (by cases h), expr_plain e⟩) L hc
  obtain ⟨incl, alts, e1, e2, t1, t2, _⟩ := rankLines_tree L hc' (lines_fine L hg.distinct) hl hnd h1
  obtain ⟨incl', alts', e1', e2', v1, v2, _⟩ := rankLines_treeV L hc (lines_fine L hg.distinct) hl hnd h1
  simp only [List.nil_append] at e1 e2 e1' e2'
  rw [← e1] at t1
  rw [← e2] at t2
  rw [← e1'] at v1
  rw [← e2'] at v2
  exact postinit_implV rfl rfl t1 t2 v1 v2 hg.auto hg.distinct h2

/-- The meaning of a text in a grammar made from lines. -/
theorem grammar_meansV {P : PureOps V} (ho : ∀ v o, P.origin v o = v) {g : Grammar} {L : List GLine}
    (hdecl : ∀ nm cb y, (nm, cb, y) ∈ rulesOf L → ∃ id, g.lookup nm = some id ∧ ImplV stage3 g.rules cb y id)
    (hroot : ∃ i' l, g.root = .choice i' l ∧ i'.label = "" ∧ i'.cb = none ∧ ImplVA stage3 g.rules L l) {text : Bytes} {d : Nat} {r : VRes V}
    (hp : Yields P text.length L d (.lines L) text r) : TextMeans P g text d (toRes text.length r) ∧ Inside text r := by
  obtain ⟨i, l, hr, hlab, hcb, ha⟩ := hroot
  obtain ⟨hin, hdo⟩ := yields_does ho hdecl hp (List.suffix_refl _)
  refine ⟨?_, hin⟩
  have hm := hdo l ha 0
  rw [Nat.sub_self] at hm
  unfold TextMeans
  rw [hr]
  refine .plain rfl ?_ (.choice hm)
  simp [Node.wraps, Node.info, Info.ownLabel, hlab, hcb]

/-- C53 for any way of compiling texts that is right about the texts of the grammar. -/
theorem C53_grammar_values_partial (P : PureOps V) (horigin : ∀ v o, P.origin v o = v) (compile : Bytes → Except Panic Node) (L : List GLine)
    (hg : GoodNames L) (hc : AllLines (fun e => compile e.text = .ok e.node ∧ ∀ nm ∈ e.vp.spliced, Labelled L nm) L) (name : String) (lines : List Line)
    (hl : linesOf L = .ok lines) (m : Made) (hm : grammarFromLines compile name lines = .ok m) (tr : Trace) (htr : tr.stack = false)
    (opts : List ParseOption) (ho : ∀ b, ParseOption.debug b ∈ opts → b = false) (h : H) (text : Bytes) (d : Nat) (r : VRes V)
    (hp : Yields P text.length L d (.lines L) text r) :
    ∃ k, ∀ k', k ≤ k' →
      Gives text r (parseString (P.ops H) m.g tr opts k' h text).1 ∨
      (1024 < d ∧ (parseString (P.ops H) m.g tr opts k' h text).1 = .panic .stackOverflow) := by
  obtain ⟨hbuilt, hdebug, hdecl, _, hroot⟩ := grammar_implV hg hc hl hm
  obtain ⟨hmean, hin⟩ := grammar_meansV horigin hdecl hroot hp
  by_cases hd : d ≤ 1024
  · obtain ⟨k, hk⟩ := C22_engine_computes_peg P m.g hbuilt tr opts ⟨htr, ho, fun n hn => (hdebug n hn).1⟩ h text d hd _ hmean
    exact ⟨k, fun k' hk' => .inl (gives_of_answers hin (hk k' hk'))⟩
  · obtain ⟨k, hk⟩ := C22_peg_or_stack_overflow P m.g hbuilt tr opts ⟨htr, ho, fun n hn => (hdebug n hn).1⟩ h text d _ hmean
    refine ⟨k, fun k' hk' => ?_⟩
    rcases hk k' hk' with h1 | h1
    · exact .inl (gives_of_answers hin h1)
    · exact .inr ⟨by omega, h1⟩

theorem merges_labelled {compile : Bytes → Except Panic Node} {L : List GLine} (h : AllLines (fun e => compile e.text = .ok e.node ∧ e.Merges L) L) :
    AllLines (fun e => compile e.text = .ok e.node ∧ ∀ nm ∈ e.vp.spliced, Labelled L nm) L :=
  lines_all_mono (fun e h => ⟨h.1, fun nm hn => (h.2.1 nm hn).labelled⟩) L h

/-- C53: a grammar written as rule texts is built — the texts being compiled by the grammar of rule texts of this library —
and `ParseString` gives the value that the texts say: of labels, captures, sequences, optional ones, repetitions and
callbacks, which may also reject or panic. -/
theorem C53_rule_text_values_partial (rx : Bytes → Option Regex) (tr0 : Trace) (htr0 : tr0.stack = false) (L : List GLine)
    (hg : GoodNames L) (hL : AllLines (TextOk rx L) L) (name : String) :
    ∃ lines m0, linesOf L = .ok lines ∧ joesonMade = .ok m0 ∧ ∃ k0, ∀ k, k0 ≤ k →
      ∃ m, grammarFromLines (compileRule rx m0.g tr0 k) name lines = .ok m ∧
        ∀ (V H : Type) (P : PureOps V), (∀ v o, P.origin v o = v) → ∀ tr : Trace, tr.stack = false → ∀ opts : List ParseOption,
          (∀ b, ParseOption.debug b ∈ opts → b = false) → ∀ (h : H) (text : Bytes) (d : Nat) (r : VRes V),
          Yields P text.length L d (.lines L) text r → ∃ k1, ∀ k', k1 ≤ k' →
            Gives text r (parseString (P.ops H) m.g tr opts k' h text).1 ∨
            (1024 < d ∧ (parseString (P.ops H) m.g tr opts k' h text).1 = .panic .stackOverflow) := by
  obtain ⟨lines, hl⟩ := linesOf_total L hg.named
  obtain ⟨m0, hm0, _⟩ := Joe.made
  refine ⟨lines, m0, hl, hm0, ?_⟩
  have hex : AllLines (fun e => ∃ k, (∀ k', k ≤ k' → compileRule rx m0.g tr0 k' e.text = .ok e.node) ∧ e.Merges L) L := by
    refine lines_all_mono (fun e he => ?_) L hL
    obtain ⟨m, hm, k, hk⟩ := C47_rule_text_compiles_partial rx tr0 htr0 e he.ok he.nest
    cases hm0.symm.trans hm
    refine ⟨k, fun k' hk' => ?_, he.merges⟩
    unfold compileRule
    rw [hk k' hk']
  obtain ⟨k0, hk0⟩ := lines_all_bound (fun k k' e hkk h => ⟨fun k'' h'' => h.1 k'' (Nat.le_trans hkk h''), h.2⟩) L hex
  refine ⟨k0, fun k hk => ?_⟩
  have hc := hk0 k hk
  have hc1 : AllLines (fun e => compileRule rx m0.g tr0 k e.text = .ok e.node ∧ e.Merges L) L :=
    lines_all_mono (fun e h => ⟨h.1 k (Nat.le_refl _), h.2⟩) L hc
  obtain ⟨m, hm⟩ := grammar_total hg hc1 name hl
  refine ⟨m, hm, ?_⟩
  intro V H P horigin tr htr opts ho h text d r hp
  exact C53_grammar_values_partial P horigin _ L hg (merges_labelled hc1) name lines hl m hm tr htr opts ho h text d r hp

theorem toRes_inj {text : Bytes} {r r' : VRes V} (hr : Inside text r) (hr' : Inside text r') (h : toRes text.length r = toRes text.length r') :
    r = r' := by
  match r, r' with
  | .error e, .error e' => simpa [toRes] using h
  | .error e, .ok none => cases h
  | .error e, .ok (some (v, s)) => cases h
  | .ok none, .error e' => cases h
  | .ok none, .ok none => rfl
  | .ok none, .ok (some (v, s)) => cases h
  | .ok (some (v, s)), .error e' => cases h
  | .ok (some (v, s)), .ok none => cases h
  | .ok (some (v, s)), .ok (some (v', s')) =>
    simp only [toRes, Except.ok.injEq, Option.some.injEq, Prod.mk.injEq] at h
    have h1 := drop_pos (hr v s rfl)
    have h2 := drop_pos (hr' v' s' rfl)
    rw [h.2, h2] at h1
    rw [h.1, h1]

/-- C53: the value is determined by the text. -/
theorem C53_value_unique (rx : Bytes → Option Regex) (L : List GLine) (hg : GoodNames L) (hL : AllLines (TextOk rx L) L)
    (P : PureOps V) (horigin : ∀ v o, P.origin v o = v) (text : Bytes) (d d' : Nat) (r r' : VRes V)
    (h : Yields P text.length L d (.lines L) text r) (h' : Yields P text.length L d' (.lines L) text r') : r = r' := by
  obtain ⟨lines, m0, hl, hm0, k0, hk⟩ := C53_rule_text_values_partial rx {} rfl L hg hL "unique"
  obtain ⟨lines', hl'⟩ := linesOf_total L hg.named
  cases hl.symm.trans hl'
  have hex : AllLines (fun e => ∃ k, (∀ k', k ≤ k' → compileRule rx m0.g {} k' e.text = .ok e.node) ∧ e.Merges L) L := by
    refine lines_all_mono (fun e he => ?_) L hL
    obtain ⟨m, hm, k, hk⟩ := C47_rule_text_compiles_partial rx {} rfl e he.ok he.nest
    cases hm0.symm.trans hm
    refine ⟨k, fun k' hk' => ?_, he.merges⟩
    unfold compileRule
    rw [hk k' hk']
  obtain ⟨k1, hk1⟩ := lines_all_bound (fun k k' e hkk h => ⟨fun k'' h'' => h.1 k'' (Nat.le_trans hkk h''), h.2⟩) L hex
  obtain ⟨m, hm, _⟩ := hk (max k0 k1) (Nat.le_max_left _ _)
  have hc := hk1 (max k0 k1) (Nat.le_max_right _ _)
  obtain ⟨_, _, hdecl, _, hroot⟩ := grammar_implV hg (lines_all_mono (fun e h => ⟨h.1 _ (Nat.le_refl _), fun nm hn => (h.2.1 nm hn).labelled⟩) L hc) hl hm
  obtain ⟨m1, i1⟩ := grammar_meansV horigin hdecl hroot h
  obtain ⟨m2, i2⟩ := grammar_meansV horigin hdecl hroot h'
  exact toRes_inj i1 i2 (Means.unique m1 m2)

end Joeson
