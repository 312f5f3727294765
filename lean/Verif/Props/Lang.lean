import Verif.Proofs.Lang5
import Verif.Proofs.Lang6
import Verif.Proofs.Spliced
import Verif.Props.RuleText
/-!
# C51: a grammar written as rule texts
-/

namespace Joeson
open RuleText

variable {V H : Type}

/-- What `ParseString` should answer when matching the text leaves `x`: a value if the whole text is matched; a
`ParseError` at the place where the match ends otherwise; and when there is no match a `ParseError` at the beginning, or
nil if the text is empty. -/
def Recognises (text : Bytes) (x : Option Bytes) (o : Out (Outcome V × St V H)) : Prop :=
  match x with
  | some rest => if rest = [] then ∃ v s, o = .ok (.value v, s) else ∃ rep s, o = .ok (.error rep, s) ∧ text.drop s.pos = rest
  | none => if text = [] then ∃ s, o = .ok (.nil, s) else ∃ rep s, o = .ok (.error rep, s) ∧ s.pos = 0

theorem recognises_of_answers {P : PureOps V} {b : Bool} {text : Bytes} {r : Res V} {x : Option Bytes} (ha : Agrees P b text r x)
    {o : Out (Outcome V × St V H)} (h : Answers text r o) : Recognises text x o ∨ (b = false ∧ ∃ e, LabelPanic P e ∧ o = .panic e) := by
  match r with
  | .error e => exact .inr ⟨ha.1, e, ha.2, h⟩
  | .ok none =>
    cases ha
    exact .inl h
  | .ok (some (v, e)) =>
    obtain ⟨hle, rfl⟩ := ha
    refine .inl ?_
    simp only [Answers] at h
    unfold Recognises
    by_cases he : e = text.length
    · rw [if_pos he] at h
      obtain ⟨s, hs⟩ := h
      dsimp only
      rw [if_pos (by simp [he])]
      exact ⟨v, s, hs⟩
    · rw [if_neg he] at h
      obtain ⟨rep, s, hs, hp⟩ := h
      dsimp only
      rw [if_neg (by simp only [List.drop_eq_nil_iff]; omega)]
      exact ⟨rep, s, hs, by rw [hp]⟩

/-- The rules with a name can be told apart, and from alternatives without a name (parser_rank.go:20-46 calls the latter
`parent[index]`). -/
structure GoodNames (L : List GLine) : Prop where
  named : NamedLines L
  distinct : ((declsOf L).map (·.1)).Nodup
  noBracket : ∀ d ∈ declsOf L, '[' ∉ d.1.toList

theorem GoodNames.auto {L : List GLine} (h : GoodNames L) : ∀ d ∈ declsOf L, Auto d.1 = false := by
  intro d hd
  have := h.noBracket d hd
  simpa [Auto] using this

/-- A text that is supported in this grammar: of the supported syntax, nested at most 72 deep, and what it merges with `@:name`
are rules that are texts with labels, none of it optional. -/
structure TextOk (rx : Bytes → Option Regex) (L : List GLine) (e : Expr) : Prop where
  ok : e.Ok rx
  nest : e.nest ≤ 72
  merges : e.Merges L

/-- Texts without the label `@`. -/
theorem TextOk.plain {rx : Bytes → Option Regex} {L : List GLine} {e : Expr} (h1 : e.Ok rx) (h2 : e.nest ≤ 72) (h3 : e.NoAt) : TextOk rx L e :=
  ⟨h1, h2, h3.merges⟩

/-- C51, the building: whatever compiles the texts, the lines of a grammar with good names are accepted. -/
theorem grammar_total {compile : Bytes → Except Panic Node} {L : List GLine} (hg : GoodNames L) (hm : AllLines (fun e => compile e.text = .ok e.node ∧ e.Merges L) L) (name : String) {lines : List Line} (hl : linesOf L = .ok lines) :
    ∃ m, grammarFromLines compile name lines = .ok m := by
  classical
  have hf := lines_fine L hg.distinct
  have hc : AllLines (CompilesDef (fun nm => decide (Spliceable L nm)) compile) L :=
    lines_all_mono (fun e h => ⟨e.node, h.1, expr_plain e, expr_definite e (fun nm hn => by simpa using h.2.1 nm hn) h.2.2⟩) L hm
  have hc' : AllLines (Compiles false compile) L :=
    lines_all_mono (fun e h => ⟨e.node, h.1, expr_like e fun h => (by cases h), expr_plain e⟩) L hm
  have hcv : AllLines (CompilesV (Labelled L) compile) L := lines_all_mono (fun e h => ⟨h.1, fun nm hn => (h.2.1 nm hn).labelled⟩) L hm
  have hnd : (({ name := name } : Rank).names ++ inclNames L).Nodup := by
    simpa [Rank.names] using (inclNames_sub L).nodup hg.distinct
  obtain ⟨r, n, h1, hle, hfr, _, hdi, hda⟩ := rankLines_total L hc hf hl { name := name } hnd 1 1 (Nat.le_refl _)
    ⟨by simp [Rank.addrs, Rules.walkList], by simp [Rank.addrs, Rules.walkList], by simp [Rank.addrs, Rules.walkList]⟩ trivial trivial
  obtain ⟨incl, alts, e1, e2, t1, t2, _⟩ := rankLines_tree L hc' hf hl hnd h1
  simp only [List.nil_append] at e1 e2
  rw [← e1] at t1
  rw [← e2] at t2
  obtain ⟨incl', alts', e1', e2', v1, v2, _⟩ := rankLines_treeV L hcv hf hl hnd h1
  simp only [List.nil_append] at e1' e2'
  rw [← e1'] at v1
  rw [← e2'] at v2
  have hI := treeI_plain L t1
  have hA := treeA_plain L t2
  have hpl : (Rules.rank 0 false { name := r.name } r.incl r.alts).Plain :=
    .rank (fun x hx => (hI x hx).1) (fun x hx => (hA x hx).1) rfl (fun x hx => (hI x hx).2.1) (fun x hx => (hA x hx).2.1)
  obtain ⟨m, hm⟩ := postinit_total hpl ⟨hdi, hda⟩ (by
    have := hfr.nodup
    simpa [Rank.addrs, Rules.walk, addrsOf] using this) (by
    intro n s hconn
    simp only [connect, exceptBindOk, exceptPureOk, Prod.exists, Prod.mk.injEq] at hconn
    obtain ⟨l1, s1, hc1, l2, s2, hc2, _, rfl⟩ := hconn
    have ho1 := (connectList_listed _ Conn.ok_init hc1).1
    obtain ⟨g1, _⟩ := connectI_impl L t1 Conn.ok_init hc1
    obtain ⟨g2, _⟩ := connectA_impl L t2 ho1 hc2
    obtain ⟨ext, he, hk⟩ := g1.trans g2
    rw [he]
    intro e he
    exact (hk e (by simpa using he)).1) (fun hconn hprep nm hnm =>
      connect_follow t1 t2 v1 v2 hg.auto hg.distinct (lines_rules_all L (lines_all_mono (fun e h => h.2.2) L hm)) hconn hprep (by simpa using hnm))
  refine ⟨m, ?_⟩
  unfold grammarFromLines rankFromLines
  simp only [exceptBindOk, exceptPureOk, Prod.exists]
  exact ⟨_, ⟨r, n, h1, rfl⟩, hm⟩

/-- What a grammar made from lines has to do with them. -/
theorem grammar_impl {b : Bool} {compile : Bytes → Except Panic Node} {L : List GLine} (hg : GoodNames L)
    (hc : AllLines (Compiles b compile) L) {name : String} {lines : List Line} (hl : linesOf L = .ok lines) {m : Made}
    (h : grammarFromLines compile name lines = .ok m) :
    m.g.Built ∧ (∀ n ∈ m.g.rules, n.info.Usual) ∧
      (∀ nm y, (nm, y) ∈ declsOf L → ∃ id, m.g.lookup nm = some id ∧ Impl b m.g.rules y id) ∧
      ∃ i' l, m.g.root = .choice i' l ∧ ImplAlts b m.g.rules L l := by
  unfold grammarFromLines rankFromLines at h
  simp only [exceptBindOk, exceptPureOk, Prod.exists] at h
  obtain ⟨x, ⟨r, n, h1, rfl⟩, h2⟩ := h
  have hnd : (({ name := name } : Rank).names ++ inclNames L).Nodup := by
    simpa [Rank.names] using (inclNames_sub L).nodup hg.distinct
  obtain ⟨incl, alts, e1, e2, t1, t2, _⟩ := rankLines_tree L hc (lines_fine L hg.distinct) hl hnd h1
  simp only [List.nil_append] at e1 e2
  rw [← e1] at t1
  rw [← e2] at t2
  exact postinit_impl rfl rfl t1 t2 hg.auto hg.distinct h2

/-- The meaning of a text in a grammar made from lines. -/
theorem grammar_means {b : Bool} {P : PureOps V} (ht : TotalCb P) {g : Grammar} {L : List GLine}
    (hdecl : ∀ nm y, (nm, y) ∈ declsOf L → ∃ id, g.lookup nm = some id ∧ Impl b g.rules y id)
    (hroot : ∃ i' l, g.root = .choice i' l ∧ ImplAlts b g.rules L l) {text : Bytes} {d : Nat} {x : Option Bytes}
    (hp : Parses L d (.lines L) text x) : ∃ r, TextMeans P g text d r ∧ Agrees P b text r x := by
  obtain ⟨i, l, hr, ha⟩ := hroot
  have hdo : Does P g b text d (.node g.root) 0 x := by
    rw [hr]
    refine Does.node ht rfl ?_
    intro q
    obtain ⟨r, hm, hag⟩ := parses_does (text := text) ht hdecl hp 0 (Nat.zero_le _) List.drop_zero l ha q
    exact ⟨r, .choice hm, hag⟩
  exact hdo 0

/-- C51 for any way of compiling texts that is right about the texts of the grammar, and any depth. -/
theorem C51_grammar_parses_partial (P : PureOps V) (ht : TotalCb P) (compile : Bytes → Except Panic Node) (L : List GLine)
    (hg : GoodNames L) (hc : AllLines (fun e => compile e.text = .ok e.node) L) (name : String) (lines : List Line)
    (hl : linesOf L = .ok lines) (m : Made) (hm : grammarFromLines compile name lines = .ok m) (tr : Trace) (htr : tr.stack = false)
    (opts : List ParseOption) (ho : ∀ b, ParseOption.debug b ∈ opts → b = false) (h : H) (text : Bytes) (d : Nat) (x : Option Bytes)
    (hp : Parses L d (.lines L) text x) :
    ∃ k, ∀ k', k ≤ k' →
      Recognises text x (parseString (P.ops H) m.g tr opts k' h text).1 ∨
      (1024 < d ∧ (parseString (P.ops H) m.g tr opts k' h text).1 = .panic .stackOverflow) ∨
      (¬ AllLines Expr.Unlabelled L ∧ ∃ e, LabelPanic P e ∧ (parseString (P.ops H) m.g tr opts k' h text).1 = .panic e) := by
  have key : ∀ b : Bool, AllLines (Compiles b compile) L → ∃ k, ∀ k', k ≤ k' →
      (Recognises text x (parseString (P.ops H) m.g tr opts k' h text).1 ∨
        (b = false ∧ ∃ e, LabelPanic P e ∧ (parseString (P.ops H) m.g tr opts k' h text).1 = .panic e)) ∨
      (1024 < d ∧ (parseString (P.ops H) m.g tr opts k' h text).1 = .panic .stackOverflow) := by
    intro b hcb
    obtain ⟨hbuilt, hdebug, hdecl, hroot⟩ := grammar_impl hg hcb hl hm
    obtain ⟨r, hmean, hag⟩ := grammar_means ht hdecl hroot hp
    by_cases hd : d ≤ 1024
    · obtain ⟨k, hk⟩ := C22_engine_computes_peg P m.g hbuilt tr opts ⟨htr, ho, fun n hn => (hdebug n hn).1⟩ h text d hd r hmean
      exact ⟨k, fun k' hk' => .inl (recognises_of_answers hag (hk k' hk'))⟩
    · obtain ⟨k, hk⟩ := C22_peg_or_stack_overflow P m.g hbuilt tr opts ⟨htr, ho, fun n hn => (hdebug n hn).1⟩ h text d r hmean
      refine ⟨k, fun k' hk' => ?_⟩
      rcases hk k' hk' with h1 | h1
      · exact .inl (recognises_of_answers hag h1)
      · exact .inr ⟨by omega, h1⟩
  by_cases hu : AllLines Expr.Unlabelled L
  · obtain ⟨k, hk⟩ := key true (lines_all_and (fun e h1 h2 => ⟨e.node, h1, expr_like e fun _ => h2, expr_plain e⟩) L hc hu)
    refine ⟨k, fun k' hk' => ?_⟩
    rcases hk k' hk' with (h1 | h1) | h1
    · exact .inl h1
    · cases h1.1
    · exact .inr (.inl h1)
  · obtain ⟨k, hk⟩ := key false (lines_all_mono (fun e h1 => ⟨e.node, h1, expr_like e (fun h => by cases h), expr_plain e⟩) L hc)
    refine ⟨k, fun k' hk' => ?_⟩
    rcases hk k' hk' with (h1 | h1) | h1
    · exact .inl h1
    · exact .inr (.inr ⟨hu, h1.2⟩)
    · exact .inr (.inl h1)

/-- C51: a grammar written as rule texts is built — the texts being compiled by the grammar of rule texts of this library —
and `ParseString` recognises what the texts denote. -/
theorem C51_rule_text_grammar_partial (rx : Bytes → Option Regex) (tr0 : Trace) (htr0 : tr0.stack = false) (L : List GLine)
    (hg : GoodNames L) (hL : AllLines (TextOk rx L) L) (name : String) :
    ∃ lines m0, linesOf L = .ok lines ∧ joesonMade = .ok m0 ∧ ∃ k0, ∀ k, k0 ≤ k →
      ∃ m, grammarFromLines (compileRule rx m0.g tr0 k) name lines = .ok m ∧
        ∀ (V H : Type) (P : PureOps V), TotalCb P → ∀ tr : Trace, tr.stack = false → ∀ opts : List ParseOption,
          (∀ b, ParseOption.debug b ∈ opts → b = false) → ∀ (h : H) (text : Bytes) (d : Nat) (x : Option Bytes),
          Parses L d (.lines L) text x → ∃ k1, ∀ k', k1 ≤ k' →
            Recognises text x (parseString (P.ops H) m.g tr opts k' h text).1 ∨
            (1024 < d ∧ (parseString (P.ops H) m.g tr opts k' h text).1 = .panic .stackOverflow) ∨
            (¬ AllLines Expr.Unlabelled L ∧ ∃ e, LabelPanic P e ∧ (parseString (P.ops H) m.g tr opts k' h text).1 = .panic e) := by
  obtain ⟨lines, hl⟩ := linesOf_total L hg.named
  obtain ⟨m0, hm0, _⟩ := Joe.made
  refine ⟨lines, m0, hl, hm0, ?_⟩
  have hex : AllLines (fun e => ∃ k, (∀ k', k ≤ k' → compileRule rx m0.g tr0 k' e.text = .ok e.node) ∧ e.Merges L) L := by
    refine lines_all_mono (fun e he => ?_) L hL
    obtain ⟨m, hm, k, hk⟩ := C47_rule_text_compiles_partial rx tr0 htr0 e he.ok he.nest
    cases hm0.symm.trans hm
    refine ⟨k, fun k' hk' => ?_, he.merges⟩
    unfold compileRule
    rw [hk k' hk']
  obtain ⟨k0, hk0⟩ := lines_all_bound (fun k k' e hkk h => ⟨fun k'' h'' => h.1 k'' (Nat.le_trans hkk h''), h.2⟩) L hex
  refine ⟨k0, fun k hk => ?_⟩
  have hc := hk0 k hk
  have hc1 : AllLines (fun e => compileRule rx m0.g tr0 k e.text = .ok e.node ∧ e.Merges L) L :=
    lines_all_mono (fun e h => ⟨h.1 k (Nat.le_refl _), h.2⟩) L hc
  obtain ⟨m, hm⟩ := grammar_total hg hc1 name hl
  refine ⟨m, hm, ?_⟩
  intro V H P ht tr htr opts ho h text d x hp
  exact C51_grammar_parses_partial P ht _ L hg (lines_all_mono (fun e h => h.1) L hc1) name lines hl m hm tr htr opts ho h text d x hp

/-- C51: matching is a function: with distinct names the outcome is determined by the text. -/
theorem C51_outcome_unique (L : List GLine) (hg : GoodNames L) (text : Bytes) (d d' : Nat) (x y : Option Bytes)
    (hx : Parses L d (.lines L) text x) (hy : Parses L d' (.lines L) text y) : x = y :=
  parses_unique hg.distinct hx hy

namespace Sample

/-- A string of plain ASCII characters. -/
def litE (s : String) : Prim := .str (s.toList.map fun c => ⟨false, c.toNat⟩)

/-- `O(Named("Sum", "Term*'+'{1,}")), I(Named("Term", rank of O("'1' | '2'"), O(Named("Par", "'(' Sum ')'"))))` -/
def sumLines : List GLine :=
  [.alt "Sum" none (.text (.single (.one [] none (.starJoin (.ref (asc "Term")) (litE "+")
      (some ⟨[], some (asc "1"), [], [], none, []⟩))) [])),
   .incl "Term" none (.rank
    [.alt "" none (.text (.choice [] (.one [] none (.prim (litE "1"))) [0x20] (.one (.one [0x20] none (.prim (litE "2")))) [] [])),
     .alt "Par" none (.text (.single (.cons [] none (.prim (litE "(")) (.cons [0x20] none (.prim (.ref (asc "Sum")))
      (.one [0x20] none (.prim (litE ")"))))) []))])]

end Sample

open Sample in
/-- The texts of that grammar. -/
example : linesOf sumLines = .ok
    [.o "Sum" (.o "" (.s (asc "Term*'+'{1,}")) {}) {},
     .i "Term" (.a [.o "" (.s (asc "'1' | '2'")) {}, .o "Par" (.o "" (.s (asc "'(' Sum ')'")) {}) {}]) {}] := by
  rfl

open Sample in
theorem sumLines_names : GoodNames sumLines := by
  refine ⟨?_, ?_, ?_⟩
  · simp [sumLines, NamedLines, GLine.Named, Body.Named]
  · decide +kernel
  · decide +kernel

open Sample in
theorem sumLines_texts (rx : Bytes → Option Regex) : AllLines (TextOk rx sumLines) sumLines := by
  have hb : Blank [0x20] := by simp [Blank]
  have nolab : LabOk none := fun w h => by cases h
  have hl : ∀ c : Char, Piece.Ok 0x27 ⟨false, c.toNat⟩ ↔ (Spec.Scalar c.toNat ∧ c.toNat ≠ 0x27 ∧ c.toNat ≠ 0x5C) := by
    intro c; simp [Piece.Ok]
  have lit : ∀ s : String, (∀ c ∈ s.toList, c.toNat < 0x80 ∧ c.toNat ≠ 0x27 ∧ c.toNat ≠ 0x5C) → (litE s).Ok rx := by
    intro s h p hp
    obtain ⟨c, hc, rfl⟩ := List.mem_map.mp hp
    have := h c hc
    exact (hl c).mpr ⟨.inl (by omega), this.2⟩
  have num : Number (asc "1") := by unfold Number; decide +kernel
  have hother : OtherLabel none := fun w h => by cases h
  have term : Word (asc "Term") := ⟨0x54, [0x65, 0x72, 0x6D], rfl, by unfold Letter; decide, by unfold Letter; decide⟩
  have sum : Word (asc "Sum") := ⟨0x53, [0x75, 0x6D], rfl, by unfold Letter; decide, by unfold Letter; decide⟩
  refine ⟨⟨⟨⟨blank_nil, nolab, term, lit _ (by decide), ?_⟩, blank_nil, fun _ => rfl⟩, by decide, Expr.NoAt.merges ⟨hother, trivial, trivial⟩⟩,
    ⟨⟨⟨by simp, ⟨blank_nil, nolab, lit _ (by decide)⟩, rfl, hb, ⟨hb, nolab, lit _ (by decide)⟩, by simp, blank_nil, fun _ => ⟨rfl, rfl⟩⟩,
      by decide, Expr.NoAt.merges ⟨⟨hother, trivial⟩, hother, trivial⟩⟩,
     ⟨⟨⟨blank_nil, nolab, lit _ (by decide), ⟨hb, nolab, sum, ⟨hb, nolab, lit _ (by decide)⟩, by simp [Deco.apart, Units.lead]⟩, by simp [Deco.apart, Units.lead]⟩,
       blank_nil, fun _ => rfl⟩, by decide, Expr.NoAt.merges ⟨hother, trivial, hother, trivial, hother, trivial⟩⟩, trivial⟩, trivial⟩
  · intro b hb'
    cases hb'
    exact ⟨blank_nil, blank_nil, blank_nil, blank_nil, fun ds h => by cases h; exact num, fun ds h => by cases h⟩

open Sample in
/-- It matches a sum. -/
example : Parses sumLines 20 (.lines sumLines) (asc "1+(2+1)") (some []) := run_sound 60 _ _ _ _ (by decide +kernel)

open Sample in
/-- It matches the beginning of this one. -/
example : Parses sumLines 20 (.lines sumLines) (asc "1+(2+1") (some (asc "+(2+1")) := run_sound 60 _ _ _ _ (by decide +kernel)

open Sample in
/-- It does not match this one. -/
example : Parses sumLines 20 (.lines sumLines) (asc "+1") none := run_sound 60 _ _ _ _ (by decide +kernel)

open Sample in
/-- The whole of it: the grammar is built, and any text that the expressions match is given a value. -/
example (rx : Bytes → Option Regex) (P : PureOps V) (ht : TotalCb P) (text : Bytes) (hp : Parses sumLines 1024 (.lines sumLines) text (some [])) :
    ∃ lines m0, linesOf sumLines = .ok lines ∧ joesonMade = .ok m0 ∧ ∃ k m, grammarFromLines (compileRule rx m0.g {} k) "sums" lines = .ok m ∧
      ∃ k', ∃ v s, (parseString (P.ops Unit) m.g {} [] k' () text).1 = .ok (.value v, s) := by
  obtain ⟨lines, m0, h1, h2, k0, h3⟩ := C51_rule_text_grammar_partial rx {} rfl sumLines sumLines_names (sumLines_texts rx) "sums"
  obtain ⟨m, h4, h5⟩ := h3 k0 (Nat.le_refl _)
  obtain ⟨k1, h6⟩ := h5 V Unit P ht {} rfl [] (by simp) () text 1024 (some []) hp
  refine ⟨lines, m0, h1, h2, k0, m, h4, k1, ?_⟩
  rcases h6 k1 (Nat.le_refl _) with h | h | h
  · exact h
  · exact absurd h.1 (by decide)
  · exact absurd (by simp [sumLines, AllLines, GLine.All, Body.All, Expr.Unlabelled, Units.Unlabelled, Alts.Unlabelled, Deco.Unlabelled,
      Prim.Unlabelled, litE]) h.1

end Joeson
