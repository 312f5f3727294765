import Verif.Proofs.Intention2
import Verif.Props.Total
import Verif.Proofs.Fuel
/-!
# C52: the grammar of rule texts compiles itself
-/

namespace Joeson
open RuleText Joe

variable {V H : Type}

theorem parseString_fuel (ops : Ops V H) (g : Grammar) (tr : Trace) (opts : List ParseOption) {k k' : Nat} (hk : k ≤ k') (h : H) (text : Bytes)
    (hn : (parseString ops g tr opts k h text).1 ≠ .oof) : parseString ops g tr opts k' h text = parseString ops g tr opts k h text := by
  unfold parseString grammarParse at hn ⊢
  dsimp only at hn ⊢
  rw [parse_fuel _ hk]
  intro ho
  rw [ho] at hn
  exact hn rfl

/-- The outcome of compiling the text of a rule with the grammar `g` of rule texts: a parser or a panic, whatever the
fuel if there is enough of it. -/
def CompilesTo (rx : Bytes → Option Regex) (g : Grammar) (tr : Trace) (text : Bytes) (o : Out Node) : Prop :=
  o ≠ .oof ∧ ∃ k, ∀ k', k ≤ k' → compileText rx g tr k' text = o

/-- There is at most one. -/
theorem CompilesTo.unique {rx : Bytes → Option Regex} {g : Grammar} {tr : Trace} {text : Bytes} {o o' : Out Node}
    (h : CompilesTo rx g tr text o) (h' : CompilesTo rx g tr text o') : o = o' := by
  obtain ⟨_, k, hk⟩ := h
  obtain ⟨_, k', hk'⟩ := h'
  exact (hk (max k k') (Nat.le_max_left ..)).symm.trans (hk' (max k k') (Nat.le_max_right ..))

theorem compilesTo_of {rx : Bytes → Option Regex} {g : Grammar} {tr : Trace} {text : Bytes} {k : Nat} {o : Out Node}
    (hn : (parseString ((joesonOps rx).ops Unit) g tr [] k () text).1 ≠ .oof) (h : compileText rx g tr k text = o) :
    CompilesTo rx g tr text o := by
  refine ⟨?_, k, fun k' hk' => ?_⟩
  · rw [← h]
    unfold compileText
    split
    · cases JVal.asParser _ <;> simp [Out.ofExcept]
    · simp
    · simp
    · simp
    · rename_i ho; exact absurd ho hn
  · unfold compileText at h ⊢
    rw [parseString_fuel _ _ _ _ hk' _ _ hn]
    exact h

/-- What a meaning compiles to. -/
def meant (text : Bytes) : Res JVal → Out Node
  | .error e => .panic e
  | .ok none => if text = [] then .panic .assertion else .panic .badRuleText
  | .ok (some (v, e)) => if e = text.length then Out.ofExcept v.asParser else .panic .badRuleText

theorem compileText_meant {rx : Bytes → Option Regex} {g : Grammar} {tr : Trace} {text : Bytes} {k : Nat} {r : Res JVal}
    (h : Answers text r (parseString ((joesonOps rx).ops Unit) g tr [] k () text).1) : compileText rx g tr k text = meant text r := by
  unfold compileText
  match r with
  | .error e => rw [Answers] at h; rw [h]; rfl
  | .ok none =>
    rw [Answers] at h
    rw [meant]
    split at h
    · rename_i ht
      obtain ⟨s, hs⟩ := h
      rw [hs, if_pos ht]
    · rename_i ht
      obtain ⟨rep, s, hs, _⟩ := h
      rw [hs, if_neg ht]
  | .ok (some (v, e)) =>
    rw [Answers] at h
    rw [meant]
    split at h
    · rename_i ht
      obtain ⟨s, hs⟩ := h
      rw [hs, if_pos ht]
    · rename_i ht
      obtain ⟨rep, s, hs, _⟩ := h
      rw [hs, if_neg ht]

theorem answers_ne_oof {text : Bytes} {r : Res V} {o : Out (Outcome V × St V H)} (h : Answers text r o) : o ≠ .oof := by
  intro ho
  subst ho
  match r with
  | .error e => cases h
  | .ok none =>
    rw [Answers] at h
    split at h <;> obtain ⟨_, h⟩ := h
    · cases h
    · obtain ⟨_, h, _⟩ := h; cases h
  | .ok (some (v, e)) =>
    rw [Answers] at h
    split at h <;> obtain ⟨_, h⟩ := h
    · cases h
    · obtain ⟨_, h, _⟩ := h; cases h

theorem compilesTo_meaning {rx : Bytes → Option Regex} {g : Grammar} (hg : g.Built) {tr : Trace} (hn : NoTrace g tr []) {text : Bytes} {d : Nat}
    {r : Res JVal} (h : TextMeans (joesonOps rx) g text d r) :
    CompilesTo rx g tr text (meant text r) ∨ CompilesTo rx g tr text (.panic .stackOverflow) := by
  obtain ⟨k, hk⟩ := C22_peg_or_stack_overflow (H := Unit) (joesonOps rx) g hg tr [] hn () text d r h
  rcases hk k (Nat.le_refl _) with h | h
  · exact .inl (compilesTo_of (answers_ne_oof h) (compileText_meant h))
  · refine .inr (compilesTo_of (k := k) (by rw [h]; simp) ?_)
    unfold compileText
    rw [h]

theorem compilesTo_deep {rx : Bytes → Option Regex} {g : Grammar} (hg : g.Built) {tr : Trace} (hn : NoTrace g tr []) {text : Bytes} {d : Nat}
    (hd : d ≤ 1024) {r : Res JVal} (h : TextMeans (joesonOps rx) g text d r) : CompilesTo rx g tr text (meant text r) := by
  obtain ⟨k, hk⟩ := C22_engine_computes_peg (H := Unit) (joesonOps rx) g hg tr [] hn () text d hd r h
  have h := hk k (Nat.le_refl _)
  exact compilesTo_of (answers_ne_oof h) (compileText_meant h)

/-- C47 for every text, be it a rule or not: compiling it ends, with a parser or a panic. -/
theorem C47_every_text (rx : Bytes → Option Regex) (tr : Trace) (htr : tr.stack = false) :
    ∃ m, joesonMade = .ok m ∧ ∀ text, ∃ o, CompilesTo rx m.g tr text o := by
  obtain ⟨m, hm, hG⟩ := made
  refine ⟨m, hm, fun text => ?_⟩
  rw [hG]
  obtain ⟨r, h⟩ := textMeans_total (joesonOps rx) G joeson_built Intent.joeson_noLeftRec text
  rcases compilesTo_meaning joeson_built (joeson_noTrace htr) h with h | h
  · exact ⟨_, h⟩
  · exact ⟨_, h⟩

/-- The regular expressions of the grammar of rule texts compile to the automata of Model/Joeson.lean. -/
structure RxJoeson (rx : Bytes → Option Regex) : Prop where
  word : rx (asc "[a-zA-Z\\._][a-zA-Z\\._0-9]*") = some reWord
  int : rx (asc "[0-9]+") = some reInt
  any : rx (asc "[\\s\\S]") = some reAny

theorem intention_texts {rx : Bytes → Option Regex} (h : RxJoeson rx) : ∀ e ∈ Intent.exprs, e.Ok rx ∧ e.nest ≤ 72 := by
  have h1 : Intent.exprs.all (fun e => e.okB && decide (e.nest ≤ 72)) = true := by decide +kernel
  have h2 : Intent.exprs.flatMap Expr.regexes = [(asc "[a-zA-Z\\._][a-zA-Z\\._0-9]*", reWord), (asc "[0-9]+", reInt), (asc "[\\s\\S]", reAny)] := by
    kernel_rfl
  intro e he
  have := List.all_eq_true.mp h1 e he
  simp only [Bool.and_eq_true, decide_eq_true_eq] at this
  refine ⟨exprB_ok e this.1 fun x hx => ?_, this.2⟩
  have hx : x ∈ Intent.exprs.flatMap Expr.regexes := List.mem_flatMap.mpr ⟨e, he, hx⟩
  rw [h2] at hx
  simp only [List.mem_cons, List.not_mem_nil, or_false] at hx
  rcases hx with rfl | rfl | rfl
  · exact h.word
  · exact h.int
  · exact h.any

theorem compileRule_of {rx : Bytes → Option Regex} {g : Grammar} {tr : Trace} {l : List Expr}
    (h : ∀ e ∈ l, CompilesTo rx g tr e.text (.ok e.node)) : ∃ k0, ∀ k, k0 ≤ k → ∀ e ∈ l, compileRule rx g tr k e.text = .ok e.node := by
  induction l with
  | nil => exact ⟨0, fun _ _ e he => by simp at he⟩
  | cons e l ih =>
    obtain ⟨k1, h1⟩ := ih fun e he => h e (List.mem_cons_of_mem _ he)
    obtain ⟨_, k2, h2⟩ := h e (List.mem_cons_self ..)
    refine ⟨max k1 k2, fun k hk e' he' => ?_⟩
    rcases List.mem_cons.mp he' with rfl | he'
    · unfold compileRule
      rw [h2 k (by omega)]
    · exact h1 k (by omega) e' he'

theorem compilesTo_joeson {rx : Bytes → Option Regex} {tr : Trace} (htr : tr.stack = false) {e : Expr} (he : e.Ok rx) (hn : e.nest ≤ 72) :
    CompilesTo rx G tr e.text (.ok e.node) := by
  have := compilesTo_deep joeson_built (joeson_noTrace htr) (d := 14 * e.nest + 14) (by omega) (ruleText_means he (Nat.le_refl _))
  simpa [meant, Out.ofExcept, JVal.asParser] using this

theorem compilesTo_intention {rx : Bytes → Option Regex} {tr : Trace} (htr : tr.stack = false) {e : Expr} (he : e.Ok rx) (hn : e.nest ≤ 72) :
    CompilesTo rx Intent.I tr e.text (.ok e.node) := by
  have := compilesTo_deep Intent.built (Intent.noTrace htr) (d := 14 * e.nest + 14 + 2) (by omega) (Intent.means (ruleText_means he (Nat.le_refl _)))
  simpa [meant, Out.ofExcept, JVal.asParser] using this

/-- C52: the grammar of rule texts written as rule texts (`IntentionRules`) is built by the hand compiled grammar
(`JoesonRules`). Every text compiles to the same parser or panics in the same way with both, unless one of them exhausts the
rule stack. The supported syntax, nested at most 72 deep, compiles to what it denotes. The grammar can be used to build itself
again: the result is the same grammar.

What is missing: texts nested so deep that one of the grammars exhausts the rule stack — the intention grammar nests two
rules more. -/
theorem C52_bootstrap_partial (rx : Bytes → Option Regex) (hrx : RxJoeson rx) (tr : Trace) (htr : tr.stack = false) :
    ∃ m0, joesonMade = .ok m0 ∧ ∃ k0, ∀ k, k0 ≤ k → ∃ m, intentionMade rx m0.g tr k "gmIntention" = .ok m ∧
      m.g.Built ∧ m.g.rules.length = 35 ∧
      (∀ text, ∃ o o', CompilesTo rx m0.g tr text o ∧ CompilesTo rx m.g tr text o' ∧
        (o = o' ∨ o = .panic .stackOverflow ∨ o' = .panic .stackOverflow)) ∧
      (∀ e : Expr, e.Ok rx → e.nest ≤ 72 → CompilesTo rx m.g tr e.text (.ok e.node)) ∧
      ∃ k1, ∀ k', k1 ≤ k' → ∃ m', intentionMade rx m.g tr k' "gmIntention" = .ok m' ∧ m'.g = m.g := by
  obtain ⟨m0, hm0, hG⟩ := made
  refine ⟨m0, hm0, ?_⟩
  rw [hG]
  obtain ⟨k0, h0⟩ := compileRule_of (l := Intent.exprs) fun e he => compilesTo_joeson htr (intention_texts hrx e he).1 (intention_texts hrx e he).2
  refine ⟨k0, fun k hk => ?_⟩
  obtain ⟨m, hm, hI⟩ := Intent.made (h0 k hk)
  refine ⟨m, hm, ?_⟩
  rw [hI]
  refine ⟨Intent.built, rfl, fun text => ?_, fun e he hn => compilesTo_intention htr he hn, ?_⟩
  · obtain ⟨r, h⟩ := textMeans_total (joesonOps rx) G joeson_built Intent.joeson_noLeftRec text
    have h1 := compilesTo_meaning joeson_built (joeson_noTrace htr) h
    have h2 := compilesTo_meaning Intent.built (Intent.noTrace htr) (Intent.means h)
    rcases h1 with h1 | h1
    · rcases h2 with h2 | h2
      · exact ⟨_, _, h1, h2, .inl rfl⟩
      · exact ⟨_, _, h1, h2, .inr (.inr rfl)⟩
    · rcases h2 with h2 | h2
      · exact ⟨_, _, h1, h2, .inr (.inl rfl)⟩
      · exact ⟨_, _, h1, h2, .inl rfl⟩
  · obtain ⟨k1, h1⟩ := compileRule_of (l := Intent.exprs) fun e he =>
      compilesTo_intention htr (intention_texts hrx e he).1 (intention_texts hrx e he).2
    exact ⟨k1, fun k' hk' => Intent.made (h1 k' hk')⟩

/-- C52 for short texts, at most 28 bytes long: the outcome is the same, whatever the text. -/
theorem C52_short_texts (rx : Bytes → Option Regex) (hrx : RxJoeson rx) (tr : Trace) (htr : tr.stack = false) :
    ∃ m0, joesonMade = .ok m0 ∧ ∃ k0, ∀ k, k0 ≤ k → ∃ m, intentionMade rx m0.g tr k "gmIntention" = .ok m ∧
      ∀ text : Bytes, text.length ≤ 28 → ∃ o, CompilesTo rx m0.g tr text o ∧ CompilesTo rx m.g tr text o := by
  obtain ⟨m0, hm0, hG⟩ := made
  refine ⟨m0, hm0, ?_⟩
  rw [hG]
  obtain ⟨k0, h0⟩ := compileRule_of (l := Intent.exprs) fun e he => compilesTo_joeson htr (intention_texts hrx e he).1 (intention_texts hrx e he).2
  refine ⟨k0, fun k hk => ?_⟩
  obtain ⟨m, hm, hI⟩ := Intent.made (h0 k hk)
  refine ⟨m, hm, ?_⟩
  rw [hI]
  intro text hl
  obtain ⟨r, h⟩ := textMeans_total (joesonOps rx) G joeson_built Intent.joeson_noLeftRec text
  have hN : G.numRules = 35 := rfl
  rw [hN] at h
  exact ⟨_, compilesTo_deep joeson_built (joeson_noTrace htr) (by omega) h,
    compilesTo_deep Intent.built (Intent.noTrace htr) (by omega) (Intent.means h)⟩

/-- C52: a grammar gets built in the same way with both, whatever its lines: with the same result or the same panic, unless
compiling one of its texts exhausts the rule stack. -/
theorem C52_same_grammars (rx : Bytes → Option Regex) (hrx : RxJoeson rx) (tr : Trace) (htr : tr.stack = false) :
    ∃ m0, joesonMade = .ok m0 ∧ ∃ k0, ∀ k, k0 ≤ k → ∃ m, intentionMade rx m0.g tr k "gmIntention" = .ok m ∧
      ∀ (name : String) (lines : List Line),
        (∃ t ∈ lineTexts lines, CompilesTo rx m0.g tr t (.panic .stackOverflow) ∨ CompilesTo rx m.g tr t (.panic .stackOverflow)) ∨
        ∃ k1, ∀ k', k1 ≤ k' → grammarFromLines (compileRule rx m.g tr k') name lines = grammarFromLines (compileRule rx m0.g tr k') name lines := by
  obtain ⟨m0, hm0, k0, h0⟩ := C52_bootstrap_partial rx hrx tr htr
  refine ⟨m0, hm0, k0, fun k hk => ?_⟩
  obtain ⟨m, hm, _, _, hsame, _⟩ := h0 k hk
  refine ⟨m, hm, fun name lines => ?_⟩
  have key : ∀ l : List Bytes, (∃ t ∈ l, CompilesTo rx m0.g tr t (.panic .stackOverflow) ∨ CompilesTo rx m.g tr t (.panic .stackOverflow)) ∨
      ∃ k1, ∀ k', k1 ≤ k' → ∀ t ∈ l, compileRule rx m.g tr k' t = compileRule rx m0.g tr k' t := by
    intro l
    induction l with
    | nil => exact .inr ⟨0, fun _ _ t ht => by simp at ht⟩
    | cons t l ih =>
      rcases ih with ⟨t', ht', h⟩ | ⟨k1, h1⟩
      · exact .inl ⟨t', List.mem_cons_of_mem _ ht', h⟩
      · obtain ⟨o, o', ho, ho', h⟩ := hsame t
        rcases h with rfl | rfl | rfl
        · obtain ⟨_, k2, h2⟩ := ho
          obtain ⟨_, k3, h3⟩ := ho'
          refine .inr ⟨max k1 (max k2 k3), fun k' hk' t' ht' => ?_⟩
          rcases List.mem_cons.mp ht' with rfl | ht'
          · unfold compileRule
            rw [h2 k' (by omega), h3 k' (by omega)]
          · exact h1 k' (by omega) t' ht'
        · exact .inl ⟨t, List.mem_cons_self .., .inl ho⟩
        · exact .inl ⟨t, List.mem_cons_self .., .inr ho'⟩
  rcases key (lineTexts lines) with h | ⟨k1, h1⟩
  · exact .inl h
  · exact .inr ⟨k1, fun k' hk' => grammarFromLines_congr (h1 k' hk') name⟩

/-- A way of compiling regular expressions as supposed. -/
def Sample.rxJoeson (s : Bytes) : Option Regex :=
  if s = asc "[a-zA-Z\\._][a-zA-Z\\._0-9]*" then some reWord
  else if s = asc "[0-9]+" then some reInt
  else if s = asc "[\\s\\S]" then some reAny
  else none

open Sample in
example : RxJoeson rxJoeson := ⟨by kernel_rfl, by kernel_rfl, by kernel_rfl⟩

open Sample in
/-- The rule text of C47's example, compiled by the intention grammar. -/
example (rx : Bytes → Option Regex) (hrx : RxJoeson rx) : ∃ m0, joesonMade = .ok m0 ∧ ∃ k m, intentionMade rx m0.g {} k "gmIntention" = .ok m ∧
    CompilesTo rx m.g {} (asc "a:'x\\'' | !(b) c*','{1,} ") (.ok ruleExpr.node) := by
  obtain ⟨m0, hm0, k0, h0⟩ := C52_bootstrap_partial rx hrx {} rfl
  obtain ⟨m, hm, _, _, _, h, _⟩ := h0 k0 (Nat.le_refl _)
  refine ⟨m0, hm0, k0, m, hm, ?_⟩
  have := h ruleExpr (exprB_ok _ (by decide +kernel) (by
    have : ruleExpr.regexes = [] := by kernel_rfl
    rw [this]; simp)) (by decide)
  have ht : ruleExpr.text = asc "a:'x\\'' | !(b) c*','{1,} " := by decide +kernel
  rwa [ht] at this

end Joeson
