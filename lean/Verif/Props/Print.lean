import Verif.Props.RuleText
import Verif.Props.Colors
import Verif.Proofs.Print2
/-!
# C56 The printed form of a parser is a rule text for it
-/

namespace Joeson
open Spec RuleText Joe

/-- C56: what `String` prints for a parser, without the colours, compiles to the parser. This holds for parsers made of
strings without quotes and control characters, references, sequences, choices, lookaheads, repetitions, options and
negations, as long as operands of operators are neither labelled nor have an operator themselves; it does not hold for
the others, see below. -/
theorem C56_print_compiles_partial (rx : Bytes → Option Regex) (src : Regex → Bytes) (nm : Nat → String) (tr : Trace)
    (htr : tr.stack = false) {k : Nat} {n : Node} (h : Printable .item k n) (hk : k ≤ 72) :
    ∃ m, joesonMade = .ok m ∧ ∃ f, ∀ f', f ≤ f' → compileText rx m.g tr f' (stripAnsi (n.string src nm)) = .ok n := by
  obtain ⟨e, h1, h2, h3, h4, h5⟩ := print_text rx src nm h
  obtain ⟨m, hm, f, hf⟩ := C47_rule_text_compiles_partial rx tr htr e h1 (by omega)
  refine ⟨m, hm, f, fun f' hf' => ?_⟩
  rw [C55_stripAnsi_partial h4 h5, hf f' hf', h2]

/-- C56 for any nesting: the only other outcome is that the rule stack is exhausted. -/
theorem C56_or_stack_overflow (rx : Bytes → Option Regex) (src : Regex → Bytes) (nm : Nat → String) (tr : Trace)
    (htr : tr.stack = false) {k : Nat} {n : Node} (h : Printable .item k n) :
    ∃ m, joesonMade = .ok m ∧ ∃ f, ∀ f', f ≤ f' → compileText rx m.g tr f' (stripAnsi (n.string src nm)) = .ok n ∨
      compileText rx m.g tr f' (stripAnsi (n.string src nm)) = .panic .stackOverflow := by
  obtain ⟨e, h1, h2, h3, h4, h5⟩ := print_text rx src nm h
  obtain ⟨m, hm, f, hf⟩ := C47_or_stack_overflow rx tr htr e h1
  refine ⟨m, hm, f, fun f' hf' => ?_⟩
  rw [C55_stripAnsi_partial h4 h5, ← h2]
  exact hf f' hf'

/-- C56: parsers of this kind that are printed in the same way are the same. -/
theorem C56_print_injective (src : Regex → Bytes) (nm : Nat → String) {k k' : Nat} {n n' : Node} (h : Printable .item k n)
    (h' : Printable .item k' n') (he : stripAnsi (n.string src nm) = stripAnsi (n'.string src nm)) : n = n' := by
  obtain ⟨e, h1, h2, -, h4, h5⟩ := print_text (fun _ => none) src nm h
  obtain ⟨e', h1', h2', -, h4', h5'⟩ := print_text (fun _ => none) src nm h'
  rw [C55_stripAnsi_partial h4 h5, C55_stripAnsi_partial h4' h5'] at he
  rw [← h2, ← h2', C47_unambiguous _ e e' h1 h1' he]

namespace Sample

/-- `a 'x\é'* x:(b*','{1,} | !c (?d)?)` -/
def printed : Node :=
  mkSeq [mkRef "a" false, mkPattern (mkStr (utf8 [0x78, 0x5C, 0xE9])) none (-1) (-1),
    (mkChoice [mkPattern (mkRef "b" false) (some (mkStr (utf8 [0x2C]))) 1 (-1),
      mkSeq [mkNot (mkRef "_c" true), mkExist (mkLook (mkRef "d" false))]]).setInfo fun i => { i with label := "x" }]

theorem plainChars (cs : List Nat) (h : cs.all (fun c => decide (Scalar c) && decide (c ≠ 0x27) && decide (c ≠ 0x1B) &&
    decide (c ≠ 0x9B) && decide (¬ (7 ≤ c ∧ c ≤ 13))) = true) : ∀ c ∈ cs, PlainChar c := by
  intro c hc
  have := List.all_eq_true.mp h c hc
  simp only [Bool.and_eq_true, decide_eq_true_eq] at this
  exact ⟨this.1.1.1.1, this.1.1.1.2, this.1.1.2, this.1.2, this.2⟩

theorem word1 (x : UInt8) (h : Letter x) : Word [x] := ⟨x, [], rfl, h, fun _ h => (nomatch h)⟩

theorem printed_printable : Printable .item 5 printed := by
  have unl : ∀ {k : Nat} {n : Node}, Printable .deco k n → Printable .item k n := fun h => Printable.item (lab := none) h labOk_none
  have ref1 : ∀ {k : Nat} (x : UInt8), Letter x → Printable .prim k (mkRef (nameOf [x]) ([x].head? == some 0x5F)) :=
    fun x h => .ref (word1 x h)
  have ha : Letter 0x61 := .inl (by decide)
  have hb : Letter 0x62 := .inl (by decide)
  have hd : Letter 0x64 := .inl (by decide)
  have hc : Word (asc "_c") := ⟨0x5F, [0x63], rfl, .inr (.inr (.inr rfl)), fun y hy => by
    rw [List.mem_singleton.mp hy]; exact .inl (.inl (by decide))⟩
  have bd : BoundOk (-1) := .inl rfl
  refine unl (.prim (.seq (by simp) ?_))
  intro n hn
  simp only [List.mem_cons, List.not_mem_nil, or_false] at hn
  rcases hn with rfl | rfl | rfl
  · exact unl (.prim (ref1 0x61 ha))
  · exact unl (.pattern (.str (plainChars _ (by decide))) bd bd)
  · refine Printable.item (lab := some (asc "x")) (.prim (.choice (by simp) ?_)) (fun w h => .inr (.inr ?_))
    · intro n hn
      simp only [List.mem_cons, List.not_mem_nil, or_false] at hn
      rcases hn with rfl | rfl
      · exact unl (.patternJoin (ref1 0x62 hb) (.str (plainChars _ (by decide))) (.inr (by decide)) bd)
      · refine unl (.prim (.seq (k := 2) (by simp) ?_))
        intro n hn
        simp only [List.mem_cons, List.not_mem_nil, or_false] at hn
        rcases hn with rfl | rfl
        · exact unl (.not (.ref hc))
        · exact unl (.exist (.look (k := 0) (unl (.prim (ref1 0x64 hd)))))
    · cases h
      exact word1 0x78 (.inl (by decide))

end Sample

/-- What is printed for it. -/
example : stripAnsi (Sample.printed.string (fun _ => []) (fun _ => "")) =
    asc "(a 'x\\\\" ++ [0xC3, 0xA9] ++ asc "'* x:(b*','{1,} | (!_c (?d)?)))" := by decide +kernel

example : ∃ m, joesonMade = .ok m ∧ ∃ f, ∀ f', f ≤ f' → compileText (fun _ => none) m.g {} f'
    (stripAnsi (Sample.printed.string (fun _ => []) (fun _ => ""))) = .ok Sample.printed :=
  C56_print_compiles_partial _ _ _ {} rfl Sample.printed_printable (by decide)

namespace Sample

/-- A regular expression that matches nothing. -/
def noRegex : Regex := ⟨fun _ => none, fun _ _ _ h => (nomatch h)⟩

/-- What the printed form compiles to. -/
def reread (n : Node) : Out Node :=
  compileText (fun _ => some noRegex) G {} 60 (stripAnsi (n.string (fun _ => asc "a") (fun _ => "")))

/-- A reference to the rule `a`. -/
def a : Node := mkRef "a" false

end Sample

/-- C56 does not hold for regular expressions: `/a/` is printed as `/a/g`, which is a regular expression followed by a
reference to a rule `g`. -/
theorem C56_regex : (match Sample.reread (mkRegex Sample.noRegex) with
    | .ok (.seq _ _ [.regex _ _, .ref _ "g"]) => true
    | _ => false) = true := by decide +kernel

/-- C56 does not hold for strings with a quote: `'\''` is printed as `'''`, which is not a rule text. -/
theorem C56_quote : Sample.panicsWith .badRuleText (Sample.reread (mkStr (asc "'"))) = true := by decide +kernel

/-- C56 does not hold for strings with a newline: they are printed with `\n`, which is an `n`. -/
theorem C56_newline : (match Sample.reread (mkStr [0x0A]) with
    | .ok (.str _ [0x6E]) => true
    | _ => false) = true := by decide +kernel

/-- C56 does not hold for labelled operands: `(x:a)?` is printed as `x:a?`, in which the label is that of the option. -/
theorem C56_label : (match Sample.reread (mkExist (RuleText.labelled (some (asc "x")) Sample.a)) with
    | .ok (.exist i (.ref j _)) => i.label == "x" && j.label == ""
    | _ => false) = true := by decide +kernel

/-- C56 does not hold for operands that have an operator: `(a?)*` is printed as `a?*`, which is not a rule text. -/
theorem C56_operators : Sample.panicsWith .badRuleText (Sample.reread (mkPattern (mkExist Sample.a) none (-1) (-1))) = true := by
  decide +kernel

/-- Different parsers are printed in the same way: `(!a)?`, which matches everything, and `!(a?)`, which matches nothing. -/
theorem C56_ambiguous : stripAnsi ((mkExist (mkNot Sample.a)).string (fun _ => []) (fun _ => "")) =
    stripAnsi ((mkNot (mkExist Sample.a)).string (fun _ => []) (fun _ => "")) := by decide +kernel

end Joeson
