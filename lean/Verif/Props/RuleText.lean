import Verif.Proofs.RuleText6
import Verif.Proofs.RuleTextB
import Verif.Props.Peg
import Verif.Props.Build
/-!
# C47: rule texts
-/

namespace Joeson
open RuleText Joe

theorem bind_ok {α β : Type} {x : Except Panic α} {a : α} {f : α → Except Panic β} {b : β} (hx : x = .ok a)
    (h : (do f (← x)) = .ok b) : f a = .ok b := by
  subst hx; exact h

theorem joeson_made {m : Made} (h : joesonMade = .ok m) :
    grammarFromLines (fun _ => .error .assertion) "__joeson__" lineList = .ok m := bind_ok lines_ok h

/-- The grammar of rule texts is well formed. -/
theorem joeson_built : G.Built := by
  obtain ⟨m, hm, hG⟩ := made
  rw [← hG]
  exact built_of_lines (compile := fun _ => .error .assertion) (fun s n h => by cases h) "__joeson__" lineList lines_plain
    lines_wrapped m (joeson_made hm)

theorem joeson_noTrace {tr : Trace} (h : tr.stack = false) : NoTrace G tr [] := by
  refine ⟨h, (fun _ h => by cases h), ?_⟩
  have : G.rules.all (fun n => !n.info.debug) = true := by decide +kernel
  intro n hn
  simpa using List.all_eq_true.mp this n hn

/-- The meaning of a rule text. -/
theorem ruleText_means {rx : Bytes → Option Regex} {e : Expr} (he : e.Ok rx) {d : Nat} (hd : 14 * e.nest + 14 ≤ d) :
    TextMeans (joesonOps rx) G e.text d (.ok (some (.parser e.node, e.text.length))) := by
  have h := Hits.mono1 (i := { name := "__joeson__", parent := some false }) (expr_hits e he [] (off_nil _))
  have := h [] 0 d hd
  simp only [List.nil_append, List.append_nil, List.length_nil, Nat.zero_add] at this
  exact this

/-- C47: the grammar of rule texts is built, and compiles the text of every expression of the supported syntax that is
nested at most 72 deep to the parser the expression denotes. -/
theorem C47_rule_text_compiles_partial (rx : Bytes → Option Regex) (tr : Trace) (htr : tr.stack = false) (e : Expr)
    (he : e.Ok rx) (hn : e.nest ≤ 72) :
    ∃ m, joesonMade = .ok m ∧ ∃ k, ∀ k', k ≤ k' → compileText rx m.g tr k' e.text = .ok e.node := by
  obtain ⟨m, hm, hG⟩ := made
  refine ⟨m, hm, ?_⟩
  rw [hG]
  obtain ⟨k, hk⟩ := C22_engine_computes_peg (H := Unit) (joesonOps rx) G joeson_built tr [] (joeson_noTrace htr) () e.text
    (14 * e.nest + 14) (by omega) _ (ruleText_means he (Nat.le_refl _))
  refine ⟨k, fun k' hk' => ?_⟩
  have h := hk k' hk'
  simp only [Answers, if_pos] at h
  obtain ⟨s, hs⟩ := h
  unfold compileText
  rw [hs]
  rfl

/-- C47 for any nesting: the only other outcome is that the rule stack is exhausted. -/
theorem C47_or_stack_overflow (rx : Bytes → Option Regex) (tr : Trace) (htr : tr.stack = false) (e : Expr) (he : e.Ok rx) :
    ∃ m, joesonMade = .ok m ∧ ∃ k, ∀ k', k ≤ k' → compileText rx m.g tr k' e.text = .ok e.node ∨
      compileText rx m.g tr k' e.text = .panic .stackOverflow := by
  obtain ⟨m, hm, hG⟩ := made
  refine ⟨m, hm, ?_⟩
  rw [hG]
  obtain ⟨k, hk⟩ := C22_peg_or_stack_overflow (H := Unit) (joesonOps rx) G joeson_built tr [] (joeson_noTrace htr) () e.text
    (14 * e.nest + 14) _ (ruleText_means he (Nat.le_refl _))
  refine ⟨k, fun k' hk' => ?_⟩
  rcases hk k' hk' with h | h
  · simp only [Answers, if_pos] at h
    obtain ⟨s, hs⟩ := h
    refine .inl ?_
    unfold compileText
    rw [hs]
    rfl
  · refine .inr ?_
    unfold compileText
    rw [h]

/-- C47: the syntax is unambiguous. Trees with the same text denote the same parser. -/
theorem C47_unambiguous (rx : Bytes → Option Regex) (e e' : Expr) (he : e.Ok rx) (he' : e'.Ok rx) (h : e.text = e'.text) :
    e.node = e'.node := by
  have h1 := ruleText_means he (Nat.le_refl _)
  have h2 := ruleText_means he' (Nat.le_refl _)
  rw [← h] at h2
  have h3 := Means.unique h1 h2
  injection h3 with h3
  injection h3 with h3
  injection h3 with h3 h4
  injection h3

namespace Sample

/-- The tree of the rule text of the next example. -/
def ruleExpr : Expr :=
  .choice [] (.one [] (some (asc "a")) (.prim (.str [⟨false, 0x78⟩, ⟨true, 0x27⟩]))) [0x20]
    (.one (.cons [0x20] none (.not (.group (.single (.one [] none (.prim (.ref (asc "b")))) [])))
      (.one [0x20] none (.starJoin (.ref (asc "c")) (.str [⟨false, 0x2C⟩])
        (some ⟨[], some (asc "1"), [], [], none, []⟩))))) [] [0x20]

end Sample

open Sample in
/-- Its text. -/
example : ruleExpr.text = asc "a:'x\\'' | !(b) c*','{1,} " := by decide +kernel

open Sample in
/-- It is one. -/
example (rx : Bytes → Option Regex) : ruleExpr.Ok rx ∧ ruleExpr.nest = 1 := by
  have word : ∀ x : UInt8, Letter x → Word [x] := fun x hx => ⟨x, [], rfl, hx, by simp⟩
  have hb : Blank [0x20] := by simp [Blank]
  have num : Number (asc "1") := by unfold Number; decide +kernel
  have p : ∀ c, c < 0x80 → c ≠ 0x27 → c ≠ 0x5C → Piece.Ok 0x27 ⟨false, c⟩ := fun c h h1 h2 =>
    ⟨.inl (by dsimp only; omega), fun _ => ⟨h1, h2⟩⟩
  have q : Piece.Ok 0x27 ⟨true, 0x27⟩ := ⟨by decide, fun h => by cases h⟩
  have lab : LabOk (some (asc "a")) := fun w h => .inr (.inr (by cases h; exact word 0x61 (by decide)))
  have nolab : LabOk none := fun w h => by cases h
  refine ⟨⟨by simp, ⟨blank_nil, lab, ?_⟩, rfl, hb, ⟨hb, nolab, ⟨⟨blank_nil, nolab, word 0x62 (by decide)⟩, blank_nil, fun _ => rfl⟩,
    ⟨hb, nolab, word 0x63 (by decide), ?_, ?_⟩, by simp [Deco.apart, Units.lead]⟩, by simp, hb, by simp [Alts.isOpen, Units.isOpen]⟩, rfl⟩
  · intro x hx
    simp only [List.mem_cons, List.not_mem_nil, or_false] at hx
    rcases hx with rfl | rfl
    · exact p _ (by decide) (by decide) (by decide)
    · exact q
  · intro x hx
    simp only [List.mem_cons, List.not_mem_nil, or_false] at hx
    subst hx
    exact p _ (by decide) (by decide) (by decide)
  · intro b hb'
    cases hb'
    exact ⟨blank_nil, blank_nil, blank_nil, blank_nil, fun ds h => by cases h; exact num, fun ds h => by cases h⟩

open Sample in
/-- The parser it denotes. -/
example : ruleExpr.node = .choice {} [
    .str { label := "a", capture := false } (asc "x'"),
    .seq {} .single [
      .not { capture := false } (.ref {} "b"),
      .pattern {} (.ref {} "c") (some (.str { capture := false } (asc ","))) 1 (-1)]] := by
  unfold ruleExpr
  simp only [Expr.node, Alts.nodes, Units.nodes, Deco.node, Prim.node, seqOf, labelled]
  rfl

namespace Sample

/-- Characters that need no escape. -/
def plainPieces (s : Bytes) : List Piece := s.map fun c => ⟨false, c.toNat⟩

/-- `[1-9][0-9]*!'x'`: three elements, without blanks. -/
def tightExpr (r1 r2 : Regex) : Expr :=
  .single (.cons [] none (.prim (.cls (plainPieces (asc "1-9")) r1)) (.cons [] none (.star (.cls (plainPieces (asc "0-9")) r2) none)
    (.one [] none (.not (.str (plainPieces (asc "x"))))))) []

/-- `[0-9]*[a-z]`: the second class is the separator. -/
def joinExpr (r1 r2 : Regex) : Expr :=
  .single (.one [] none (.starJoin (.cls (plainPieces (asc "0-9")) r1) (.cls (plainPieces (asc "a-z")) r2) none)) []

end Sample

open Sample in
/-- Elements of a sequence without blanks between them. -/
example (rx : Bytes → Option Regex) (r1 r2 : Regex) (h1 : rx (asc "[1-9]") = some r1) (h2 : rx (asc "[0-9]") = some r2) :
    (tightExpr r1 r2).Ok rx ∧ (tightExpr r1 r2).text = asc "[1-9][0-9]*!'x'" ∧
      (tightExpr r1 r2).node = .seq {} .single [.regex {} r1, .pattern {} (.regex {} r2) none (-1) (-1),
        .not { capture := false } (.str { capture := false } (asc "x"))] := by
  refine ⟨exprB_ok _ ?_ ?_, rfl, ?_⟩
  · rfl
  · intro x hx
    have h : x = (asc "[1-9]", r1) ∨ x = (asc "[0-9]", r2) := by
      have : (tightExpr r1 r2).regexes = [(asc "[1-9]", r1), (asc "[0-9]", r2)] := rfl
      simpa [this] using hx
    rcases h with rfl | rfl
    · exact h1
    · exact h2
  · simp only [tightExpr, Expr.node, Units.nodes, Deco.node, Prim.node, seqOf, labelled]
    rfl

open Sample in
/-- After `*` there must be one: a class written against it is the separator. -/
example (rx : Bytes → Option Regex) (r1 r2 : Regex) (h1 : rx (asc "[0-9]") = some r1) (h2 : rx (asc "[a-z]") = some r2) :
    (joinExpr r1 r2).Ok rx ∧ (joinExpr r1 r2).text = asc "[0-9]*[a-z]" ∧
      (joinExpr r1 r2).node = .pattern {} (.regex {} r1) (some (.regex {} r2)) (-1) (-1) := by
  refine ⟨exprB_ok _ ?_ ?_, rfl, ?_⟩
  · rfl
  · intro x hx
    have h : x = (asc "[0-9]", r1) ∨ x = (asc "[a-z]", r2) := by
      have : (joinExpr r1 r2).regexes = [(asc "[0-9]", r1), (asc "[a-z]", r2)] := rfl
      simpa [this] using hx
    rcases h with rfl | rfl
    · exact h1
    · exact h2
  · simp only [joinExpr, Expr.node, Units.nodes, Deco.node, Prim.node, seqOf, labelled]
    rfl

namespace Sample

/-- Which panic? -/
def panicsWith (e : Panic) : Out Node → Bool
  | .panic e' => e' == e
  | _ => false

end Sample

/-- Outside of the supported syntax: the grammar accepts code after a group, as in `(a)->{b}`, but then the callback of
`CODE` (joeson_handcompiled.go:61-67, 103) fails a type assertion. -/
theorem C47_code_panics : Sample.panicsWith .assertion (compileText (fun _ => none) G {} 60 (asc "(a)->{b}")) = true := by
  decide +kernel

/-- Outside of the supported syntax: the empty text panics with a failed type assertion and not with a `ParseError`
(line.go:184-190). -/
theorem C47_empty_panics : Sample.panicsWith .assertion (compileText (fun _ => none) G {} 60 []) = true := by
  decide +kernel

end Joeson
