import Verif.Model.Lifecycle
import Verif.Proofs.GrammarParse
import Verif.Props.Build
/-!
# C87: the life of a Grammar
-/

namespace Joeson
variable {V H : Type} {compile : Bytes → Except Panic Node}

/-- Has `Bomb` been called? -/
def bombed (l : List (GrammarCall H)) : Bool := l.any fun | .bomb => true | _ => false

theorem call_parse_keeps (ops : Ops V H) (o : GrammarObject) (opts : List ParseOption) (k : Nat) (h : H) (text : Bytes) :
    (o.call ops (.parse opts k h text)).1.g = o.g ∧ (o.call ops (.parse opts k h text)).1.numrules = o.numrules ∧
    (o.call ops (.parse opts k h text)).1.wasInitialized = o.wasInitialized := ⟨rfl, rfl, rfl⟩

/-- After any calls the object is what it was, or what `Bomb` makes of it. -/
theorem calls_object (ops : Ops V H) (l : List (GrammarCall H)) (o : GrammarObject) : ∃ tr, (o.calls ops l).1 =
    if bombed l then { o.bomb with trace := tr } else { o with trace := tr } := by
  induction l generalizing o with
  | nil => exact ⟨o.trace, rfl⟩
  | cons c l ih =>
    obtain ⟨tr, htr⟩ := ih (o.call ops c).1
    refine ⟨tr, ?_⟩
    have : (o.calls ops (c :: l)).1 = ((o.call ops c).1.calls ops l).1 := rfl
    rw [this, htr]
    cases c with
    | bomb =>
      have hb : bombed (GrammarCall.bomb :: l) = true := rfl
      rw [hb, if_pos rfl]
      split <;> rfl
    | parse opts k h text =>
      have hb : bombed (GrammarCall.parse opts k h text :: l) = bombed l := rfl
      rw [hb]
      split <;> rfl

/-- C87. A Grammar made from lines is ready, and counts its rules, whatever was parsed with it, until `Bomb` is called. From then on it is not ready and has no
rules. -/
theorem C87_ready_until_bombed (hc : ∀ s n, compile s = .ok n → n.Plain) (name : String) (lines : List Line) (hl : ∀ l ∈ lines, l.Plain) (m : Made)
    (hm : grammarFromLines compile name lines = .ok m) (tr : Trace) (ops : Ops V H) (l : List (GrammarCall H)) :
    ∃ t, rankFromLines compile name lines = .ok t ∧
      (((GrammarObject.ofMade m tr).calls ops l).1.isReady = true ↔ bombed l = false) ∧
      ((GrammarObject.ofMade m tr).calls ops l).1.countRules = if bombed l then 0 else t.walk.length := by
  obtain ⟨t, ht, h1, -⟩ := C43_walk_order hc name lines hl m hm
  refine ⟨t, ht, ?_⟩
  obtain ⟨tr', he⟩ := calls_object ops l (GrammarObject.ofMade m tr)
  rw [he]
  cases bombed l
  · exact ⟨⟨fun _ => rfl, fun _ => rfl⟩, h1⟩
  · exact ⟨⟨fun h => (by cases h), fun h => (by cases h)⟩, rfl⟩

/-- Parsing with a grammar that has nothing. -/
theorem parse_nothing (ops : Ops V H) {g : Grammar} {i : Info} (hr : g.root = .choice i []) (hl : i.ownLabel = false) (hcb : i.cb = none) (hn : g.rules = [])
    (tr : Trace) (opts : List ParseOption) (k : Nat) (h : H) (text : Bytes) :
    ∃ a, parseString ops g tr opts (k + 1) h text = (.ok (a, newState h 0), tr) ∧
      if text = [] then a = .nil else ∃ rep, a = .error rep ∧ rep.char = 0 ∧ rep.line = 0 ∧ rep.col = 0 := by
  unfold parseString grammarParse
  have hp : ∀ env : Env V H, parse env (k + 1) g.root (newState h 0) = .ok (none, newState h 0) := by
    intro env
    rw [hr]
    show (if ((Node.choice i []).info.ownLabel || (Node.choice i []).info.cb.isSome) = true then _ else parseKind env (parse env k) k (.choice i []) (newState h 0)) = _
    rw [if_neg (by simp [Node.info, hl, hcb])]
    rfl
  simp only [hp]
  have hpos : (newState (V := V) h 0).pos = 0 := rfl
  have hlen : (Stream.ofText text).len = text.length := rfl
  have htr : ∀ b : Bool, ({ (if b = true then { tr with stack := true } else tr) with stack := tr.stack } : Trace) = tr := by
    intro b; cases b <;> rfl
  rw [htr, hpos, hlen]
  by_cases ht : text = []
  · subst ht
    exact ⟨.nil, by simp⟩
  · have hne : (0 : Nat) ≠ text.length := by
      intro h0
      exact ht (List.length_eq_zero_iff.mp h0.symm)
    rw [if_pos hne]
    have hn0 : g.numRules = 0 := by simp [Grammar.numRules, hn]
    have hscan : ∀ (c p : Nat), scanRows (newState (V := V) h 0) 0 p c (0, 0) = (0, 0) := by
      intro c
      induction c with
      | zero => intro p; rfl
      | succ c ih => intro p; simp only [scanRows, scanRow]; exact ih (p + 1)
    rw [hn0, hscan]
    obtain ⟨rep, e1, e2, e3, e4⟩ := runeReport_ok text 0 0 0 (Nat.le_refl _) (Nat.le_refl _) (Nat.zero_le _)
    simp only [e1]
    refine ⟨.error rep, rfl, ?_⟩
    rw [if_neg ht]
    exact ⟨rep, rfl, e2, e3, e4⟩

/-- C87. Once `Bomb` was called, parsing answers nil for the empty text and an error at character 0, line 0, column 0 for every other. No callback is called, the
options and the tracing make no difference, and nothing panics. -/
theorem C87_bombed_parses_nothing (ops : Ops V H) (o : GrammarObject) (l : List (GrammarCall H)) (hb : bombed l = true) (opts : List ParseOption) (k : Nat) (h : H)
    (text : Bytes) : ∃ a, ((o.calls ops l).1.call ops (.parse opts (k + 1) h text)).2 = some (.ok (a, newState h 0)) ∧
      if text = [] then a = .nil else ∃ rep, a = .error rep ∧ rep.char = 0 ∧ rep.line = 0 ∧ rep.col = 0 := by
  obtain ⟨tr, he⟩ := calls_object ops l o
  rw [hb, if_pos rfl] at he
  rw [he]
  obtain ⟨a, e1, e2⟩ := parse_nothing ops (g := o.bomb.g) (i := { name := "bombd" }) rfl rfl rfl rfl tr opts k h text
  refine ⟨a, ?_, e2⟩
  show some (parseString ops o.bomb.g tr opts (k + 1) h text).1 = _
  rw [e1]

/-- C87. The same of a grammar made from no lines. -/
theorem C87_no_lines (name : String) (tr : Trace) (ops : Ops V H) (opts : List ParseOption) (k : Nat) (h : H) (text : Bytes) :
    ∃ m, grammarFromLines compile name [] = .ok m ∧ ∃ a, parseString ops m.g tr opts (k + 1) h text = (.ok (a, newState h 0), tr) ∧
      if text = [] then a = .nil else ∃ rep, a = .error rep ∧ rep.char = 0 ∧ rep.line = 0 ∧ rep.col = 0 :=
  ⟨_, rfl, parse_nothing ops rfl rfl rfl rfl tr opts k h text⟩

/-! A grammar, a parse, `Bomb`, and a parse. -/

namespace Sample

private def aLine : List Line := [.o "A" (.c false (lit "a")) {}]
private def ab : List (GrammarCall Unit) := [.parse [] 9 () (asc "a"), .bomb, .parse [] 9 () (asc "a")]

private theorem aLine_made : ∃ m, grammarFromLines (fun _ => .error .notModelled) "G" aLine = .ok m ∧ m.conn.numrules = 1 := ⟨_, rfl, rfl⟩

example : bombed (ab.take 1) = false ∧ bombed ab = true := by decide

example : ∃ m, grammarFromLines (fun _ => .error .notModelled) "G" aLine = .ok m ∧
    ((GrammarObject.ofMade m {}).calls ops (ab.take 1)).1.isReady = true ∧ ((GrammarObject.ofMade m {}).calls ops ab).1.isReady = false ∧
    ((GrammarObject.ofMade m {}).calls ops ab).1.countRules = 0 := by
  obtain ⟨m, hm, -⟩ := aLine_made
  have hl : ∀ l ∈ aLine, l.Plain := by
    intro l hl
    rw [List.mem_singleton.mp hl]
    exact .o (.c .str)
  obtain ⟨_, -, h1, -⟩ := C87_ready_until_bombed (fun s n hn => by cases hn) "G" aLine hl m hm {} ops (ab.take 1)
  obtain ⟨_, -, h2, h3⟩ := C87_ready_until_bombed (fun s n hn => by cases hn) "G" aLine hl m hm {} ops ab
  refine ⟨m, hm, h1.mpr (by decide), ?_, h3⟩
  cases h : ((GrammarObject.ofMade m {}).calls ops ab).1.isReady with
  | false => rfl
  | true => exact absurd (h2.mp h) (by decide)

end Sample
end Joeson
