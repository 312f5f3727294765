import Verif.Model.Joeson
import Verif.Proofs.Build2
import Lean.Elab.Tactic
/-!
# The grammar that `JoesonRules` builds, written out
-/

namespace Joeson.Joe

/-- A part of rule `rn`. -/
def part (rn : String) : Info := { parent := some false, ruleName := rn }
/-- An item of a sequence. -/
def item (rn : String) : Info := { parent := some true, ruleName := rn }
/-- A labelled item. -/
def litem (rn lab : String) : Info := { parent := some true, ruleName := rn, label := lab }
/-- A rule. -/
def top (rn : String) (cb : Option Nat := none) : Info := { name := rn, parent := some false, ruleName := rn, cb := cb }
/-- The same without capture. -/
def Info.dumb (i : Info) : Info := { i with capture := false }

/-- `' ' | '\n'` -/
def blank (rn : String) : Node :=
  .choice (Info.dumb (part rn)) [.str (Info.dumb (part rn)) [0x20], .str (Info.dumb (part rn)) [0x0A]]
/-- `_` -/
def wsBody : Node := .pattern (top "_") (blank "_") none (-1) (-1)
/-- a reference to `_` -/
def ws (rn : String) : Node := .choice (Info.dumb (item rn)) [wsBody]
/-- `__` -/
def wssBody : Node := .pattern (top "__") (blank "__") none 1 (-1)
/-- a text in a sequence -/
def tok (rn : String) (b : Bytes) : Node := .str (Info.dumb (item rn)) b
/-- `_PIPE` -/
def pipeBody : Node := .seq (top "_PIPE") .single [ws "_PIPE", tok "_PIPE" [0x7C]]
/-- a reference to `_PIPE` -/
def pipe (rn : String) : Node := .choice (Info.dumb (part rn)) [pipeBody]
/-- `WORD` -/
def wordBody : Node := .regex (top "WORD") reWord
/-- `INT` -/
def intBody : Node := .regex (top "INT" (some 12)) reInt
/-- `.` -/
def anyBody : Node := .regex (top ".") reAny
/-- `LABEL` -/
def labelBody : Node := .choice (Info.dumb (top "LABEL"))
  [.str (Info.dumb (part "LABEL")) [0x26], .str (Info.dumb (part "LABEL")) [0x40], .choice (part "LABEL") [wordBody]]
/-- `ESC1` and `ESC2` -/
def escBody (rn : String) (cb : Option Nat) : Node :=
  .seq (top rn cb) .single [tok rn [0x5C], .choice (item rn) [anyBody]]
/-- `(!'x' (ESC | .))*` -/
def chars (rn esc : String) (cb : Option Nat) (close : Bytes) : Node :=
  .pattern (item rn) (.seq (part rn) .single [.not (Info.dumb (item rn)) (.str (Info.dumb (part rn)) close),
    .choice (item rn) [.choice (part rn) [escBody esc cb], .choice (part rn) [anyBody]]]) none (-1) (-1)
/-- `'x' (!'x' (ESC | .))* 'x'` -/
def quoted (rn esc : String) (cb : Option Nat) (open_ close : Bytes) : List Node :=
  [tok rn open_, chars rn esc cb close, tok rn close]
/-- `min:INT?` -/
def bound (lab : String) : Node := .exist (litem "RANGE" lab) (.choice (item "RANGE") [intBody])
/-- `join:(!__ PRIMARY)?` -/
def joinItem (rn : String) : Node := .exist (litem rn "join") (.seq (item rn) .single
  [.not (Info.dumb (item rn)) (.choice (Info.dumb (part rn)) [wssBody]), .ref (item rn) "PRIMARY"])
/-- `label:LABEL ':'` -/
def labelSeq : Node := .seq (item "LABELED[0]") .object
  [.choice (litem "LABELED[0]" "label") [labelBody], tok "LABELED[0]" [0x3A]]
/-- `_ '->' _ code:CODE` -/
def codeSeq : Node := .seq (item "PRIMARY[2]") .object
  [ws "PRIMARY[2]", tok "PRIMARY[2]" [0x2D, 0x3E], ws "PRIMARY[2]", .ref (litem "PRIMARY[2]" "code") "CODE"]

/-- The rules by number. -/
def rules : List Node := [
  labelBody, wordBody, intBody, pipeBody, wsBody, wssBody, anyBody, escBody "ESC1" none, escBody "ESC2" (some 13),
  -- 9
  .seq (top "EXPR[0]") .single [.ref (item "EXPR[0]") "CHOICE", ws "EXPR[0]"],
  -- 10
  .seq (top "CHOICE[0]" (some 0)) .single [.pattern (Info.dumb (item "CHOICE[0]")) (pipe "CHOICE[0]") none (-1) (-1),
    .pattern (item "CHOICE[0]") (.ref (part "CHOICE[0]") "SEQUENCE") (some (pipe "CHOICE[0]")) 2 (-1),
    .pattern (Info.dumb (item "CHOICE[0]")) (pipe "CHOICE[0]") none (-1) (-1)],
  -- 11
  .pattern (top "SEQUENCE[0]" (some 1)) (.ref (part "SEQUENCE[0]") "UNIT") none 2 (-1),
  -- 12
  .seq (top "UNIT[0]") .single [ws "UNIT[0]", .ref (item "UNIT[0]") "LABELED"],
  -- 13
  .seq (top "LABELED[0]") .object [.exist (litem "LABELED[0]" "@") labelSeq,
    .choice (litem "LABELED[0]" "&") [.ref (part "LABELED[0]") "DECORATED", .ref (part "LABELED[0]") "PRIMARY"]],
  -- 14
  .seq (top "RANGE") .object [tok "RANGE" [0x7B], ws "RANGE", bound "min", ws "RANGE", tok "RANGE" [0x2C], ws "RANGE",
    bound "max", ws "RANGE", tok "RANGE" [0x7D]],
  -- 15
  .seq (top "DECORATED[0]" (some 2)) .single [.ref (item "DECORATED[0]") "PRIMARY", tok "DECORATED[0]" [0x3F]],
  -- 16
  .seq (top "DECORATED[1]" (some 3)) .object [.ref (litem "DECORATED[1]" "value") "PRIMARY", tok "DECORATED[1]" [0x2A],
    joinItem "DECORATED[1]", .exist (litem "DECORATED[1]" "@") (.ref (item "DECORATED[1]") "RANGE")],
  -- 17
  .seq (top "DECORATED[2]" (some 4)) .object [.ref (litem "DECORATED[2]" "value") "PRIMARY", tok "DECORATED[2]" [0x2B],
    joinItem "DECORATED[2]"],
  -- 18
  .seq (top "DECORATED[3]" (some 3)) .object [.ref (litem "DECORATED[3]" "value") "PRIMARY",
    .ref (litem "DECORATED[3]" "@") "RANGE"],
  -- 19
  .seq (top "DECORATED[4]" (some 5)) .single [tok "DECORATED[4]" [0x21], .ref (item "DECORATED[4]") "PRIMARY"],
  -- 20
  .choice (top "DECORATED[5]" (some 6)) [
    .seq (part "DECORATED[5]") .object [tok "DECORATED[5]" [0x28, 0x3F], .ref (litem "DECORATED[5]" "expr") "EXPR",
      tok "DECORATED[5]" [0x29]],
    .seq (part "DECORATED[5]") .object [tok "DECORATED[5]" [0x3F], .ref (litem "DECORATED[5]" "expr") "EXPR"]],
  -- 21
  .choice (top "DECORATED") [.rule 15, .rule 16, .rule 17, .rule 18, .rule 19, .rule 20],
  -- 22
  .seq (top "CODE" (some 8)) .single (quoted "CODE" "ESC1" none [0x7B] [0x7D]),
  -- 23
  .seq (top "PRIMARY[0]" (some 7)) .array [.choice (item "PRIMARY[0]") [wordBody], tok "PRIMARY[0]" [0x28],
    .ref (item "PRIMARY[0]") "EXPR", tok "PRIMARY[0]" [0x29]],
  -- 24
  .choice (top "PRIMARY[1]" (some 7)) [wordBody],
  -- 25
  .seq (top "PRIMARY[2]" (some 8)) .object [tok "PRIMARY[2]" [0x28],
    .exist (litem "PRIMARY[2]" "inlineLabel") (.seq (item "PRIMARY[2]") .single
      [.choice (item "PRIMARY[2]") [wordBody], tok "PRIMARY[2]" [0x3A, 0x20]]),
    .ref (litem "PRIMARY[2]" "expr") "EXPR", tok "PRIMARY[2]" [0x29], .exist (litem "PRIMARY[2]" "@") codeSeq],
  -- 26
  .seq (top "PRIMARY[3]" (some 9)) .single (quoted "PRIMARY[3]" "ESC1" none [0x27] [0x27]),
  -- 27
  .seq (top "PRIMARY[4]" (some 10)) .single (quoted "PRIMARY[4]" "ESC2" (some 13) [0x2F] [0x2F]),
  -- 28
  .seq (top "PRIMARY[5]" (some 11)) .single (quoted "PRIMARY[5]" "ESC2" (some 13) [0x5B] [0x5D]),
  -- 29
  .choice (top "PRIMARY") [.rule 23, .rule 24, .rule 25, .rule 26, .rule 27, .rule 28],
  -- 30
  .choice (top "LABELED") [.rule 13, .rule 21, .rule 29],
  -- 31
  .choice (top "UNIT") [.rule 12, .rule 30],
  -- 32
  .choice (top "SEQUENCE") [.rule 11, .rule 31],
  -- 33
  .choice (top "CHOICE") [.rule 10, .rule 32],
  -- 34
  .choice (top "EXPR") [.rule 9, .rule 33]]

/-- The names of the rules, latest first. -/
def names : List (String × Nat) := [("EXPR", 34), ("CHOICE", 33), ("SEQUENCE", 32), ("UNIT", 31), ("LABELED", 30),
  ("PRIMARY", 29), ("PRIMARY[5]", 28), ("PRIMARY[4]", 27), ("PRIMARY[3]", 26), ("PRIMARY[2]", 25), ("PRIMARY[1]", 24),
  ("PRIMARY[0]", 23), ("CODE", 22), ("DECORATED", 21), ("DECORATED[5]", 20), ("DECORATED[4]", 19), ("DECORATED[3]", 18),
  ("DECORATED[2]", 17), ("DECORATED[1]", 16), ("DECORATED[0]", 15), ("RANGE", 14), ("LABELED[0]", 13), ("UNIT[0]", 12),
  ("SEQUENCE[0]", 11), ("CHOICE[0]", 10), ("EXPR[0]", 9), ("ESC2", 8), ("ESC1", 7), (".", 6), ("__", 5), ("_", 4),
  ("_PIPE", 3), ("INT", 2), ("WORD", 1), ("LABEL", 0)]

/-- The grammar. -/
def G : Grammar where
  rules := rules
  lookup nm := (names.find? fun p => p.1 == nm).map (·.2)
  root := .choice { name := "__joeson__", parent := some false } [.rule 34]

open Lean Meta Elab Tactic in
/-- `rfl`, checked by the kernel only. -/
elab "kernel_rfl" : tactic => do
  let goal ← getMainGoal
  let some (α, a, _) := (← instantiateMVars (← goal.getType)).eq? | throwError "not an equality"
  goal.assign (mkApp2 (mkConst ``Eq.refl [← getLevel α]) α a)

/-! ## The lines are plain -/

mutual
/-- Decides `Node.Plain`. -/
def plainB : Node → Bool
  | .choice _ l => l.length != 1 && plainListB l
  | .seq _ _ l => plainListB l
  | .exist _ n | .look _ n | .not _ n => plainB n
  | .pattern _ v none _ _ => plainB v
  | .pattern _ v (some j) _ _ => plainB v && plainB j
  | .rule _ => false
  | .str _ _ | .regex _ _ | .ref _ _ => true
/-- The same for all. -/
def plainListB : List Node → Bool
  | [] => true
  | n :: l => plainB n && plainListB l
end

mutual
theorem plainB_plain : ∀ {n : Node}, plainB n = true → n.Plain
  | .str _ _, _ => .str
  | .regex _ _, _ => .regex
  | .ref _ _, _ => .ref
  | .rule _, h => by simp [plainB] at h
  | .choice _ l, h => by
    simp only [plainB, Bool.and_eq_true] at h
    exact .choice (plainListB_plain h.2) fun c hc => by simp [hc] at h
  | .seq _ _ l, h => .seq (plainListB_plain (by simpa [plainB] using h))
  | .exist _ n, h => .exist (plainB_plain (by simpa [plainB] using h))
  | .look _ n, h => .look (plainB_plain (by simpa [plainB] using h))
  | .not _ n, h => .not (plainB_plain (by simpa [plainB] using h))
  | .pattern _ v none _ _, h => .pattern (plainB_plain (by simpa [plainB] using h)) (by simp)
  | .pattern _ v (some j) _ _, h => by
    simp only [plainB, Bool.and_eq_true] at h
    refine .pattern (plainB_plain h.1) fun c hc => ?_
    cases hc
    exact plainB_plain h.2
theorem plainListB_plain : ∀ {l : List Node}, plainListB l = true → ∀ c ∈ l, c.Plain
  | [], _, c, hc => by simp at hc
  | n :: l, h, c, hc => by
    simp only [plainListB, Bool.and_eq_true] at h
    have h1 := plainB_plain h.1
    rcases List.mem_cons.mp hc with rfl | hc
    · exact h1
    · exact plainListB_plain h.2 c hc
end

mutual
/-- Decides `Line.Plain`. -/
def linePlainB : Line → Bool
  | .o _ c _ | .i _ c _ => linePlainB c
  | .a ls => linesPlainB ls
  | .s _ => true
  | .c _ p => plainB p
/-- The same for all. -/
def linesPlainB : List Line → Bool
  | [] => true
  | l :: ls => linePlainB l && linesPlainB ls
end

mutual
theorem linePlainB_plain : ∀ {l : Line}, linePlainB l = true → l.Plain
  | .o _ c _, h => .o (linePlainB_plain (by simpa [linePlainB] using h))
  | .i _ c _, h => .i (linePlainB_plain (by simpa [linePlainB] using h))
  | .a ls, h => .a (linesPlainB_plain (by simpa [linePlainB] using h))
  | .s _, _ => .s
  | .c _ p, h => .c (plainB_plain (by simpa [linePlainB] using h))
theorem linesPlainB_plain : ∀ {ls : List Line}, linesPlainB ls = true → ∀ l ∈ ls, l.Plain
  | [], _, l, hl => by simp at hl
  | x :: ls, h, l, hl => by
    simp only [linesPlainB, Bool.and_eq_true] at h
    have h1 := linePlainB_plain h.1
    rcases List.mem_cons.mp hl with rfl | hl
    · exact h1
    · exact linesPlainB_plain h.2 l hl
end

/-- `postinit` without the first walk. -/
def postinitNoMono (rank : Rules) : Except Panic Made := do
  let (root, s) ← connect "" {} rank
  let rules ← prepAll s.lookup (s.id2rule.map (·.2.2)) []
  let root ← root.prep (fun m => m.hasLabels (followLabels s.lookup rules rules.length)) rules
  let labels := fun m => match Node.hasLabels (followLabels s.lookup rules rules.length) m with
    | .ok b => Except.ok b
    | .error _ => .error .notModelled
  let rules ← setTypesAll labels rules
  let root ← root.setTypes labels
  let link := inlineRule s.lookup (s.id2rule.map (·.2.1)) rules rules.length
  let target := fun nm => match s.lookup nm with | some id => link id | none => .ok none
  let rules ← inlineAll target link rules
  let root ← root.inline target link
  return ⟨{ rules := rules, lookup := s.lookup, root := root }, s⟩

theorem postinit_eq {x : Rules} (h : x.Plain) : postinit x = postinitNoMono x := by
  unfold postinit postinitNoMono
  rw [walkMonoGrammar, walkMonoRules_plain _ h, walkMonoRules_plain _ h]
  rfl

/-- The lines, if they are. -/
def lineList : List Line := match joesonLines with
  | .ok l => l
  | .error _ => []

theorem lines_ok : joesonLines = .ok lineList := by kernel_rfl

theorem lines_plain : ∀ l ∈ lineList, l.Plain := linesPlainB_plain (by kernel_rfl)

theorem lines_wrapped : ∀ l ∈ lineList, l.wrapped = false := by
  have : lineList.all (fun l => !l.wrapped) = true := by kernel_rfl
  intro l hl
  simpa using List.all_eq_true.mp this l hl

theorem map_ok {α β : Type} {x : Except Panic α} {f : α → β} {b : β} (h : x.map f = .ok b) : ∃ a, x = .ok a ∧ f a = b := by
  cases x with
  | error e => cases h
  | ok a => exact ⟨a, rfl, Except.ok.inj h⟩

theorem grammar_noMono (X : Except Panic (List Line)) (hp : ∀ L, X = .ok L → ∀ l ∈ L, l.Plain) (name : String) :
    (do grammarFromLines (fun _ => .error .assertion) name (← X)) =
      (do postinitNoMono (← rankFromLines (fun _ => .error .assertion) name (← X))) := by
  cases X with
  | error e => rfl
  | ok L =>
    show grammarFromLines _ _ L = (do postinitNoMono (← rankFromLines _ _ L))
    unfold grammarFromLines
    cases hr : rankFromLines (fun _ => .error .assertion) name L with
    | error e => rfl
    | ok x =>
      show postinit x = postinitNoMono x
      rw [postinit_eq]
      simp only [rankFromLines, exceptBindOk, exceptPureOk, Prod.exists] at hr
      obtain ⟨r, n, hr, rfl⟩ := hr
      have hok := (rankLines_plain (by intro s n h; cases h) L (hp L rfl) ⟨by simp, by simp, by simp, by simp⟩ hr).1
      exact .rank hok.incl hok.alts rfl hok.inclR hok.altsR

theorem eval_eq : ((do postinitNoMono (← rankFromLines (fun _ => .error .assertion) "__joeson__" (← joesonLines))) :
    Except Panic Made).map Made.g = .ok G := by kernel_rfl

theorem made_eq : (joesonMade.map Made.g) = .ok G := by
  refine Eq.trans ?_ eval_eq
  unfold joesonMade
  refine congrArg _ (grammar_noMono joesonLines ?_ "__joeson__")
  intro L hL
  rw [lines_ok] at hL
  cases hL
  exact lines_plain

/-- The grammar of rule texts is built without panic, and this is it. -/
theorem made : ∃ m, joesonMade = .ok m ∧ m.g = G := map_ok made_eq

end Joeson.Joe
