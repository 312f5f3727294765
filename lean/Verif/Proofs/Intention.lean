import Verif.Model.Intention
import Verif.Proofs.JoesonG
import Verif.Proofs.RuleTextB
import Verif.Spec.Lang
import Verif.Proofs.Inline
/-!
# The grammar that `IntentionRules` builds
-/

namespace Joeson.Intent
open RuleText Joe

/-! ## The trees of the texts -/

/-- A string without backslashes. -/
def q (s : String) : Prim := .str (s.toList.map fun c => ⟨false, c.toNat⟩)
/-- A reference. -/
def w (s : String) : Prim := .ref (asc s)
/-- A sequence: the first after `lead`, the others after one space. -/
def us (lead : Bytes) (x : Option String × Deco) : List (Option String × Deco) → Units
  | [] => .one lead (x.1.map asc) x.2
  | y :: l => .cons lead (x.1.map asc) x.2 (us [0x20] y l)
/-- A sequence on its own. -/
def one (x : Option String × Deco) (l : List (Option String × Deco)) : Expr := .single (us [] x l) []
/-- An item. -/
def it (p : Prim) : Option String × Deco := (none, .prim p)
/-- A labelled item. -/
def la (s : String) (p : Prim) : Option String × Deco := (some s, .prim p)
/-- `{min,}` -/
def atLeast (s : String) : Bounds := ⟨[], some (asc s), [], [], none, []⟩
/-- `a | b` -/
def or2 (a b : Prim) : Expr := .choice [] (us [] (it a) []) [0x20] (.one (us [0x20] (it b) [])) [] []
/-- `(!c (e | .))*` -/
def upTo (c : Prim) (e : String) : Option String × Deco :=
  (none, .star (.group (one (none, .not c) [it (.group (or2 (w e) (w ".")))])) none)
/-- `join:(!__ PRIMARY)?` -/
def join : Option String × Deco := (some "join", .opt (.group (one (none, .not (w "__")) [it (w "PRIMARY")])))
/-- `' ' | '\n'` -/
def blanks : Prim := .group (or2 (q " ") (q "\n"))
/-- `'\\' .` -/
def esc : Expr := one (it (.str [⟨true, 0x5C⟩])) [it (w ".")]
/-- `'\''` -/
def quote : Prim := .str [⟨true, 0x27⟩]
/-- The characters of a text, those after a backslash escaped. -/
def charsOf : List Char → List Piece
  | '\\' :: c :: l => ⟨true, c.toNat⟩ :: charsOf l
  | c :: l => ⟨false, c.toNat⟩ :: charsOf l
  | [] => []

/-- The lines. -/
def lines : List GLine :=
  [.alt "EXPR" none (.rank
    [.alt "" none (.text (one (it (w "CHOICE")) [it (w "_")])),
     .alt "CHOICE" none (.rank
      [.alt "" (some 0) (.text (one (none, .star (w "_PIPE") none)
        [(none, .starJoin (w "SEQUENCE") (w "_PIPE") (some (atLeast "2"))), (none, .star (w "_PIPE") none)])),
       .alt "SEQUENCE" none (.rank
        [.alt "" (some 1) (.text (one (none, .times (w "UNIT") (atLeast "2")) [])),
         .alt "UNIT" none (.rank
          [.alt "" none (.text (one (it (w "_")) [it (w "LABELED")])),
           .alt "LABELED" none (.rank
            [.alt "" none (.text (one (none, .opt (.group (one (la "label" (w "LABEL")) [it (q ":")])))
              [la "&" (.group (.choice [] (us [] (it (w "DECORATED")) []) [] (.one (us [] (it (w "PRIMARY")) [])) [] []))])),
             .alt "DECORATED" none (.rank
              [.alt "" (some 2) (.text (one (it (w "PRIMARY")) [it (q "?")])),
               .alt "" (some 3) (.text (one (la "value" (w "PRIMARY")) [it (q "*"), join, (some "@", .opt (w "RANGE"))])),
               .alt "" (some 4) (.text (one (la "value" (w "PRIMARY")) [it (q "+"), join])),
               .alt "" (some 3) (.text (one (la "value" (w "PRIMARY")) [la "@" (w "RANGE")])),
               .alt "" (some 5) (.text (one (it (q "!")) [it (w "PRIMARY")])),
               .alt "" (some 6) (.text (.choice [] (us [] (it (q "(?")) [la "expr" (w "EXPR"), it (q ")")]) [0x20]
                (.one (us [0x20] (it (q "?")) [la "expr" (w "EXPR")])) [] [])),
               .incl "RANGE" none (.text (one (it (q "{")) [it (w "_"), (some "min", .opt (w "INT")), it (w "_"), it (q ","),
                it (w "_"), (some "max", .opt (w "INT")), it (w "_"), it (q "}")]))]),
             .alt "PRIMARY" none (.rank
              [.alt "" (some 7) (.text (one (it (w "WORD")) [it (q "("), it (w "EXPR"), it (q ")")])),
               .alt "" (some 7) (.text (one (it (w "WORD")) [])),
               .alt "" (some 8) (.text (one (it (q "(")) [(some "inlineLabel", .opt (.group (one (it (w "WORD")) [it (q ": ")]))),
                la "expr" (w "EXPR"), it (q ")"),
                (none, .opt (.group (.single (us [0x20] (it (w "_")) [it (q "->"), it (w "_"), la "code" (w "CODE")]) [0x20])))])),
               .incl "CODE" (some 8) (.text (one (it (q "{")) [upTo (q "}") "ESC1", it (q "}")])),
               .alt "" (some 9) (.text (one (it quote) [upTo quote "ESC1", it quote])),
               .alt "" (some 10) (.text (one (it (q "/")) [upTo (q "/") "ESC2", it (q "/")])),
               .alt "" (some 11) (.text (one (it (q "[")) [upTo (q "]") "ESC2", it (q "]")]))])])])])])]),
   .incl "LABEL" none (.text (.choice [] (us [] (it (q "&")) []) [0x20]
      (.cons (us [0x20] (it (q "@")) []) [0x20] (.one (us [0x20] (it (w "WORD")) []))) [] [])),
   .incl "WORD" none (.text (one (it (.regex (charsOf "[a-zA-Z\\._][a-zA-Z\\._0-9]*".toList) reWord)) [])),
   .incl "INT" (some 12) (.text (one (it (.regex (charsOf "[0-9]+".toList) reInt)) [])),
   .incl "_PIPE" none (.text (one (it (w "_")) [it (q "|")])),
   .incl "_" none (.text (one (none, .star blanks none) [])),
   .incl "__" none (.text (one (none, .plus blanks) [])),
   .incl "." none (.text (one (it (.regex (charsOf "[\\s\\S]".toList) reAny)) [])),
   .incl "ESC1" none (.text esc),
   .incl "ESC2" (some 13) (.text esc)]

theorem lines_eq : linesOf lines = intentionLines := by kernel_rfl


/-! ## The grammar -/

mutual
/-- The texts of a line. -/
def lineExprs : GLine → List Expr
  | .alt _ _ b | .incl _ _ b => bodyExprs b
/-- The texts. -/
def bodyExprs : Body → List Expr
  | .text e => [e]
  | .rank ls => linesExprs ls
/-- The texts. -/
def linesExprs : List GLine → List Expr
  | [] => []
  | l :: ls => lineExprs l ++ linesExprs ls
end

/-- The parsers of these texts. -/
def table (l : List Expr) (text : Bytes) : Except Panic Node :=
  match l.find? fun e => e.text == text with
  | some e => .ok e.node
  | none => .error .assertion

/-- a reference to `_` -/
def ws (rn : String) : Node := .ref (Info.dumb (item rn)) "_"
/-- `_PIPE` -/
def pipeBody : Node := .seq (top "_PIPE") .single [ws "_PIPE", tok "_PIPE" [0x7C]]
/-- a reference to `_PIPE` -/
def pipe (rn : String) : Node := .ref (Info.dumb (part rn)) "_PIPE"
/-- `LABEL` -/
def labelBody : Node := .choice (Info.dumb (top "LABEL"))
  [.str (Info.dumb (part "LABEL")) [0x26], .str (Info.dumb (part "LABEL")) [0x40], .ref (part "LABEL") "WORD"]
/-- `ESC1` and `ESC2` -/
def escBody (rn : String) (cb : Option Nat) : Node :=
  .seq (top rn cb) .single [tok rn [0x5C], .ref (item rn) "."]
/-- `(!'x' (ESC | .))*` -/
def chars (rn esc : String) (close : Bytes) : Node :=
  .pattern (item rn) (.seq (part rn) .single [.not (Info.dumb (item rn)) (.str (Info.dumb (part rn)) close),
    .choice (item rn) [.ref (part rn) esc, .ref (part rn) "."]]) none (-1) (-1)
/-- `'x' (!'x' (ESC | .))* 'x'` -/
def quoted (rn esc : String) (open_ close : Bytes) : List Node :=
  [tok rn open_, chars rn esc close, tok rn close]
/-- `min:INT?` -/
def bound (lab : String) : Node := .exist (litem "RANGE" lab) (.ref (item "RANGE") "INT")
/-- `join:(!__ PRIMARY)?` -/
def joinItem (rn : String) : Node := .exist (litem rn "join") (.seq (item rn) .single
  [.not (Info.dumb (item rn)) (.ref (Info.dumb (part rn)) "__"), .ref (item rn) "PRIMARY"])
/-- `label:LABEL ':'` -/
def labelSeq : Node := .seq (item "LABELED[0]") .object
  [.ref (litem "LABELED[0]" "label") "LABEL", tok "LABELED[0]" [0x3A]]
/-- `_ '->' _ code:CODE` -/
def codeSeq : Node := .seq (item "PRIMARY[2]") .object
  [ws "PRIMARY[2]", tok "PRIMARY[2]" [0x2D, 0x3E], ws "PRIMARY[2]", .ref (litem "PRIMARY[2]" "code") "CODE"]

/-- The rules by number. -/
def rules : List Node := [
  labelBody, wordBody, intBody, pipeBody, wsBody, wssBody, anyBody, escBody "ESC1" none, escBody "ESC2" (some 13),
  -- 9
  .seq (top "EXPR[0]") .single [.ref (item "EXPR[0]") "CHOICE", ws "EXPR[0]"],
  -- 10
  .seq (top "CHOICE[0]" (some 0)) .single [.pattern (Info.dumb (item "CHOICE[0]")) (pipe "CHOICE[0]") none (-1) (-1),
    .pattern (item "CHOICE[0]") (.ref (part "CHOICE[0]") "SEQUENCE") (some (pipe "CHOICE[0]")) 2 (-1),
    .pattern (Info.dumb (item "CHOICE[0]")) (pipe "CHOICE[0]") none (-1) (-1)],
  -- 11
  .pattern (top "SEQUENCE[0]" (some 1)) (.ref (part "SEQUENCE[0]") "UNIT") none 2 (-1),
  -- 12
  .seq (top "UNIT[0]") .single [ws "UNIT[0]", .ref (item "UNIT[0]") "LABELED"],
  -- 13
  .seq (top "LABELED[0]") .object [.exist (litem "LABELED[0]" "@") labelSeq,
    .choice (litem "LABELED[0]" "&") [.ref (part "LABELED[0]") "DECORATED", .ref (part "LABELED[0]") "PRIMARY"]],
  -- 14
  .seq (top "RANGE") .object [tok "RANGE" [0x7B], ws "RANGE", bound "min", ws "RANGE", tok "RANGE" [0x2C], ws "RANGE",
    bound "max", ws "RANGE", tok "RANGE" [0x7D]],
  -- 15
  .seq (top "DECORATED[0]" (some 2)) .single [.ref (item "DECORATED[0]") "PRIMARY", tok "DECORATED[0]" [0x3F]],
  -- 16
  .seq (top "DECORATED[1]" (some 3)) .object [.ref (litem "DECORATED[1]" "value") "PRIMARY", tok "DECORATED[1]" [0x2A],
    joinItem "DECORATED[1]", .exist (litem "DECORATED[1]" "@") (.ref (item "DECORATED[1]") "RANGE")],
  -- 17
  .seq (top "DECORATED[2]" (some 4)) .object [.ref (litem "DECORATED[2]" "value") "PRIMARY", tok "DECORATED[2]" [0x2B],
    joinItem "DECORATED[2]"],
  -- 18
  .seq (top "DECORATED[3]" (some 3)) .object [.ref (litem "DECORATED[3]" "value") "PRIMARY",
    .ref (litem "DECORATED[3]" "@") "RANGE"],
  -- 19
  .seq (top "DECORATED[4]" (some 5)) .single [tok "DECORATED[4]" [0x21], .ref (item "DECORATED[4]") "PRIMARY"],
  -- 20
  .choice (top "DECORATED[5]" (some 6)) [
    .seq (part "DECORATED[5]") .object [tok "DECORATED[5]" [0x28, 0x3F], .ref (litem "DECORATED[5]" "expr") "EXPR",
      tok "DECORATED[5]" [0x29]],
    .seq (part "DECORATED[5]") .object [tok "DECORATED[5]" [0x3F], .ref (litem "DECORATED[5]" "expr") "EXPR"]],
  -- 21
  .choice (top "DECORATED") [.rule 15, .rule 16, .rule 17, .rule 18, .rule 19, .rule 20],
  -- 22
  .seq (top "CODE" (some 8)) .single (quoted "CODE" "ESC1" [0x7B] [0x7D]),
  -- 23
  .seq (top "PRIMARY[0]" (some 7)) .array [.ref (item "PRIMARY[0]") "WORD", tok "PRIMARY[0]" [0x28],
    .ref (item "PRIMARY[0]") "EXPR", tok "PRIMARY[0]" [0x29]],
  -- 24
  .ref (top "PRIMARY[1]" (some 7)) "WORD",
  -- 25
  .seq (top "PRIMARY[2]" (some 8)) .object [tok "PRIMARY[2]" [0x28],
    .exist (litem "PRIMARY[2]" "inlineLabel") (.seq (item "PRIMARY[2]") .single
      [.ref (item "PRIMARY[2]") "WORD", tok "PRIMARY[2]" [0x3A, 0x20]]),
    .ref (litem "PRIMARY[2]" "expr") "EXPR", tok "PRIMARY[2]" [0x29], .exist (litem "PRIMARY[2]" "@") codeSeq],
  -- 26
  .seq (top "PRIMARY[3]" (some 9)) .single (quoted "PRIMARY[3]" "ESC1" [0x27] [0x27]),
  -- 27
  .seq (top "PRIMARY[4]" (some 10)) .single (quoted "PRIMARY[4]" "ESC2" [0x2F] [0x2F]),
  -- 28
  .seq (top "PRIMARY[5]" (some 11)) .single (quoted "PRIMARY[5]" "ESC2" [0x5B] [0x5D]),
  -- 29
  .choice (top "PRIMARY") [.rule 23, .rule 24, .rule 25, .rule 26, .rule 27, .rule 28],
  -- 30
  .choice (top "LABELED") [.rule 13, .rule 21, .rule 29],
  -- 31
  .choice (top "UNIT") [.rule 12, .rule 30],
  -- 32
  .choice (top "SEQUENCE") [.rule 11, .rule 31],
  -- 33
  .choice (top "CHOICE") [.rule 10, .rule 32],
  -- 34
  .choice (top "EXPR") [.rule 9, .rule 33]]

/-- The grammar. -/
def I : Grammar where
  rules := rules
  lookup nm := (names.find? fun p => p.1 == nm).map (·.2)
  root := .choice { name := "gmIntention", parent := some false } [.rule 34]

/-- Evaluated. -/
theorem eval_eq : ((do postinitNoMono (← rankFromLines (table (linesExprs lines)) "gmIntention" (← intentionLines))) :
    Except Panic Made).map Made.g = .ok I := by kernel_rfl

/-! ## Both grammars of rule texts are the same, up to inlining -/

theorem inl_ws {k : Nat} {i : Info} : Inl I 2 (k + 1) (.choice i [wsBody]) (.ref i "_") :=
  .inline (id := 4) (body' := wsBody) (by decide +kernel) rfl rfl (.pat (.choices (.cons .str (.cons .str .nil))))
theorem inl_wss {k : Nat} {i : Info} : Inl I 2 (k + 1) (.choice i [wssBody]) (.ref i "__") :=
  .inline (id := 5) (body' := wssBody) (by decide +kernel) rfl rfl (.pat (.choices (.cons .str (.cons .str .nil))))
theorem inl_word {k : Nat} {i : Info} : Inl I 2 (k + 1) (.choice i [wordBody]) (.ref i "WORD") :=
  .inline (id := 1) (body' := wordBody) (by decide +kernel) rfl rfl .regex
theorem inl_int {k : Nat} {i : Info} : Inl I 2 (k + 1) (.choice i [intBody]) (.ref i "INT") :=
  .inline (id := 2) (body' := intBody) (by decide +kernel) rfl rfl .regex
theorem inl_any {k : Nat} {i : Info} : Inl I 2 (k + 1) (.choice i [anyBody]) (.ref i ".") :=
  .inline (id := 6) (body' := anyBody) (by decide +kernel) rfl rfl .regex
theorem pipe_body {k : Nat} : Inl I 2 (k + 1) Joe.pipeBody pipeBody := .seqs (.cons inl_ws (.cons .str .nil))
theorem inl_pipe {k : Nat} {i : Info} : Inl I 2 (k + 2) (.choice i [Joe.pipeBody]) (.ref i "_PIPE") :=
  .inline (id := 3) (body' := pipeBody) (by decide +kernel) rfl rfl pipe_body
theorem label_body {k : Nat} : Inl I 2 (k + 1) Joe.labelBody labelBody := .choices (.cons .str (.cons .str (.cons inl_word .nil)))
theorem inl_label {k : Nat} {i : Info} : Inl I 2 (k + 2) (.choice i [Joe.labelBody]) (.ref i "LABEL") :=
  .inline (id := 0) (body' := labelBody) (by decide +kernel) rfl rfl label_body
theorem esc_body {k : Nat} {rn : String} {cb : Option Nat} : Inl I 2 (k + 1) (Joe.escBody rn cb) (escBody rn cb) :=
  .seqs (.cons .str (.cons inl_any .nil))
theorem inl_esc1 {k : Nat} {i : Info} : Inl I 2 (k + 2) (.choice i [Joe.escBody "ESC1" none]) (.ref i "ESC1") :=
  .inline (id := 7) (body' := escBody "ESC1" none) (by decide +kernel) rfl rfl esc_body
theorem inl_esc2 {k : Nat} {i : Info} : Inl I 2 (k + 2) (.choice i [Joe.escBody "ESC2" (some 13)]) (.ref i "ESC2") :=
  .inline (id := 8) (body' := escBody "ESC2" (some 13)) (by decide +kernel) rfl rfl esc_body
theorem inl_quoted {rn esc : String} {cb : Option Nat} {o c : Bytes} (h : ∀ i, Inl I 2 2 (.choice i [Joe.escBody esc cb]) (.ref i esc)) :
    Inls I 2 2 (Joe.quoted rn esc cb o c) (quoted rn esc o c) :=
  .cons .str (.cons (.pat (.seqs (.cons (.not .str) (.cons (.choices (.cons (h _) (.cons inl_any .nil))) .nil)))) (.cons .str .nil))

theorem inl_rules : Inls I 2 2 Joe.rules rules := by
  unfold Joe.rules rules
  repeat' first
    | exact .nil
    | exact .str
    | exact .regex
    | exact .ref
    | exact .rule
    | exact inl_ws
    | exact inl_wss
    | exact inl_word
    | exact inl_int
    | exact inl_any
    | exact inl_pipe
    | exact inl_label
    | exact pipe_body
    | exact label_body
    | exact esc_body
    | exact inl_quoted fun _ => inl_esc1
    | exact inl_quoted fun _ => inl_esc2
    | apply Inls.cons
    | apply Inl.seqs
    | apply Inl.choices
    | apply Inl.exist
    | apply Inl.not
    | apply Inl.pat
    | apply Inl.patJoin

end Joeson.Intent
