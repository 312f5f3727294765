import Verif.Spec.CodePoints
import Verif.Model.Joeson
/-!
# The syntax of rule texts, and the parsers they denote

Written from README.md and the comments of parser_*.go, not from the grammar `JoesonRules`. A tree holds every choice of
layout: `text` gives the text, `node` the parser it stands for. The only parts shared with the model are the constructors
of parsers (`mkStr`, `mkRef`, ...), which say which attributes a new parser has.
-/

namespace Joeson.RuleText

/-- Spaces and newlines. -/
def Blank (w : Bytes) : Prop := ∀ x ∈ w, x = 0x20 ∨ x = 0x0A

/-- Letters, `.` and `_`. -/
def Letter (x : UInt8) : Prop :=
  (0x61 ≤ x.toNat ∧ x.toNat ≤ 0x7A) ∨ (0x41 ≤ x.toNat ∧ x.toNat ≤ 0x5A) ∨ x = 0x2E ∨ x = 0x5F

/-- Decimal digits. -/
def Digit (x : UInt8) : Prop := 0x30 ≤ x.toNat ∧ x.toNat ≤ 0x39

/-- Names of rules, and labels: a letter, followed by letters and digits. -/
def Word (w : Bytes) : Prop := ∃ x l, w = x :: l ∧ Letter x ∧ ∀ y ∈ l, Letter y ∨ Digit y

/-- Value of decimal digits. -/
def decimal (ds : Bytes) : Nat := ds.foldl (fun n x => 10 * n + (x.toNat - 0x30)) 0

/-- A number that fits in an `int`. -/
def Number (ds : Bytes) : Prop := ds ≠ [] ∧ (∀ x ∈ ds, Digit x) ∧ decimal ds < 2 ^ 63

/-- A character of a string or regular expression, possibly after a backslash. -/
structure Piece where
  escaped : Bool
  char : Nat

/-- As text. -/
def Piece.text (p : Piece) : Bytes := (if p.escaped then [0x5C] else []) ++ Spec.utf8 [p.char]

/-- The closing delimiter and the backslash must be escaped. -/
def Piece.Ok (close : Nat) (p : Piece) : Prop :=
  Spec.Scalar p.char ∧ (p.escaped = false → p.char ≠ close ∧ p.char ≠ 0x5C)

/-- All of it. -/
def pieces (l : List Piece) : Bytes := l.flatMap Piece.text

/-- `{min,max}`: both may be missing, and blanks may be anywhere. -/
structure Bounds where
  w0 : Bytes
  min : Option Bytes
  w1 : Bytes
  w2 : Bytes
  max : Option Bytes
  w3 : Bytes

/-- As text. -/
def Bounds.text (r : Bounds) : Bytes :=
  [0x7B] ++ r.w0 ++ r.min.getD [] ++ r.w1 ++ [0x2C] ++ r.w2 ++ r.max.getD [] ++ r.w3 ++ [0x7D]

/-- Is it one? -/
def Bounds.Ok (r : Bounds) : Prop :=
  Blank r.w0 ∧ Blank r.w1 ∧ Blank r.w2 ∧ Blank r.w3 ∧ (∀ ds, r.min = some ds → Number ds) ∧
    (∀ ds, r.max = some ds → Number ds)

/-- A missing bound is -1. -/
def boundOf : Option Bytes → Int
  | none => -1
  | some ds => decimal ds

/-- The bounds of a repetition. -/
def minOf (r : Option Bounds) : Int := boundOf (r.bind Bounds.min)
/-- The bounds of a repetition. -/
def maxOf (r : Option Bounds) : Int := boundOf (r.bind Bounds.max)

mutual
/-- What can be repeated. -/
inductive Prim where
  /-- `w` -/
  | ref (w : Bytes)
  /-- `w(e)` -/
  | call (w : Bytes) (e : Expr)
  /-- `(e)` -/
  | group (e : Expr)
  /-- `(w: e)` -/
  | lgroup (w : Bytes) (e : Expr)
  /-- `'...'` -/
  | str (l : List Piece)
  /-- `/.../` -/
  | regex (l : List Piece) (re : Regex)
  /-- `[...]` -/
  | cls (l : List Piece) (re : Regex)
/-- Possibly with an operator. -/
inductive Deco where
  /-- `p` -/
  | prim (p : Prim)
  /-- `p?` -/
  | opt (p : Prim)
  /-- `p*{min,max}` -/
  | star (p : Prim) (r : Option Bounds)
  /-- `p*j{min,max}` -/
  | starJoin (p j : Prim) (r : Option Bounds)
  /-- `p+` -/
  | plus (p : Prim)
  /-- `p+j` -/
  | plusJoin (p j : Prim)
  /-- `p{min,max}` -/
  | times (p : Prim) (r : Bounds)
  /-- `!p` -/
  | not (p : Prim)
  /-- `(?e)` -/
  | look (e : Expr)
/-- One or more, possibly labelled, each after blanks. -/
inductive Units where
  | one (w : Bytes) (lab : Option Bytes) (d : Deco)
  | cons (w : Bytes) (lab : Option Bytes) (d : Deco) (us : Units)
  /-- `?e` at the end: everything up to the end is part of it -/
  | open_ (w : Bytes) (lab : Option Bytes) (e : Expr)
/-- One or more, separated by `|`. -/
inductive Alts where
  | one (us : Units)
  | cons (us : Units) (w : Bytes) (as : Alts)
/-- A whole text, or what is between parentheses. -/
inductive Expr where
  /-- no choice, and blanks at the end -/
  | single (us : Units) (w : Bytes)
  /-- a choice. There can be extra `|` in front and behind. -/
  | choice (lead : List Bytes) (us : Units) (w : Bytes) (as : Alts) (trail : List Bytes) (w' : Bytes)
end

/-- `|`s, each after blanks. -/
def bars (l : List Bytes) : Bytes := l.flatMap fun w => w ++ [0x7C]

/-- A label. -/
def labText : Option Bytes → Bytes
  | none => []
  | some w => w ++ [0x3A]

/-- `&`, `@` or a name. -/
def LabOk (lab : Option Bytes) : Prop := ∀ w, lab = some w → w = [0x26] ∨ w = [0x40] ∨ Word w

/-- As text. -/
def boundsText : Option Bounds → Bytes
  | none => []
  | some r => r.text

mutual
/-- The text. -/
def Prim.text : Prim → Bytes
  | .ref w => w
  | .call w e => w ++ [0x28] ++ e.text ++ [0x29]
  | .group e => [0x28] ++ e.text ++ [0x29]
  | .lgroup w e => [0x28] ++ w ++ [0x3A, 0x20] ++ e.text ++ [0x29]
  | .str l => [0x27] ++ pieces l ++ [0x27]
  | .regex l _ => [0x2F] ++ pieces l ++ [0x2F]
  | .cls l _ => [0x5B] ++ pieces l ++ [0x5D]
/-- The text. -/
def Deco.text : Deco → Bytes
  | .prim p => p.text
  | .opt p => p.text ++ [0x3F]
  | .star p r => p.text ++ [0x2A] ++ boundsText r
  | .starJoin p j r => p.text ++ [0x2A] ++ j.text ++ boundsText r
  | .plus p => p.text ++ [0x2B]
  | .plusJoin p j => p.text ++ [0x2B] ++ j.text
  | .times p r => p.text ++ r.text
  | .not p => [0x21] ++ p.text
  | .look e => [0x28, 0x3F] ++ e.text ++ [0x29]
/-- The text. -/
def Units.text : Units → Bytes
  | .one w lab d => w ++ labText lab ++ d.text
  | .cons w lab d us => w ++ labText lab ++ d.text ++ us.text
  | .open_ w lab e => w ++ labText lab ++ [0x3F] ++ e.text
/-- The text. -/
def Alts.text : Alts → Bytes
  | .one us => us.text
  | .cons us w as => us.text ++ w ++ [0x7C] ++ as.text
/-- The text. -/
def Expr.text : Expr → Bytes
  | .single us w => us.text ++ w
  | .choice lead us w as trail w' => bars lead ++ us.text ++ w ++ [0x7C] ++ as.text ++ bars trail ++ w'
end

/-- The blanks in front. -/
def Units.lead : Units → Bytes
  | .one w _ _ | .cons w _ _ _ | .open_ w _ _ => w

/-- Does it end with a `?e`? -/
def Units.isOpen : Units → Bool
  | .one _ _ _ => false
  | .cons _ _ _ us => us.isOpen
  | .open_ _ _ _ => true

/-- Does it end with a `?e`? -/
def Alts.isOpen : Alts → Bool
  | .one us => us.isOpen
  | .cons _ _ as => as.isOpen

/-- Can the next element of a sequence, which begins with `x`, be written against it? A name would go on with a letter, and
take a parenthesis for its parameter. -/
def Prim.before (x : UInt8) : Prim → Prop
  | .ref _ => ¬ Letter x ∧ x ≠ 0x28
  | _ => True

/-- The same. A primary would become optional with `?`; after `*` or `+` a primary is the separator. -/
def Deco.before (x : UInt8) : Deco → Prop
  | .prim p => p.before x ∧ x ≠ 0x3F
  | .star _ none | .plus _ => ¬ (Letter x ∨ x = 0x28 ∨ x = 0x27 ∨ x = 0x2F ∨ x = 0x5B)
  | .starJoin _ j none | .plusJoin _ j => j.before x
  | .not p => p.before x
  | .look _ => x ≠ 0x3F
  | .opt _ | .star _ (some _) | .starJoin _ _ (some _) | .times _ _ => True

/-- The next elements of the sequence begin with a blank, or can be written without. -/
def Deco.apart (d : Deco) (us : Units) : Prop := us.lead ≠ [] ∨ ∀ x l, us.text = x :: l → d.before x

section
variable (rx : Bytes → Option Regex)

mutual
/-- The supported syntax: names are names, delimiters are escaped, regular expressions compile, there are blanks between
the elements of a sequence where they are needed. -/
def Prim.Ok : Prim → Prop
  | .ref w => Word w
  | .call w e => Word w ∧ e.Ok
  | .group e => e.Ok
  | .lgroup w e => Word w ∧ e.Ok
  | .str l => ∀ p ∈ l, p.Ok 0x27
  | .regex l re => (∀ p ∈ l, p.Ok 0x2F) ∧ rx (pieces l) = some re
  | .cls l re => (∀ p ∈ l, p.Ok 0x5D) ∧ rx ([0x5B] ++ pieces l ++ [0x5D]) = some re
/-- The supported syntax. -/
def Deco.Ok : Deco → Prop
  | .prim p | .opt p | .plus p | .not p => p.Ok
  | .star p r => p.Ok ∧ ∀ b, r = some b → b.Ok
  | .starJoin p j r => p.Ok ∧ j.Ok ∧ ∀ b, r = some b → b.Ok
  | .plusJoin p j => p.Ok ∧ j.Ok
  | .times p r => p.Ok ∧ r.Ok
  | .look e => e.Ok
/-- The supported syntax. -/
def Units.Ok : Units → Prop
  | .one w lab d => Blank w ∧ LabOk lab ∧ d.Ok
  | .cons w lab d us => Blank w ∧ LabOk lab ∧ d.Ok ∧ us.Ok ∧ d.apart us
  | .open_ w lab e => Blank w ∧ LabOk lab ∧ e.Ok
/-- The supported syntax. -/
def Alts.Ok : Alts → Prop
  | .one us => us.Ok
  | .cons us w as => us.Ok ∧ us.isOpen = false ∧ Blank w ∧ as.Ok
/-- The supported syntax. -/
def Expr.Ok : Expr → Prop
  | .single us w => us.Ok ∧ Blank w ∧ (us.isOpen = true → w = [])
  | .choice lead us w as trail w' => (∀ x ∈ lead, Blank x) ∧ us.Ok ∧ us.isOpen = false ∧ Blank w ∧ as.Ok ∧
      (∀ x ∈ trail, Blank x) ∧ Blank w' ∧ (as.isOpen = true → trail = [] ∧ w' = [])
end
end

/-- A label, if given, replaces the one there is. -/
def labelled (lab : Option Bytes) (n : Node) : Node :=
  match lab with
  | none => n
  | some w => n.setInfo fun i => { i with label := nameOf w }

/-- A sequence of one is not a sequence. -/
def seqOf : List Node → Node
  | [n] => n
  | l => mkSeq l

mutual
/-- The parser it denotes. -/
def Prim.node : Prim → Node
  | .ref w | .call w _ => mkRef (nameOf w) (w.head? == some 0x5F)
  | .group e | .lgroup _ e => e.node
  | .str l => mkStr (Spec.utf8 (l.map Piece.char))
  | .regex _ re | .cls _ re => mkRegex re
/-- The parser it denotes. -/
def Deco.node : Deco → Node
  | .prim p => p.node
  | .opt p => mkExist p.node
  | .star p r => mkPattern p.node none (minOf r) (maxOf r)
  | .starJoin p j r => mkPattern p.node (some j.node) (minOf r) (maxOf r)
  | .plus p => mkPattern p.node none 1 (-1)
  | .plusJoin p j => mkPattern p.node (some j.node) 1 (-1)
  | .times p r => mkPattern p.node none (minOf (some r)) (maxOf (some r))
  | .not p => mkNot p.node
  | .look e => mkLook e.node
/-- The parsers they denote. -/
def Units.nodes : Units → List Node
  | .one _ lab d => [labelled lab d.node]
  | .cons _ lab d us => labelled lab d.node :: us.nodes
  | .open_ _ lab e => [labelled lab (mkLook e.node)]
/-- The parsers they denote. -/
def Alts.nodes : Alts → List Node
  | .one us => [seqOf us.nodes]
  | .cons us _ as => seqOf us.nodes :: as.nodes
/-- The parser it denotes. -/
def Expr.node : Expr → Node
  | .single us _ => seqOf us.nodes
  | .choice _ us _ as _ _ => mkChoice (seqOf us.nodes :: as.nodes)
end

mutual
/-- How deep expressions are nested; `(?e)` counts twice. -/
def Prim.nest : Prim → Nat
  | .call _ e | .group e | .lgroup _ e => e.nest + 1
  | .ref _ | .str _ | .regex _ _ | .cls _ _ => 0
/-- How deep. -/
def Deco.nest : Deco → Nat
  | .prim p | .opt p | .plus p | .not p | .star p _ | .times p _ => p.nest
  | .starJoin p j _ | .plusJoin p j => max p.nest j.nest
  | .look e => e.nest + 2
/-- How deep. -/
def Units.nest : Units → Nat
  | .one _ _ d => d.nest
  | .cons _ _ d us => max d.nest us.nest
  | .open_ _ _ e => e.nest + 1
/-- How deep. -/
def Alts.nest : Alts → Nat
  | .one us => us.nest
  | .cons us _ as => max us.nest as.nest
/-- How deep. -/
def Expr.nest : Expr → Nat
  | .single us _ => us.nest
  | .choice _ us _ as _ _ => max us.nest as.nest
end

end Joeson.RuleText
