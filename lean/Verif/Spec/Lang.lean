import Verif.Spec.RuleText
/-!
# The language of a grammar written as rule texts

Parsing expressions without labels, captures and callbacks, and the usual rules of parsing expression grammars on them:
which part of an input is matched. Written from README.md. No part of the model of the engine is used: neither the trees of
parsers nor positions, memo tables, rule numbers.
-/

namespace Joeson.RuleText

/-- Parsing expressions. -/
inductive Pat where
  /-- this text -/
  | lit (b : Bytes)
  /-- a regular expression, matched at the beginning -/
  | re (r : Regex)
  /-- what the rule of this name matches -/
  | name (nm : String)
  /-- one after the other -/
  | seq (l : List Pat)
  /-- the first that matches -/
  | alt (l : List Pat)
  | opt (p : Pat)
  /-- as often as possible, between `mn` and `mx` times, separated by `sep` -/
  | rep (v : Pat) (sep : Option Pat) (mn : Nat) (mx : Option Nat)
  | not (p : Pat)
  | look (p : Pat)

/-- A sequence of one is that one. -/
def Pat.seqOf : List Pat → Pat
  | [p] => p
  | l => .seq l

/-- A missing minimum is 0. -/
def minPat (r : Option Bounds) : Nat := ((r.bind Bounds.min).map decimal).getD 0
/-- A missing maximum is none. -/
def maxPat (r : Option Bounds) : Option Nat := (r.bind Bounds.max).map decimal

mutual
/-- The expression a text stands for. The parameter of `w(e)` and the label of `(w: e)` mean nothing. -/
def Prim.pat : Prim → Pat
  | .ref w | .call w _ => .name (nameOf w)
  | .group e | .lgroup _ e => e.pat
  | .str l => .lit (Spec.utf8 (l.map Piece.char))
  | .regex _ re | .cls _ re => .re re
/-- The expression. -/
def Deco.pat : Deco → Pat
  | .prim p => p.pat
  | .opt p => .opt p.pat
  | .star p r => .rep p.pat none (minPat r) (maxPat r)
  | .starJoin p j r => .rep p.pat (some j.pat) (minPat r) (maxPat r)
  | .plus p => .rep p.pat none 1 none
  | .plusJoin p j => .rep p.pat (some j.pat) 1 none
  | .times p r => .rep p.pat none (minPat (some r)) (maxPat (some r))
  | .not p => .not p.pat
  | .look e => .look e.pat
/-- The expressions. -/
def Units.pats : Units → List Pat
  | .one _ _ d => [d.pat]
  | .cons _ _ d us => d.pat :: us.pats
  | .open_ _ _ e => [.look e.pat]
/-- The expressions. -/
def Alts.pats : Alts → List Pat
  | .one us => [.seqOf us.pats]
  | .cons us _ as => .seqOf us.pats :: as.pats
/-- The expression. -/
def Expr.pat : Expr → Pat
  | .single us _ => .seqOf us.pats
  | .choice _ us _ as _ _ => .alt (.seqOf us.pats :: as.pats)
end

mutual
/-- No labels. -/
def Prim.Unlabelled : Prim → Prop
  | .group e | .lgroup _ e => e.Unlabelled
  | .ref _ | .call _ _ | .str _ | .regex _ _ | .cls _ _ => True
/-- The same. -/
def Deco.Unlabelled : Deco → Prop
  | .prim p | .opt p | .plus p | .not p | .star p _ | .times p _ => p.Unlabelled
  | .starJoin p j _ | .plusJoin p j => p.Unlabelled ∧ j.Unlabelled
  | .look e => e.Unlabelled
/-- The same. -/
def Units.Unlabelled : Units → Prop
  | .one _ lab d => lab = none ∧ d.Unlabelled
  | .cons _ lab d us => lab = none ∧ d.Unlabelled ∧ us.Unlabelled
  | .open_ _ lab e => lab = none ∧ e.Unlabelled
/-- The same. -/
def Alts.Unlabelled : Alts → Prop
  | .one us => us.Unlabelled
  | .cons us _ as => us.Unlabelled ∧ as.Unlabelled
/-- The same. -/
def Expr.Unlabelled : Expr → Prop
  | .single us _ => us.Unlabelled
  | .choice _ us _ as _ _ => us.Unlabelled ∧ as.Unlabelled
end

/-- The label is not `@`. -/
def OtherLabel (lab : Option Bytes) : Prop := ∀ w, lab = some w → nameOf w ≠ "@"

mutual
/-- No label is `@`. -/
def Prim.NoAt : Prim → Prop
  | .group e | .lgroup _ e => e.NoAt
  | .ref _ | .call _ _ | .str _ | .regex _ _ | .cls _ _ => True
/-- The same. -/
def Deco.NoAt : Deco → Prop
  | .prim p | .opt p | .plus p | .not p | .star p _ | .times p _ => p.NoAt
  | .starJoin p j _ | .plusJoin p j => p.NoAt ∧ j.NoAt
  | .look e => e.NoAt
/-- The same. -/
def Units.NoAt : Units → Prop
  | .one _ lab d => OtherLabel lab ∧ d.NoAt
  | .cons _ lab d us => OtherLabel lab ∧ d.NoAt ∧ us.NoAt
  | .open_ _ lab e => OtherLabel lab ∧ e.NoAt
/-- The same. -/
def Alts.NoAt : Alts → Prop
  | .one us => us.NoAt
  | .cons us _ as => us.NoAt ∧ as.NoAt
/-- The same. -/
def Expr.NoAt : Expr → Prop
  | .single us _ => us.NoAt
  | .choice _ us _ as _ _ => us.NoAt ∧ as.NoAt
end

mutual
/-- A line of a grammar: an alternative, possibly named, or a rule included under a name; with a callback, if any. -/
inductive GLine where
  | alt (name : String) (cb : Option Nat) (b : Body)
  | incl (name : String) (cb : Option Nat) (b : Body)
/-- What a rule is: a text, or lines. -/
inductive Body where
  | text (e : Expr)
  | rank (ls : List GLine)
end

mutual
/-- The rules that have a name, those in inner ranks included. -/
def GLine.decls : GLine → List (String × Body)
  | .alt nm _ b => (if nm = "" then [] else [(nm, b)]) ++ b.decls
  | .incl nm _ b => (nm, b) :: b.decls
/-- The named rules inside. -/
def Body.decls : Body → List (String × Body)
  | .text _ => []
  | .rank ls => declsOf ls
/-- The named rules. -/
def declsOf : List GLine → List (String × Body)
  | [] => []
  | l :: ls => l.decls ++ declsOf ls
end

mutual
/-- All rule texts satisfy `C`. -/
def GLine.All (C : Expr → Prop) : GLine → Prop
  | .alt _ _ b | .incl _ _ b => b.All C
/-- All rule texts satisfy `C`. -/
def Body.All (C : Expr → Prop) : Body → Prop
  | .text e => C e
  | .rank ls => AllLines C ls
/-- All rule texts satisfy `C`. -/
def AllLines (C : Expr → Prop) : List GLine → Prop
  | [] => True
  | l :: ls => l.All C ∧ AllLines C ls
end

mutual
/-- Included rules have a name. -/
def GLine.Named : GLine → Prop
  | .alt _ _ b => b.Named
  | .incl nm _ b => nm ≠ "" ∧ b.Named
/-- The same. -/
def Body.Named : Body → Prop
  | .text _ => True
  | .rank ls => NamedLines ls
/-- The same. -/
def NamedLines : List GLine → Prop
  | [] => True
  | l :: ls => l.Named ∧ NamedLines ls
end

/-- What is being matched. -/
inductive Job where
  | pat (p : Pat)
  /-- the alternatives left to try -/
  | alts (l : List Pat)
  /-- the rest of a sequence -/
  | seq (l : List Pat)
  /-- the separator, if any -/
  | sep (o : Option Pat)
  /-- what follows `n` matches of a repetition -/
  | more (v : Pat) (sep : Option Pat) (mn : Nat) (mx : Option Nat) (n : Nat)
  /-- a rule -/
  | body (b : Body)
  /-- the alternatives left to try, as lines -/
  | lines (ls : List GLine)

/-- The end of a repetition after `n` matches. -/
def stop (mn n : Nat) (s : Bytes) : Option Bytes := if n < mn then none else some s

/-- Can there be another match after `n`, at least one? A maximum below 2 counts as 2: the code looks at the maximum only from the
second match on (parser_pattern.go:113-116, `C31_max_one_matches_two`). -/
def Room (mx : Option Nat) (n : Nat) : Prop := ∀ m, mx = some m → n < max m 2

/-- `Parses L d j s r`: with the rules `L`, matching `j` at the beginning of `s` fails (`none`) or leaves a rest; rules are
nested at most `d` deep. -/
inductive Parses (L : List GLine) : Nat → Job → Bytes → Option Bytes → Prop
  | lit {d b s} : Parses L d (.pat (.lit b)) (b ++ s) (some s)
  | litMiss {d b s} : (∀ s', s ≠ b ++ s') → Parses L d (.pat (.lit b)) s none
  | re {d r n s} : r.find s = some (0, n) → Parses L d (.pat (.re r)) s (some (s.drop n))
  | reMiss {d r s} : (∀ n, r.find s ≠ some (0, n)) → Parses L d (.pat (.re r)) s none
  | name {d nm b s r} : (nm, b) ∈ declsOf L → Parses L d (.body b) s r → Parses L d (.pat (.name nm)) s r
  | alt {d l s r} : Parses L d (.alts l) s r → Parses L d (.pat (.alt l)) s r
  | altsEnd {d s} : Parses L d (.alts []) s none
  | altsHit {d p l s s'} : Parses L d (.pat p) s (some s') → Parses L d (.alts (p :: l)) s (some s')
  | altsMiss {d p l s r} : Parses L d (.pat p) s none → Parses L d (.alts l) s r → Parses L d (.alts (p :: l)) s r
  | seq {d l s r} : Parses L d (.seq l) s r → Parses L d (.pat (.seq l)) s r
  | seqEnd {d s} : Parses L d (.seq []) s (some s)
  | seqMiss {d p l s} : Parses L d (.pat p) s none → Parses L d (.seq (p :: l)) s none
  | seqNext {d p l s s' r} : Parses L d (.pat p) s (some s') → Parses L d (.seq l) s' r → Parses L d (.seq (p :: l)) s r
  | opt {d p s s'} : Parses L d (.pat p) s (some s') → Parses L d (.pat (.opt p)) s (some s')
  | optMiss {d p s} : Parses L d (.pat p) s none → Parses L d (.pat (.opt p)) s (some s)
  | not {d p s s'} : Parses L d (.pat p) s (some s') → Parses L d (.pat (.not p)) s none
  | notMiss {d p s} : Parses L d (.pat p) s none → Parses L d (.pat (.not p)) s (some s)
  | look {d p s s'} : Parses L d (.pat p) s (some s') → Parses L d (.pat (.look p)) s (some s)
  | lookMiss {d p s} : Parses L d (.pat p) s none → Parses L d (.pat (.look p)) s none
  | rep0 {d v sep mn mx s} : Parses L d (.pat v) s none → Parses L d (.pat (.rep v sep mn mx)) s (stop mn 0 s)
  | rep {d v sep mn mx s s' r} : Parses L d (.pat v) s (some s') → Parses L d (.more v sep mn mx 1) s' r →
      Parses L d (.pat (.rep v sep mn mx)) s r
  | sepNone {d s} : Parses L d (.sep none) s (some s)
  | sepSome {d p s r} : Parses L d (.pat p) s r → Parses L d (.sep (some p)) s r
  | full {d v sep mn mx n s} : ¬ Room mx n → Parses L d (.more v sep mn mx n) s (stop mn n s)
  | noSep {d v sep mn mx n s} : Room mx n → Parses L d (.sep sep) s none → Parses L d (.more v sep mn mx n) s (stop mn n s)
  | noMore {d v sep mn mx n s s'} : Room mx n → Parses L d (.sep sep) s (some s') → Parses L d (.pat v) s' none →
      Parses L d (.more v sep mn mx n) s (stop mn n s)
  | more {d v sep mn mx n s s' s'' r} : Room mx n → Parses L d (.sep sep) s (some s') → Parses L d (.pat v) s' (some s'') →
      Parses L d (.more v sep mn mx (n + 1)) s'' r → Parses L d (.more v sep mn mx n) s r
  | text {d e s r} : Parses L d (.pat e.pat) s r → Parses L (d + 1) (.body (.text e)) s r
  | rank {d ls s r} : Parses L d (.lines ls) s r → Parses L (d + 1) (.body (.rank ls)) s r
  | linesEnd {d s} : Parses L d (.lines []) s none
  | incl {d nm cb b ls s r} : Parses L d (.lines ls) s r → Parses L d (.lines (.incl nm cb b :: ls)) s r
  | altHit {d nm cb b ls s s'} : Parses L d (.body b) s (some s') → Parses L d (.lines (.alt nm cb b :: ls)) s (some s')
  | altMiss {d nm cb b ls s r} : Parses L d (.body b) s none → Parses L d (.lines ls) s r →
      Parses L d (.lines (.alt nm cb b :: ls)) s r

/-! ## As lines given to the library -/

/-- The options of a line. -/
def cbOpts : Option Nat → List LineOpt
  | none => []
  | some c => [.cb c]

mutual
/-- `O("text")`, `O(Named(name, "text"))`, `I(Named(name, []Line{...}))` etc. -/
def GLine.line : GLine → Except Panic Line
  | .alt nm cb b => do
    let x ← b.arg
    lineO (if nm = "" then .plain x else .named nm x) (cbOpts cb)
  | .incl nm cb b => do lineI (.named nm (← b.arg)) (cbOpts cb)
/-- What is given to `Named` or `O`. -/
def Body.arg : Body → Except Panic LineArg
  | .text e => .ok (.text e.text)
  | .rank ls => do return .line (.a (← linesOf ls))
/-- All of them. -/
def linesOf : List GLine → Except Panic (List Line)
  | [] => .ok []
  | l :: ls => do
    let x ← l.line
    let xs ← linesOf ls
    return x :: xs
end

end Joeson.RuleText
