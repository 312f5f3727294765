import Verif.Spec.Lang
import Verif.Spec.Peg
/-!
# The values of a grammar written as rule texts

Parsing expressions with labels, and the value that a match has: which elements of a sequence are kept, when a sequence
is an array, a map or a single value, what labels do. Written from README.md ("Labels and Captures") and the comments of
parser_sequence.go, parser_existential.go and parser_choice.go, on the texts: neither trees of parsers nor positions, memo
tables, rule numbers are used. What values are is left open: `P : PureOps V` gives strings, arrays, maps and callbacks.
-/

namespace Joeson.RuleText

/-- Parsing expressions with labels. An empty label is none. -/
inductive VP where
  /-- this text -/
  | lit (lab : String) (b : Bytes)
  /-- a regular expression, matched at the beginning -/
  | re (lab : String) (r : Regex)
  /-- what the rule of this name matches. `quiet`: the name starts with an underscore. -/
  | name (lab : String) (nm : String) (quiet : Bool)
  /-- one after the other -/
  | seq (lab : String) (l : List VP)
  /-- the first that matches -/
  | alt (lab : String) (l : List VP)
  | opt (lab : String) (p : VP)
  /-- as often as possible, between `mn` and `mx` times, separated by `sep` -/
  | rep (lab : String) (v : VP) (sep : Option VP) (mn : Nat) (mx : Option Nat)
  | not (lab : String) (p : VP)
  | look (lab : String) (p : VP)

/-- The label given. -/
def VP.lab : VP → String
  | .lit l _ | .re l _ | .name l _ _ | .seq l _ | .alt l _ | .opt l _ | .rep l _ _ _ _ | .not l _ | .look l _ => l

/-- Give it a label, in place of the one it has. -/
def VP.setLab (l : String) : VP → VP
  | .lit _ b => .lit l b
  | .re _ r => .re l r
  | .name _ nm q => .name l nm q
  | .seq _ ps => .seq l ps
  | .alt _ ps => .alt l ps
  | .opt _ p => .opt l p
  | .rep _ v s mn mx => .rep l v s mn mx
  | .not _ p => .not l p
  | .look _ p => .look l p

/-- A sequence of one is that one. -/
def VP.seqOf : List VP → VP
  | [p] => p
  | l => .seq "" l

/-- `w:p` -/
def VP.labelled (lab : Option Bytes) (p : VP) : VP :=
  match lab with
  | none => p
  | some w => p.setLab (nameOf w)

mutual
/-- The expression a text stands for. -/
def Prim.vp : Prim → VP
  | .ref w | .call w _ => .name "" (nameOf w) (w.head? == some 0x5F)
  | .group e | .lgroup _ e => e.vp
  | .str l => .lit "" (Spec.utf8 (l.map Piece.char))
  | .regex _ re | .cls _ re => .re "" re
/-- The expression. -/
def Deco.vp : Deco → VP
  | .prim p => p.vp
  | .opt p => .opt "" p.vp
  | .star p r => .rep "" p.vp none (minPat r) (maxPat r)
  | .starJoin p j r => .rep "" p.vp (some j.vp) (minPat r) (maxPat r)
  | .plus p => .rep "" p.vp none 1 none
  | .plusJoin p j => .rep "" p.vp (some j.vp) 1 none
  | .times p r => .rep "" p.vp none (minPat (some r)) (maxPat (some r))
  | .not p => .not "" p.vp
  | .look e => .look "" e.vp
/-- The expressions. -/
def Units.vps : Units → List VP
  | .one _ lab d => [.labelled lab d.vp]
  | .cons _ lab d us => .labelled lab d.vp :: us.vps
  | .open_ _ lab e => [.labelled lab (.look "" e.vp)]
/-- The expressions. -/
def Alts.vps : Alts → List VP
  | .one us => [.seqOf us.vps]
  | .cons us _ as => .seqOf us.vps :: as.vps
/-- The expression. -/
def Expr.vp : Expr → VP
  | .single us _ => .seqOf us.vps
  | .choice _ us _ as _ _ => .alt "" (.seqOf us.vps :: as.vps)
end

/-! ## Labels and captures -/

mutual
/-- Does it contribute labels to the sequence it is part of? A sequence contributes the labels of its elements (not its
own), and so does an optional one that has no label. -/
def VP.hasLabels : VP → Bool
  | .seq _ l => VP.anyLabels l
  | .opt lab p => (lab != "" && lab != "@" && lab != "&") || p.hasLabels
  | .lit lab _ | .re lab _ | .name lab _ _ | .alt lab _ | .rep lab _ _ _ _ | .not lab _ | .look lab _ => lab != ""
/-- Does one of them? -/
def VP.anyLabels : List VP → Bool
  | [] => false
  | p :: l => p.hasLabels || VP.anyLabels l
end

/-- The label its value gets. An optional one without a label but with labels inside is merged into the sequence. -/
def VP.outLab : VP → String
  | .opt lab p => if p.hasLabels && lab == "" then "@" else lab
  | p => p.lab

/-- Is what is repeated kept (parser_pattern.go decides before choices and optional ones do)? -/
def VP.raw : VP → Bool
  | .lit _ _ | .not _ _ | .look _ _ => false
  | .name _ _ q => !q
  | .rep _ v _ _ _ => v.raw
  | .re _ _ | .seq _ _ | .alt _ _ | .opt _ _ => true

mutual
/-- Is its value kept in the sequence it is part of? Strings, lookaheads and rules whose name starts with an underscore are
not; a choice is if all alternatives are; an optional one if there is something to keep in it. -/
def VP.keeps : VP → Bool
  | .lit _ _ | .not _ _ | .look _ _ => false
  | .re _ _ | .seq _ _ => true
  | .name _ _ q => !q
  | .alt _ l => VP.keepsAll l
  | .opt _ p => decide (0 < p.count)
  | .rep _ v _ _ _ => v.raw
/-- Are all kept? -/
def VP.keepsAll : List VP → Bool
  | [] => true
  | p :: l => p.keeps && VP.keepsAll l
/-- How many values to keep are in it. Those of groups count one by one. -/
def VP.count : VP → Nat
  | .seq _ l => VP.countAll l
  | .opt _ p => p.count
  | .lit _ _ | .not _ _ | .look _ _ => 0
  | .re _ _ => 1
  | .name _ _ q => (!q).toNat
  | .alt _ l => (VP.keepsAll l).toNat
  | .rep _ v _ _ _ => v.raw.toNat
/-- Of all. -/
def VP.countAll : List VP → Nat
  | [] => 0
  | p :: l => p.count + VP.countAll l
end

/-- What the value of a sequence is. -/
inductive Form where
  | single
  | array
  | object
  deriving DecidableEq

/-- parser_sequence.go:70-72: "as soon as there is >=1 label, it is Object"; otherwise an array if there is more than one
value. -/
def formOf (l : List VP) : Form :=
  if VP.anyLabels l then .object else if 1 < VP.countAll l then .array else .single

section
variable {V : Type} (P : PureOps V)

/-- An object so far, and one more value. -/
def addLabelled (acc : Option V) (lab : String) (v : V) : Except Panic (Option V) :=
  if lab = "" then .ok acc
  else
    match acc.filter fun r => !P.isUndef r with
    | none => .ok (some (if lab = "&" ∨ lab = "@" then v else P.newMap lab v))
    | some r =>
      if lab = "&" then (P.merge v r).map some
      else if lab = "@" then (P.merge r v).map some
      else (P.mapSet r lab v).map some

/-- The values of the elements of an object, added one by one. -/
def addAll (l : List (VP × V)) : Except Panic (Option V) :=
  l.foldlM (fun acc x => addLabelled P acc x.1.outLab x.2) none

/-- The kept values. -/
def kept (l : List (VP × V)) : List V := (l.filter fun x => x.1.keeps).map (·.2)

/-- The value of a sequence whose elements have these values. -/
def gather : Form → List (VP × V) → Except Panic V
  | .single, l => .ok ((kept l).getLast?.getD P.undef)
  | .array, l => .ok (P.arr (kept l))
  | .object, l => (addAll P l).map fun r => r.getD P.undef

/-- Outcomes: a failure, or a value and the rest of the text; or a panic. -/
abbrev VRes (V : Type) := Except Panic (Option (V × Bytes))

/-- Where a label is not used by a sequence, the value becomes a map with that key. `h`: the label is used. -/
def own (h : Bool) (p : VP) : VRes V → VRes V
  | .error e => .error e
  | .ok none => .ok none
  | .ok (some (v, s)) => .ok (some (if !h && p.outLab != "" then P.newMap p.outLab v else v, s))

/-- The callback of a rule gets its value and the position where it ends in a text of length `N`. -/
def called (N : Nat) (cb : Option Nat) : VRes V → VRes V
  | .error e => .error e
  | .ok none => .ok none
  | .ok (some (v, s)) => match cb with
    | none => .ok (some (v, s))
    | some c => match P.cb c v (N - s.length) with
      | .error e => .error e
      | .ok none => .ok none
      | .ok (some v') => .ok (some (v', s))

/-- The end of a repetition with the values `vs`. -/
def vstop (mn : Nat) (vs : List V) (s : Bytes) : VRes V :=
  if vs.length < mn then .ok none else .ok (some (P.arr vs, s))

end

mutual
/-- The rules that have a name, with their callbacks. -/
def GLine.rules : GLine → List (String × Option Nat × Body)
  | .alt nm cb b => (if nm = "" then [] else [(nm, cb, b)]) ++ b.rules
  | .incl nm cb b => (nm, cb, b) :: b.rules
/-- The named rules inside. -/
def Body.rules : Body → List (String × Option Nat × Body)
  | .text _ => []
  | .rank ls => rulesOf ls
/-- The named rules. -/
def rulesOf : List GLine → List (String × Option Nat × Body)
  | [] => []
  | l :: ls => l.rules ++ rulesOf ls
end

/-- What is being matched. -/
inductive VJob (V : Type) where
  /-- an expression; `h`: a sequence around it uses its label -/
  | part (h : Bool) (p : VP)
  /-- without its own label -/
  | core (h : Bool) (p : VP)
  /-- the alternatives left to try -/
  | alts (l : List VP)
  /-- the rest of a sequence, after these values -/
  | items (f : Form) (l : List VP) (acc : List (VP × V))
  /-- the separator, if any -/
  | sep (o : Option VP)
  /-- what follows the values `vs` of a repetition -/
  | more (v : VP) (sep : Option VP) (mn : Nat) (mx : Option Nat) (vs : List V)
  /-- a rule and its callback -/
  | rule (cb : Option Nat) (b : Body)
  /-- the alternatives left to try, as lines -/
  | lines (ls : List GLine)

section
variable {V : Type}

/-- `Yields P N L d j s r`: with the rules `L`, matching `j` at the beginning of `s`, the rest of a text of length `N`, has
the outcome `r`; rules are nested at most `d` deep. -/
inductive Yields (P : PureOps V) (N : Nat) (L : List GLine) : Nat → VJob V → Bytes → VRes V → Prop
  | part {d h p s r} : Yields P N L d (.core h p) s r → Yields P N L d (.part h p) s (own P h p r)
  | lit {d h lab b s} : Yields P N L d (.core h (.lit lab b)) (b ++ s) (.ok (some (P.str b, s)))
  | litMiss {d h lab b s} : (∀ s', s ≠ b ++ s') → Yields P N L d (.core h (.lit lab b)) s (.ok none)
  | re {d h lab r n s} : r.find s = some (0, n) →
      Yields P N L d (.core h (.re lab r)) s (.ok (some (P.str (s.take n), s.drop n)))
  | reMiss {d h lab r s} : (∀ n, r.find s ≠ some (0, n)) → Yields P N L d (.core h (.re lab r)) s (.ok none)
  | name {d h lab nm q cb b s r} : (nm, cb, b) ∈ rulesOf L → Yields P N L d (.rule cb b) s r →
      Yields P N L d (.core h (.name lab nm q)) s r
  | alt {d h lab l s r} : Yields P N L d (.alts l) s r → Yields P N L d (.core h (.alt lab l)) s r
  | altsEnd {d s} : Yields P N L d (.alts []) s (.ok none)
  | altsDone {d p l s r} : Yields P N L d (.part false p) s r → r ≠ .ok none → Yields P N L d (.alts (p :: l)) s r
  | altsMiss {d p l s r} : Yields P N L d (.part false p) s (.ok none) → Yields P N L d (.alts l) s r →
      Yields P N L d (.alts (p :: l)) s r
  | seq {d h lab l s r} : Yields P N L d (.items (formOf l) l []) s r → Yields P N L d (.core h (.seq lab l)) s r
  | itemsEnd {d f acc s v} : gather P f acc = .ok v → Yields P N L d (.items f [] acc) s (.ok (some (v, s)))
  | itemsMiss {d f p l acc s} : Yields P N L d (.part true p) s (.ok none) →
      Yields P N L d (.items f (p :: l) acc) s (.ok none)
  | itemsPanic {d f p l acc s e} : Yields P N L d (.part true p) s (.error e) →
      Yields P N L d (.items f (p :: l) acc) s (.error e)
  | itemsPut {d f p l acc s v s' w r} : Yields P N L d (.part true p) s (.ok (some (v, s'))) →
      gather P f (acc ++ [(p, v)]) = .ok w → Yields P N L d (.items f l (acc ++ [(p, v)])) s' r →
      Yields P N L d (.items f (p :: l) acc) s r
  | itemsBad {d f p l acc s v s' e} : Yields P N L d (.part true p) s (.ok (some (v, s'))) →
      gather P f (acc ++ [(p, v)]) = .error e → Yields P N L d (.items f (p :: l) acc) s (.error e)
  | optDone {d h lab p s r} : Yields P N L d (.part h p) s r → r ≠ .ok none → Yields P N L d (.core h (.opt lab p)) s r
  | optMiss {d h lab p s} : Yields P N L d (.part h p) s (.ok none) →
      Yields P N L d (.core h (.opt lab p)) s (.ok (some (P.undef, s)))
  | notHit {d h lab p s x} : Yields P N L d (.part false p) s (.ok (some x)) → Yields P N L d (.core h (.not lab p)) s (.ok none)
  | notMiss {d h lab p s} : Yields P N L d (.part false p) s (.ok none) →
      Yields P N L d (.core h (.not lab p)) s (.ok (some (P.undef, s)))
  | notPanic {d h lab p s e} : Yields P N L d (.part false p) s (.error e) →
      Yields P N L d (.core h (.not lab p)) s (.error e)
  | lookHit {d h lab p s v s'} : Yields P N L d (.part false p) s (.ok (some (v, s'))) →
      Yields P N L d (.core h (.look lab p)) s (.ok (some (v, s)))
  | lookMiss {d h lab p s} : Yields P N L d (.part false p) s (.ok none) →
      Yields P N L d (.core h (.look lab p)) s (.ok none)
  | lookPanic {d h lab p s e} : Yields P N L d (.part false p) s (.error e) →
      Yields P N L d (.core h (.look lab p)) s (.error e)
  | repMiss {d h lab v sep mn mx s} : Yields P N L d (.part false v) s (.ok none) →
      Yields P N L d (.core h (.rep lab v sep mn mx)) s (vstop P mn [] s)
  | repPanic {d h lab v sep mn mx s e} : Yields P N L d (.part false v) s (.error e) →
      Yields P N L d (.core h (.rep lab v sep mn mx)) s (.error e)
  | rep {d h lab v sep mn mx s x s' r} : Yields P N L d (.part false v) s (.ok (some (x, s'))) →
      Yields P N L d (.more v sep mn mx [x]) s' r → Yields P N L d (.core h (.rep lab v sep mn mx)) s r
  | sepNone {d s} : Yields P N L d (.sep none) s (.ok (some (P.undef, s)))
  | sepSome {d p s r} : Yields P N L d (.part false p) s r → Yields P N L d (.sep (some p)) s r
  | full {d v sep mn mx vs s} : ¬ Room mx vs.length → Yields P N L d (.more v sep mn mx vs) s (vstop P mn vs s)
  | noSep {d v sep mn mx vs s} : Room mx vs.length → Yields P N L d (.sep sep) s (.ok none) →
      Yields P N L d (.more v sep mn mx vs) s (vstop P mn vs s)
  | sepPanic {d v sep mn mx vs s e} : Room mx vs.length → Yields P N L d (.sep sep) s (.error e) →
      Yields P N L d (.more v sep mn mx vs) s (.error e)
  | noMore {d v sep mn mx vs s w s'} : Room mx vs.length → Yields P N L d (.sep sep) s (.ok (some (w, s'))) →
      Yields P N L d (.part false v) s' (.ok none) → Yields P N L d (.more v sep mn mx vs) s (vstop P mn vs s)
  | morePanic {d v sep mn mx vs s w s' e} : Room mx vs.length → Yields P N L d (.sep sep) s (.ok (some (w, s'))) →
      Yields P N L d (.part false v) s' (.error e) → Yields P N L d (.more v sep mn mx vs) s (.error e)
  | more {d v sep mn mx vs s w s' x s'' r} : Room mx vs.length → Yields P N L d (.sep sep) s (.ok (some (w, s'))) →
      Yields P N L d (.part false v) s' (.ok (some (x, s''))) → Yields P N L d (.more v sep mn mx (vs ++ [x])) s'' r →
      Yields P N L d (.more v sep mn mx vs) s r
  | text {d cb e s r} : Yields P N L d (.part false e.vp) s r → Yields P N L (d + 1) (.rule cb (.text e)) s (called P N cb r)
  | rank {d cb ls s r} : Yields P N L d (.lines ls) s r → Yields P N L (d + 1) (.rule cb (.rank ls)) s (called P N cb r)
  | linesEnd {d s} : Yields P N L d (.lines []) s (.ok none)
  | incl {d nm cb b ls s r} : Yields P N L d (.lines ls) s r → Yields P N L d (.lines (.incl nm cb b :: ls)) s r
  | altDone {d nm cb b ls s r} : Yields P N L d (.rule cb b) s r → r ≠ .ok none →
      Yields P N L d (.lines (.alt nm cb b :: ls)) s r
  | altMiss {d nm cb b ls s r} : Yields P N L d (.rule cb b) s (.ok none) → Yields P N L d (.lines ls) s r →
      Yields P N L d (.lines (.alt nm cb b :: ls)) s r

end
end Joeson.RuleText
