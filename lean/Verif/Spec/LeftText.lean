import Verif.Spec.Values
/-!
# The values of a grammar written as rule texts, with left recursion

As `Yields` (Spec/Values.lean), for grammars whose rules may begin with themselves, like `E: E '-' N | N` (README.md, "left
recursion"). The meaning is the usual one: a rule that calls itself at the place where it began first fails there; what the
rule then matches is the value of that call the next time, and so on as long as the match gets longer. A rule that no text
mentions, like an alternative without a name, is part of the rule it is written in: a left recursive call in an alternative
is one of the rule around it. A rule that calls itself through another rule that is mentioned somewhere has no meaning here.
-/

namespace Joeson.RuleText

mutual
/-- The names of the rules that an expression calls. -/
def VP.names : VP → List String
  | .lit _ _ | .re _ _ => []
  | .name _ nm _ => [nm]
  | .seq _ l | .alt _ l => namesOf l
  | .opt _ p | .not _ p | .look _ p => p.names
  | .rep _ v sep _ _ => v.names ++ namesOfO sep
/-- Those of the expressions. -/
def namesOf : List VP → List String
  | [] => []
  | p :: l => p.names ++ namesOf l
/-- Those of the expression, if any. -/
def namesOfO : Option VP → List String
  | none => []
  | some p => p.names
end

mutual
/-- The names that the text of a line mentions. -/
def GLine.mentions : GLine → List String
  | .alt _ _ b | .incl _ _ b => b.mentions
/-- The names that a rule mentions. -/
def Body.mentions : Body → List String
  | .text e => e.vp.names
  | .rank ls => mentionsIn ls
/-- The names that the texts mention. -/
def mentionsIn : List GLine → List String
  | [] => []
  | l :: ls => l.mentions ++ mentionsIn ls
end

/-- What is being matched. -/
inductive LJob (V : Type) where
  /-- an expression; `h`: a sequence around it uses its label -/
  | part (h : Bool) (p : VP)
  /-- without its own label -/
  | core (h : Bool) (p : VP)
  /-- the alternatives left to try -/
  | alts (l : List VP)
  /-- the rest of a sequence, after these values -/
  | items (f : Form) (l : List VP) (acc : List (VP × V))
  /-- the separator, if any -/
  | sep (o : Option VP)
  /-- what follows the values `vs` of a repetition -/
  | more (v : VP) (sep : Option VP) (mn : Nat) (mx : Option Nat) (vs : List V)
  /-- a rule, its name and its callback -/
  | rule (nm : String) (cb : Option Nat) (b : Body)
  /-- a rule, once, and its callback -/
  | body (cb : Option Nat) (b : Body)
  /-- the alternatives left to try, as lines -/
  | lines (ls : List GLine)

section
variable {V : Type}

/-- The second match is longer: there is none in the first case, or it leaves less. -/
def Exceeds : Option (V × Bytes) → Option (V × Bytes) → Prop
  | _, none => False
  | none, some _ => True
  | some (_, s), some (_, s') => s'.length < s.length

/-- The rule being tried, where it began and the value of its left recursive calls. -/
abbrev Around (V : Type) := Option (String × Bytes × Option (V × Bytes))

/-- `YieldsL P N L c d j s r`: with the rules `L`, inside the rule `c`, matching `j` at the beginning of `s`, the rest of a
text of length `N`, has the outcome `r`; rules are nested at most `d` deep. -/
inductive YieldsL (P : PureOps V) (N : Nat) (L : List GLine) : Around V → Nat → LJob V → Bytes → VRes V → Prop
  | part {c d h p s r} : YieldsL P N L c d (.core h p) s r → YieldsL P N L c d (.part h p) s (own P h p r)
  | lit {c d h lab b s} : YieldsL P N L c d (.core h (.lit lab b)) (b ++ s) (.ok (some (P.str b, s)))
  | litMiss {c d h lab b s} : (∀ s', s ≠ b ++ s') → YieldsL P N L c d (.core h (.lit lab b)) s (.ok none)
  | re {c d h lab r n s} : r.find s = some (0, n) →
      YieldsL P N L c d (.core h (.re lab r)) s (.ok (some (P.str (s.take n), s.drop n)))
  | reMiss {c d h lab r s} : (∀ n, r.find s ≠ some (0, n)) → YieldsL P N L c d (.core h (.re lab r)) s (.ok none)
  /-- a rule that calls itself where it began has the value of last time -/
  | again {c d h lab nm q s x} : c = some (nm, s, x) → YieldsL P N L c (d + 1) (.core h (.name lab nm q)) s (.ok x)
  /-- any other call; that the name is mentioned only says that this expression is one of the texts -/
  | name {c d h lab nm q cb b s r} : (∀ x, c ≠ some (nm, s, x)) → nm ∈ mentionsIn L → (nm, cb, b) ∈ rulesOf L → YieldsL P N L c d (.rule nm cb b) s r →
      YieldsL P N L c d (.core h (.name lab nm q)) s r
  | alt {c d h lab l s r} : YieldsL P N L c d (.alts l) s r → YieldsL P N L c d (.core h (.alt lab l)) s r
  | altsEnd {c d s} : YieldsL P N L c d (.alts []) s (.ok none)
  | altsDone {c d p l s r} : YieldsL P N L c d (.part false p) s r → r ≠ .ok none → YieldsL P N L c d (.alts (p :: l)) s r
  | altsMiss {c d p l s r} : YieldsL P N L c d (.part false p) s (.ok none) → YieldsL P N L c d (.alts l) s r →
      YieldsL P N L c d (.alts (p :: l)) s r
  | seq {c d h lab l s r} : YieldsL P N L c d (.items (formOf l) l []) s r → YieldsL P N L c d (.core h (.seq lab l)) s r
  | itemsEnd {c d f acc s v} : gather P f acc = .ok v → YieldsL P N L c d (.items f [] acc) s (.ok (some (v, s)))
  | itemsMiss {c d f p l acc s} : YieldsL P N L c d (.part true p) s (.ok none) →
      YieldsL P N L c d (.items f (p :: l) acc) s (.ok none)
  | itemsPanic {c d f p l acc s e} : YieldsL P N L c d (.part true p) s (.error e) →
      YieldsL P N L c d (.items f (p :: l) acc) s (.error e)
  | itemsPut {c d f p l acc s v s' w r} : YieldsL P N L c d (.part true p) s (.ok (some (v, s'))) →
      gather P f (acc ++ [(p, v)]) = .ok w → YieldsL P N L c d (.items f l (acc ++ [(p, v)])) s' r →
      YieldsL P N L c d (.items f (p :: l) acc) s r
  | itemsBad {c d f p l acc s v s' e} : YieldsL P N L c d (.part true p) s (.ok (some (v, s'))) →
      gather P f (acc ++ [(p, v)]) = .error e → YieldsL P N L c d (.items f (p :: l) acc) s (.error e)
  | optDone {c d h lab p s r} : YieldsL P N L c d (.part h p) s r → r ≠ .ok none → YieldsL P N L c d (.core h (.opt lab p)) s r
  | optMiss {c d h lab p s} : YieldsL P N L c d (.part h p) s (.ok none) →
      YieldsL P N L c d (.core h (.opt lab p)) s (.ok (some (P.undef, s)))
  | notHit {c d h lab p s x} : YieldsL P N L c d (.part false p) s (.ok (some x)) → YieldsL P N L c d (.core h (.not lab p)) s (.ok none)
  | notMiss {c d h lab p s} : YieldsL P N L c d (.part false p) s (.ok none) →
      YieldsL P N L c d (.core h (.not lab p)) s (.ok (some (P.undef, s)))
  | notPanic {c d h lab p s e} : YieldsL P N L c d (.part false p) s (.error e) →
      YieldsL P N L c d (.core h (.not lab p)) s (.error e)
  | lookHit {c d h lab p s v s'} : YieldsL P N L c d (.part false p) s (.ok (some (v, s'))) →
      YieldsL P N L c d (.core h (.look lab p)) s (.ok (some (v, s)))
  | lookMiss {c d h lab p s} : YieldsL P N L c d (.part false p) s (.ok none) →
      YieldsL P N L c d (.core h (.look lab p)) s (.ok none)
  | lookPanic {c d h lab p s e} : YieldsL P N L c d (.part false p) s (.error e) →
      YieldsL P N L c d (.core h (.look lab p)) s (.error e)
  | repMiss {c d h lab v sep mn mx s} : YieldsL P N L c d (.part false v) s (.ok none) →
      YieldsL P N L c d (.core h (.rep lab v sep mn mx)) s (vstop P mn [] s)
  | repPanic {c d h lab v sep mn mx s e} : YieldsL P N L c d (.part false v) s (.error e) →
      YieldsL P N L c d (.core h (.rep lab v sep mn mx)) s (.error e)
  | rep {c d h lab v sep mn mx s x s' r} : YieldsL P N L c d (.part false v) s (.ok (some (x, s'))) →
      YieldsL P N L c d (.more v sep mn mx [x]) s' r → YieldsL P N L c d (.core h (.rep lab v sep mn mx)) s r
  | sepNone {c d s} : YieldsL P N L c d (.sep none) s (.ok (some (P.undef, s)))
  | sepSome {c d p s r} : YieldsL P N L c d (.part false p) s r → YieldsL P N L c d (.sep (some p)) s r
  | full {c d v sep mn mx vs s} : ¬ Room mx vs.length → YieldsL P N L c d (.more v sep mn mx vs) s (vstop P mn vs s)
  | noSep {c d v sep mn mx vs s} : Room mx vs.length → YieldsL P N L c d (.sep sep) s (.ok none) →
      YieldsL P N L c d (.more v sep mn mx vs) s (vstop P mn vs s)
  | sepPanic {c d v sep mn mx vs s e} : Room mx vs.length → YieldsL P N L c d (.sep sep) s (.error e) →
      YieldsL P N L c d (.more v sep mn mx vs) s (.error e)
  | noMore {c d v sep mn mx vs s w s'} : Room mx vs.length → YieldsL P N L c d (.sep sep) s (.ok (some (w, s'))) →
      YieldsL P N L c d (.part false v) s' (.ok none) → YieldsL P N L c d (.more v sep mn mx vs) s (vstop P mn vs s)
  | morePanic {c d v sep mn mx vs s w s' e} : Room mx vs.length → YieldsL P N L c d (.sep sep) s (.ok (some (w, s'))) →
      YieldsL P N L c d (.part false v) s' (.error e) → YieldsL P N L c d (.more v sep mn mx vs) s (.error e)
  | more {c d v sep mn mx vs s w s' x s'' r} : Room mx vs.length → YieldsL P N L c d (.sep sep) s (.ok (some (w, s'))) →
      YieldsL P N L c d (.part false v) s' (.ok (some (x, s''))) → YieldsL P N L c d (.more v sep mn mx (vs ++ [x])) s'' r →
      YieldsL P N L c d (.more v sep mn mx vs) s r
  /-- a rule that cannot be called or is not: part of the rule it is written in -/
  | inside {c d nm cb b s r} : nm = "" ∨ nm ∉ mentionsIn L → YieldsL P N L c d (.body cb b) s r → YieldsL P N L c d (.rule nm cb b) s r
  /-- `x 0` is a failure; `x (i + 1)` is what the rule gives when `x i` is the value of its left recursive calls. As long as
  the match gets longer the rule is tried again; the longest counts. -/
  | grown {c d nm cb b s n} (x : Nat → Option (V × Bytes)) : nm ≠ "" → nm ∈ mentionsIn L → x 0 = none → (∀ i < n, Exceeds (x i) (x (i + 1))) →
      ¬ Exceeds (x n) (x (n + 1)) → (∀ i ≤ n, YieldsL P N L (some (nm, s, x i)) d (.body cb b) s (.ok (x (i + 1)))) →
      YieldsL P N L c d (.rule nm cb b) s (.ok (x n))
  | grownPanic {c d nm cb b s n e} (x : Nat → Option (V × Bytes)) : nm ≠ "" → nm ∈ mentionsIn L → x 0 = none → (∀ i < n, Exceeds (x i) (x (i + 1))) →
      (∀ i < n, YieldsL P N L (some (nm, s, x i)) d (.body cb b) s (.ok (x (i + 1)))) →
      YieldsL P N L (some (nm, s, x n)) d (.body cb b) s (.error e) → YieldsL P N L c d (.rule nm cb b) s (.error e)
  | text {c d cb e s r} : YieldsL P N L c d (.part false e.vp) s r → YieldsL P N L c (d + 1) (.body cb (.text e)) s (called P N cb r)
  | rank {c d cb ls s r} : YieldsL P N L c d (.lines ls) s r → YieldsL P N L c (d + 1) (.body cb (.rank ls)) s (called P N cb r)
  | linesEnd {c d s} : YieldsL P N L c d (.lines []) s (.ok none)
  | incl {c d nm cb b ls s r} : YieldsL P N L c d (.lines ls) s r → YieldsL P N L c d (.lines (.incl nm cb b :: ls)) s r
  | altDone {c d nm cb b ls s r} : YieldsL P N L c d (.rule nm cb b) s r → r ≠ .ok none →
      YieldsL P N L c d (.lines (.alt nm cb b :: ls)) s r
  | altMiss {c d nm cb b ls s r} : YieldsL P N L c d (.rule nm cb b) s (.ok none) → YieldsL P N L c d (.lines ls) s r →
      YieldsL P N L c d (.lines (.alt nm cb b :: ls)) s r


end
end Joeson.RuleText
