import Verif.Spec.LeftText
/-!
# Left recursion through helper rules

As `YieldsL` (Spec/LeftText.lean), for grammars in which a rule calls itself through another rule that has a name, like
`E: Sub | N` with `Sub: E '-' N`. Here `Sub` is a *helper* of `E`: the text of one rule mentions it, and it is only called
where that rule began. The meaning is the usual one: a helper is part of the rule that calls it, as if its text were
written there. Which rules are helpers is a choice, `W`; a helper that is called anywhere else has no meaning.
-/

namespace Joeson.RuleText

mutual
/-- How many of the texts of a line satisfy `p`. -/
def GLine.countTexts (p : Expr → Bool) : GLine → Nat
  | .alt _ _ b | .incl _ _ b => b.countTexts p
/-- How many of the texts of a rule. -/
def Body.countTexts (p : Expr → Bool) : Body → Nat
  | .text e => if p e then 1 else 0
  | .rank ls => countTextsIn p ls
/-- How many of the texts of the lines. -/
def countTextsIn (p : Expr → Bool) : List GLine → Nat
  | [] => 0
  | l :: ls => l.countTexts p + countTextsIn p ls
end

mutual
/-- The names of the alternatives of a line. -/
def GLine.altNames : GLine → List String
  | .alt nm _ b => nm :: b.altNames
  | .incl _ _ b => b.altNames
/-- Those of a rule. -/
def Body.altNames : Body → List String
  | .text _ => []
  | .rank ls => altNamesIn ls
/-- The names of the alternatives, those in inner ranks included. -/
def altNamesIn : List GLine → List String
  | [] => []
  | l :: ls => l.altNames ++ altNamesIn ls
end

/-- What it takes to be helpers. -/
structure HelpersOk (L : List GLine) (W : List String) : Prop where
  /-- they are rules -/
  decl : ∀ nm ∈ W, ∃ cb b, (nm, cb, b) ∈ rulesOf L
  /-- not alternatives -/
  incl : ∀ nm ∈ W, nm ∉ altNamesIn L
  /-- one text mentions them -/
  once : ∀ nm ∈ W, countTextsIn (fun e => e.vp.names.contains nm) L ≤ 1
  /-- which is neither their own nor one of the helpers after them -/
  up : ∀ A nm B, W = A ++ nm :: B → ∀ nm' ∈ nm :: B, ∀ cb b, (nm', cb, b) ∈ rulesOf L → nm ∉ b.mentions

section
variable {V : Type}

/-- `YieldsI P N L W c d j s r`: with the rules `L`, the helpers `W`, inside the rule `c`, matching `j` at the beginning of `s`, the rest of a
text of length `N`, has the outcome `r`; rules are nested at most `d` deep. -/
inductive YieldsI (P : PureOps V) (N : Nat) (L : List GLine) (W : List String) : Around V → Nat → LJob V → Bytes → VRes V → Prop
  | part {c d h p s r} : YieldsI P N L W c d (.core h p) s r → YieldsI P N L W c d (.part h p) s (own P h p r)
  | lit {c d h lab b s} : YieldsI P N L W c d (.core h (.lit lab b)) (b ++ s) (.ok (some (P.str b, s)))
  | litMiss {c d h lab b s} : (∀ s', s ≠ b ++ s') → YieldsI P N L W c d (.core h (.lit lab b)) s (.ok none)
  | re {c d h lab r n s} : r.find s = some (0, n) →
      YieldsI P N L W c d (.core h (.re lab r)) s (.ok (some (P.str (s.take n), s.drop n)))
  | reMiss {c d h lab r s} : (∀ n, r.find s ≠ some (0, n)) → YieldsI P N L W c d (.core h (.re lab r)) s (.ok none)
  /-- a rule that calls itself where it began has the value of last time -/
  | again {c d h lab nm q s x} : c = some (nm, s, x) → YieldsI P N L W c (d + 1) (.core h (.name lab nm q)) s (.ok x)
  /-- any other call; that the name is mentioned only says that this expression is one of the texts -/
  | name {c d h lab nm q cb b s r} : nm ∉ W → (∀ x, c ≠ some (nm, s, x)) → nm ∈ mentionsIn L → (nm, cb, b) ∈ rulesOf L → YieldsI P N L W c d (.rule nm cb b) s r →
      YieldsI P N L W c d (.core h (.name lab nm q)) s r
  /-- a helper, called where the rule around it began: part of that rule -/
  | help {c d h lab nm q cb b s r nm0 x} : nm ∈ W → c = some (nm0, s, x) → (nm, cb, b) ∈ rulesOf L → YieldsI P N L W c d (.body cb b) s r →
      YieldsI P N L W c d (.core h (.name lab nm q)) s r
  | alt {c d h lab l s r} : YieldsI P N L W c d (.alts l) s r → YieldsI P N L W c d (.core h (.alt lab l)) s r
  | altsEnd {c d s} : YieldsI P N L W c d (.alts []) s (.ok none)
  | altsDone {c d p l s r} : YieldsI P N L W c d (.part false p) s r → r ≠ .ok none → YieldsI P N L W c d (.alts (p :: l)) s r
  | altsMiss {c d p l s r} : YieldsI P N L W c d (.part false p) s (.ok none) → YieldsI P N L W c d (.alts l) s r →
      YieldsI P N L W c d (.alts (p :: l)) s r
  | seq {c d h lab l s r} : YieldsI P N L W c d (.items (formOf l) l []) s r → YieldsI P N L W c d (.core h (.seq lab l)) s r
  | itemsEnd {c d f acc s v} : gather P f acc = .ok v → YieldsI P N L W c d (.items f [] acc) s (.ok (some (v, s)))
  | itemsMiss {c d f p l acc s} : YieldsI P N L W c d (.part true p) s (.ok none) →
      YieldsI P N L W c d (.items f (p :: l) acc) s (.ok none)
  | itemsPanic {c d f p l acc s e} : YieldsI P N L W c d (.part true p) s (.error e) →
      YieldsI P N L W c d (.items f (p :: l) acc) s (.error e)
  | itemsPut {c d f p l acc s v s' w r} : YieldsI P N L W c d (.part true p) s (.ok (some (v, s'))) →
      gather P f (acc ++ [(p, v)]) = .ok w → YieldsI P N L W c d (.items f l (acc ++ [(p, v)])) s' r →
      YieldsI P N L W c d (.items f (p :: l) acc) s r
  | itemsBad {c d f p l acc s v s' e} : YieldsI P N L W c d (.part true p) s (.ok (some (v, s'))) →
      gather P f (acc ++ [(p, v)]) = .error e → YieldsI P N L W c d (.items f (p :: l) acc) s (.error e)
  | optDone {c d h lab p s r} : YieldsI P N L W c d (.part h p) s r → r ≠ .ok none → YieldsI P N L W c d (.core h (.opt lab p)) s r
  | optMiss {c d h lab p s} : YieldsI P N L W c d (.part h p) s (.ok none) →
      YieldsI P N L W c d (.core h (.opt lab p)) s (.ok (some (P.undef, s)))
  | notHit {c d h lab p s x} : YieldsI P N L W c d (.part false p) s (.ok (some x)) → YieldsI P N L W c d (.core h (.not lab p)) s (.ok none)
  | notMiss {c d h lab p s} : YieldsI P N L W c d (.part false p) s (.ok none) →
      YieldsI P N L W c d (.core h (.not lab p)) s (.ok (some (P.undef, s)))
  | notPanic {c d h lab p s e} : YieldsI P N L W c d (.part false p) s (.error e) →
      YieldsI P N L W c d (.core h (.not lab p)) s (.error e)
  | lookHit {c d h lab p s v s'} : YieldsI P N L W c d (.part false p) s (.ok (some (v, s'))) →
      YieldsI P N L W c d (.core h (.look lab p)) s (.ok (some (v, s)))
  | lookMiss {c d h lab p s} : YieldsI P N L W c d (.part false p) s (.ok none) →
      YieldsI P N L W c d (.core h (.look lab p)) s (.ok none)
  | lookPanic {c d h lab p s e} : YieldsI P N L W c d (.part false p) s (.error e) →
      YieldsI P N L W c d (.core h (.look lab p)) s (.error e)
  | repMiss {c d h lab v sep mn mx s} : YieldsI P N L W c d (.part false v) s (.ok none) →
      YieldsI P N L W c d (.core h (.rep lab v sep mn mx)) s (vstop P mn [] s)
  | repPanic {c d h lab v sep mn mx s e} : YieldsI P N L W c d (.part false v) s (.error e) →
      YieldsI P N L W c d (.core h (.rep lab v sep mn mx)) s (.error e)
  | rep {c d h lab v sep mn mx s x s' r} : YieldsI P N L W c d (.part false v) s (.ok (some (x, s'))) →
      YieldsI P N L W c d (.more v sep mn mx [x]) s' r → YieldsI P N L W c d (.core h (.rep lab v sep mn mx)) s r
  | sepNone {c d s} : YieldsI P N L W c d (.sep none) s (.ok (some (P.undef, s)))
  | sepSome {c d p s r} : YieldsI P N L W c d (.part false p) s r → YieldsI P N L W c d (.sep (some p)) s r
  | full {c d v sep mn mx vs s} : ¬ Room mx vs.length → YieldsI P N L W c d (.more v sep mn mx vs) s (vstop P mn vs s)
  | noSep {c d v sep mn mx vs s} : Room mx vs.length → YieldsI P N L W c d (.sep sep) s (.ok none) →
      YieldsI P N L W c d (.more v sep mn mx vs) s (vstop P mn vs s)
  | sepPanic {c d v sep mn mx vs s e} : Room mx vs.length → YieldsI P N L W c d (.sep sep) s (.error e) →
      YieldsI P N L W c d (.more v sep mn mx vs) s (.error e)
  | noMore {c d v sep mn mx vs s w s'} : Room mx vs.length → YieldsI P N L W c d (.sep sep) s (.ok (some (w, s'))) →
      YieldsI P N L W c d (.part false v) s' (.ok none) → YieldsI P N L W c d (.more v sep mn mx vs) s (vstop P mn vs s)
  | morePanic {c d v sep mn mx vs s w s' e} : Room mx vs.length → YieldsI P N L W c d (.sep sep) s (.ok (some (w, s'))) →
      YieldsI P N L W c d (.part false v) s' (.error e) → YieldsI P N L W c d (.more v sep mn mx vs) s (.error e)
  | more {c d v sep mn mx vs s w s' x s'' r} : Room mx vs.length → YieldsI P N L W c d (.sep sep) s (.ok (some (w, s'))) →
      YieldsI P N L W c d (.part false v) s' (.ok (some (x, s''))) → YieldsI P N L W c d (.more v sep mn mx (vs ++ [x])) s'' r →
      YieldsI P N L W c d (.more v sep mn mx vs) s r
  /-- a rule that cannot be called or is not: part of the rule it is written in -/
  | inside {c d nm cb b s r} : nm = "" ∨ nm ∉ mentionsIn L → YieldsI P N L W c d (.body cb b) s r → YieldsI P N L W c d (.rule nm cb b) s r
  /-- `x 0` is a failure; `x (i + 1)` is what the rule gives when `x i` is the value of its left recursive calls. As long as
  the match gets longer the rule is tried again; the longest counts. -/
  | grown {c d nm cb b s n} (x : Nat → Option (V × Bytes)) : nm ∉ W → (∀ y, c ≠ some (nm, s, y)) → nm ≠ "" → nm ∈ mentionsIn L → x 0 = none → (∀ i < n, Exceeds (x i) (x (i + 1))) →
      ¬ Exceeds (x n) (x (n + 1)) → (∀ i ≤ n, YieldsI P N L W (some (nm, s, x i)) d (.body cb b) s (.ok (x (i + 1)))) →
      YieldsI P N L W c d (.rule nm cb b) s (.ok (x n))
  | grownPanic {c d nm cb b s n e} (x : Nat → Option (V × Bytes)) : nm ∉ W → (∀ y, c ≠ some (nm, s, y)) → nm ≠ "" → nm ∈ mentionsIn L → x 0 = none → (∀ i < n, Exceeds (x i) (x (i + 1))) →
      (∀ i < n, YieldsI P N L W (some (nm, s, x i)) d (.body cb b) s (.ok (x (i + 1)))) →
      YieldsI P N L W (some (nm, s, x n)) d (.body cb b) s (.error e) → YieldsI P N L W c d (.rule nm cb b) s (.error e)
  | text {c d cb e s r} : YieldsI P N L W c d (.part false e.vp) s r → YieldsI P N L W c (d + 1) (.body cb (.text e)) s (called P N cb r)
  | rank {c d cb ls s r} : YieldsI P N L W c d (.lines ls) s r → YieldsI P N L W c (d + 1) (.body cb (.rank ls)) s (called P N cb r)
  | linesEnd {c d s} : YieldsI P N L W c d (.lines []) s (.ok none)
  | incl {c d nm cb b ls s r} : YieldsI P N L W c d (.lines ls) s r → YieldsI P N L W c d (.lines (.incl nm cb b :: ls)) s r
  | altDone {c d nm cb b ls s r} : YieldsI P N L W c d (.rule nm cb b) s r → r ≠ .ok none →
      YieldsI P N L W c d (.lines (.alt nm cb b :: ls)) s r
  | altMiss {c d nm cb b ls s r} : YieldsI P N L W c d (.rule nm cb b) s (.ok none) → YieldsI P N L W c d (.lines ls) s r →
      YieldsI P N L W c d (.lines (.alt nm cb b :: ls)) s r


end
end Joeson.RuleText
