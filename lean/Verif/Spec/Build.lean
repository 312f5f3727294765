import Verif.Model.Build
/-!
# What the numbering and naming of rules should be
-/

namespace Joeson

/-- A parser that is not part of a grammar: it contains no numbered rule, and no choice with a single alternative. (The
parsers that rule texts compile to are of this kind: `CHOICE` of joeson_handcompiled.go:82 takes two sequences or more.) -/
inductive Node.Plain : Node → Prop
  | str {i b} : Plain (.str i b)
  | regex {i re} : Plain (.regex i re)
  | choice {i l} : (∀ c ∈ l, Plain c) → (∀ c, l ≠ [c]) → Plain (.choice i l)
  | seq {i r l} : (∀ c ∈ l, Plain c) → Plain (.seq i r l)
  | exist {i n} : Plain n → Plain (.exist i n)
  | look {i n} : Plain n → Plain (.look i n)
  | not {i n} : Plain n → Plain (.not i n)
  | pattern {i v j mn mx} : Plain v → (∀ c, j = some c → Plain c) → Plain (.pattern i v j mn mx)
  | ref {i nm} : Plain (.ref i nm)

/-- All parsers given in lines are plain. -/
inductive Line.Plain : Line → Prop
  | o {n c op} : Plain c → Plain (.o n c op)
  | i {n c op} : Plain c → Plain (.i n c op)
  | a {ls} : (∀ l ∈ ls, Plain l) → Plain (.a ls)
  | s {t} : Plain (.s t)
  | c {b p} : p.Plain → Plain (.c b p)

/-- The names included by the `I` lines of a list. -/
def includedNames (ls : List Line) : List String :=
  ls.filterMap fun | .i n _ _ => some n | _ => none

/-- No rank of the line includes the same name twice. -/
inductive Line.NoDup : Line → Prop
  | o {n c op} : NoDup c → NoDup (.o n c op)
  | i {n c op} : NoDup c → NoDup (.i n c op)
  | a {ls} : (∀ l ∈ ls, NoDup l) → (includedNames ls).Nodup → NoDup (.a ls)
  | s {t} : NoDup (.s t)
  | c {b p} : NoDup (.c b p)

mutual
/-- The rules of a tree in walk order: children before parents, included rules before alternatives. Object and name. -/
def Rules.walk : Rules → List (Nat × String)
  | .leaf _ .part _ => []
  | .leaf a _ n => [(a, n.info.name)]
  | .rank a rule i incl alts =>
    Rules.walkList incl ++ Rules.walkList alts ++ (if rule then [(a, i.name)] else [])
/-- One after the other. -/
def Rules.walkList : List Rules → List (Nat × String)
  | [] => []
  | x :: l => x.walk ++ Rules.walkList l
end

/-- `k` is the last place of `x` in `l`. -/
def IsLast {α : Type} (l : List α) (x : α) (k : Nat) : Prop := l[k]? = some x ∧ ∀ j, k < j → l[j]? ≠ some x

/-- The name of the `k`-th alternative of a rank named `R`. -/
def altName (R : String) (k : Nat) (own : String) : String := if own = "" then R ++ "[" ++ toString k ++ "]" else own

/-- The own names of the alternatives, "" for anonymous ones. -/
def ownNames (ls : List Line) : List String :=
  ls.filterMap fun | .o n _ _ => some n | _ => none

/-- A line whose rule is not memoised: a parser given to `Named`. -/
def Line.wrapped : Line → Bool
  | .o _ l _ => l.wrapped
  | .c twice _ => twice
  | _ => false

end Joeson
