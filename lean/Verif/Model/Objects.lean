import Verif.Model.Build
/-!
# Parsers as objects

`Model/Build` takes the parsers that are given to lines as values. Here they are objects that several lines or several grammars may share. Only what
`getRule` and the numbering of `postinit` read and write is kept; the lines of a grammar are `O` lines with a Parser each.
-/

namespace Joeson

/-- A Parser: the object and the parsers that `forEachChild` visits (walk.go:14-29). -/
inductive Obj where
  | mk (addr : Nat) (kids : List Obj)

/-- rule.go:10-21: the fields of `rule` that building writes. -/
structure Mark where
  /-- rule.go:12 `parent`: whether it is set -/
  parent : Bool := false
  /-- rule.go:13 `parser` -/
  parser : Option Nat := none
  /-- rule.go:15 `id` -/
  id : Nat := 0
  /-- rule.go:16 `name` -/
  name : String := ""
  /-- parseoption.go `cb` -/
  cb : Option Nat := none
deriving DecidableEq

/-- The objects of the program. -/
abbrev Marks := Nat → Mark

/-- Write one object. -/
def Marks.set (h : Marks) (a : Nat) (m : Mark) : Marks := fun b => if b = a then m else h b

/-- parser.go:44-46 `IsRule` -/
def Marks.isRule (h : Marks) (a : Nat) : Bool := (h a).parser == some a

/-- line.go:153-155 and 195-205: `getRule` of a line that is a Parser -/
def giveParser (h : Marks) (a : Nat) (name : String) (cb : Option Nat) : Except Panic Marks :=
  if (h a).parser.isSome && !h.isRule a then .error .assertion
  else .ok (h.set a { h a with name := name, parser := some a, cb := cb })

/-- grammar.go:259-289, before the children. `up` is the parser of the parent. -/
def connectPre (h : Marks) (up : Option (Option Nat)) (a : Nat) : Except Panic Marks :=
  if !h.isRule a && (h a).parent then .error .notDag
  else .ok (h.set a { h a with parent := up.isSome, parser := if (h a).parser.isSome then (h a).parser else up.join })

/-- grammar.go:290-302, after the children -/
def connectPost (h : Marks) (num : Nat) (a : Nat) : Marks × Nat :=
  if h.isRule a then (h.set a { h a with id := num }, num + 1) else (h, num)

mutual
/-- grammar.go:257-303, walk.go:14-29 -/
def connectObj (up : Option (Option Nat)) (h : Marks) (num : Nat) : Obj → Except Panic (Marks × Nat)
  | .mk a kids => do
    let h ← connectPre h up a
    let (h, num) ← connectObjs (h a).parser h num kids
    return connectPost h num a
/-- The children. -/
def connectObjs (up : Option Nat) (h : Marks) (num : Nat) : List Obj → Except Panic (Marks × Nat)
  | [] => .ok (h, num)
  | x :: l => do
    let (h, num) ← connectObj (some up) h num x
    connectObjs up h num l
end

/-- The object itself. -/
def Obj.addr : Obj → Nat
  | .mk a _ => a

/-- parser_rank.go:33-44: the Parsers given to the lines, with the names and callbacks of the lines -/
def giveParsers (h : Marks) : List (Obj × String × Option Nat) → Except Panic Marks
  | [] => .ok h
  | (x, name, cb) :: l => do
    let h ← giveParser h x.addr name cb
    giveParsers h l

/-- grammar.go:60-71 and 160-166, parser_rank.go:47-52: a Grammar `gm` whose rank is `rank`, both new objects, from lines. Gives the number of rules. -/
def buildObj (gm rank : Nat) (h : Marks) (lines : List (Obj × String × Option Nat)) : Except Panic (Marks × Nat) := do
  let h ← giveParsers ((h.set gm {}).set rank {}) lines
  connectObj none h 0 (.mk gm [.mk rank (lines.map (·.1))])

/-- grammar.go:200-208: a Grammar that was built, as a Parser. It visits the rules it has by name, then the rank. -/
def grammarObj (gm rank : Nat) (rules alts : List Obj) : Obj := .mk gm (rules ++ [.mk rank alts])

end Joeson
