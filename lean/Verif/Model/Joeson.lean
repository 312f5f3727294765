import Verif.Model.Build
import Verif.Model.Values
import Verif.Model.Native
import Verif.Model.GrammarParse
import Verif.Spec.Peg
/-!
# joeson_handcompiled.go: the grammar of rule texts

Simplifications.
* The parsers that the callbacks make are immutable values: `merge` (parser_sequence.go:227-236) and line.go:191-192,
  204 change an object in place, here they give a new value. Go's in-place change is visible in the memo table, but a parser
  that got a label is only reached again through the rule that gave it the label.
* Origins, `Attr` and the text of a regular expression are left out, and the parameter of a reference, which is never
  read while parsing.
* Regular expressions of rule texts are compiled by a parameter `rx`. The three regular expressions of the grammar itself
  are written as functions.
* Names are Lean strings, made of the bytes of the text (a `WORD` is ASCII).
-/

namespace Joeson

/-! ## The regular expressions of the grammar -/

/-- Length of the longest prefix of bytes with a property. -/
def scan (f : UInt8 → Bool) : Bytes → Nat
  | [] => 0
  | b :: l => if f b then scan f l + 1 else 0

theorem scan_le (f : UInt8 → Bool) (s : Bytes) : scan f s ≤ s.length := by
  induction s with
  | nil => exact Nat.le_refl _
  | cons b l ih => unfold scan; split <;> simp only [List.length_cons] <;> omega

/-- The leftmost, longest match of `[first][more]*`. -/
def runRegex (first more : UInt8 → Bool) : Regex where
  find s :=
    let a := scan (fun b => !first b) s
    if a < s.length then some (a, a + 1 + scan more (s.drop (a + 1))) else none
  bounds := by
    intro s a b h
    dsimp only at h
    split at h
    · rename_i hlt
      cases h
      have := scan_le more (s.drop (scan (fun b => !first b) s + 1))
      rw [List.length_drop] at this
      omega
    · cases h

/-- `[a-zA-Z\._]` -/
def wordFirst (b : UInt8) : Bool :=
  (0x61 ≤ b.toNat && b.toNat ≤ 0x7A) || (0x41 ≤ b.toNat && b.toNat ≤ 0x5A) || b == 0x2E || b == 0x5F

/-- `[0-9]` -/
def isDigit (b : UInt8) : Bool := 0x30 ≤ b.toNat && b.toNat ≤ 0x39

/-- `[a-zA-Z\._0-9]` -/
def wordMore (b : UInt8) : Bool := wordFirst b || isDigit b

/-- joeson_handcompiled.go:112 `[a-zA-Z\._][a-zA-Z\._0-9]*` -/
def reWord : Regex := runRegex wordFirst wordMore

/-- joeson_handcompiled.go:113 `[0-9]+` -/
def reInt : Regex := runRegex isDigit isDigit

/-- joeson_handcompiled.go:117 `[\s\S]`: any rune; bytes that are not UTF-8 are runes of one byte for Go's regexp. -/
def reAny : Regex where
  find s := if s = [] then none else some (0, min (decodeRune s).2 s.length)
  bounds := by
    intro s a b h
    split at h
    · cases h
    · cases h; omega

/-! ## The constructors of parsers -/

/-- A name from the bytes of a text. -/
def nameOf (b : Bytes) : String := String.ofList (b.map fun x => Char.ofNat x.toNat)

/-- parser_str.go:24-29 `newStr`, with rule.go:30-37 -/
def mkStr (b : Bytes) : Node := .str { capture := false } b

/-- parser_regex.go:19-27 `newRegexFromString` -/
def mkRegex (re : Regex) : Node := .regex {} re

/-- parser_ref.go:24-62 `newRef`, once the name is known to be non empty -/
def mkRef (nm : String) (underscore : Bool) : Node := .ref { capture := !underscore } nm

/-- parser_choice.go:18-33 `newChoice` -/
def mkChoice (l : List Node) : Node := .choice {} l

/-- parser_sequence.go:25-49 `newSequence`; the type is set later -/
def mkSeq (l : List Node) : Node := .seq {} .single l

/-- parser_existential.go:12-16 `newExistential` -/
def mkExist (n : Node) : Node := .exist {} n

/-- parser_not.go:17-23 `newNot` -/
def mkNot (n : Node) : Node := .not { capture := false } n

/-- parser_lookahead.go:19-25 `newLookahead` -/
def mkLook (n : Node) : Node := .look { capture := false } n

/-- parser_pattern.go:36-89 `newPattern` -/
def mkPattern (value : Node) (join : Option Node) (mn mx : Int) : Node :=
  .pattern { capture := value.info.capture } value join mn mx

/-! ## Values -/

/-- What parsing a rule text produces. -/
inductive JVal where
  /-- native_undefined.go:9-12 -/
  | undef
  /-- native_string.go:8 -/
  | str (s : Bytes)
  /-- native_int.go:8 -/
  | int (n : Int)
  /-- native_array.go:25 -/
  | arr (l : List JVal)
  /-- native_map.go:16-20 -/
  | map (kvs : List (String × JVal))
  /-- a parser -/
  | parser (n : Node)

/-- `v.(Parser)`. `NativeUndefined` is a `Parser` as well (native_undefined.go:9-25); the model stops there. -/
def JVal.asParser : JVal → Except Panic Node
  | .parser n => .ok n
  | .undef => .error .notModelled
  | _ => .error .assertion

/-- The same for the elements of an array. -/
def JVal.asParsers : List JVal → Except Panic (List Node)
  | [] => .ok []
  | v :: l => do return (← v.asParser) :: (← JVal.asParsers l)

/-- `m[k]` -/
def JVal.get (kvs : List (String × JVal)) (k : String) : Option JVal := (kvs.find? fun p => p.1 == k).map (·.2)

/-- native_array.go:64-78 `Concat`, for elements that are strings -/
def JVal.concat : List JVal → Except Panic Bytes
  | [] => .ok []
  | .str s :: l => do return s ++ (← JVal.concat l)
  | .undef :: l => JVal.concat l
  | _ => .error .notModelled

/-- parser_sequence.go:210-251 `merge` -/
def JVal.merge (toExtend newcomer : JVal) : Except Panic JVal :=
  match newcomer with
  | .undef => .ok toExtend
  | .map kvs => match toExtend with
    | .map kvs' => .ok (.map (kvs.foldl (fun m p => kvSet p.1 p.2 m) kvs'))
    | .parser n => do
      let n ← kvs.foldlM (fun n p => if p.1 = "label" then
          (match p.2 with
            | .str b => .ok (n.setInfo fun i => { i with label := nameOf b })
            | _ => .error .assertion)
        else .error .assertion) n
      return .parser n
    | .undef => .error .notModelled
    | _ => .error .assertion
  | _ => .error .assertion

/-- parser_pattern.go:59-88: a bound -/
def patternBound : Option JVal → Except Panic Int
  | none => .ok (-1)
  | some .undef => .ok (-1)
  | some (.int n) => .ok n
  | some (.str s) => newNativeIntFromString s
  | some _ => .error .badType

/-- parser_pattern.go:36-89 `newPattern`. A `join` that is undefined counts as none (parser_pattern.go:97). -/
def newPattern : JVal → Except Panic Node
  | .map kvs => do
    let value ← (match JVal.get kvs "value" with
      | some v => v.asParser
      | none => .error .assertion)
    let join ← (match JVal.get kvs "join" with
      | none | some .undef => .ok none
      | some v => do return some (← v.asParser))
    let mn ← patternBound (JVal.get kvs "min")
    let mx ← patternBound (JVal.get kvs "max")
    return mkPattern value join mn mx
  | _ => .error .assertion

/-- parser_ref.go:24-62 `newRef`. `name[0:1]` panics if the name is empty. -/
def newRef : JVal → Except Panic Node
  | .str b => fromName b
  | .arr (.str b :: _) => fromName b
  | _ => .error .assertion
where
  /-- parser_ref.go:42-45 -/
  fromName : Bytes → Except Panic Node
    | [] => .error .indexOutOfRange
    | b :: l => .ok (mkRef (nameOf (b :: l)) (b == 0x5F))

/-- joeson_handcompiled.go:61-67 `fCode` (its panic with a message is `assertion`) -/
def fCode : JVal → Except Panic JVal
  | .map kvs => match JVal.get kvs "code" with
    | none | some .undef => match JVal.get kvs "expr" with
      | some v => .ok v
      | none => .error .noKey
    | some _ => .error .assertion
  | _ => .error .assertion

/-- native_int.go:34-50 `NativeIntFrom`, on strings -/
def joesonInt : JVal → Except Panic JVal
  | .int n => .ok (.int n)
  | .str s => do return .int (← newNativeIntFromString s)
  | _ => .error .badType

/-- parser_regex.go:19-27 `newRegexFromString` -/
def newRegex (rx : Bytes → Option Regex) (src : Bytes) : Except Panic Node :=
  match rx src with
  | some re => .ok (mkRegex re)
  | none => .error .badRegex

/-- joeson_handcompiled.go:76-119: the callbacks, numbered. -/
def joesonCb (rx : Bytes → Option Regex) (c : Nat) (it : JVal) : Except Panic JVal :=
  match c with
  | 0 => match it with
    | .arr l => do return .parser (mkChoice (← JVal.asParsers l))
    | _ => .error .assertion
  | 1 => match it with
    | .arr l => do return .parser (mkSeq (← JVal.asParsers l))
    | _ => .error .assertion
  | 2 => do return .parser (mkExist (← it.asParser))
  | 3 => do return .parser (← newPattern it)
  | 4 => match it with
    | .map kvs => do return .parser (← newPattern (.map (kvSet "max" (.int (-1)) (kvSet "min" (.int 1) kvs))))
    | _ => .error .assertion
  | 5 => do return .parser (mkNot (← it.asParser))
  | 6 => match it with
    | .map kvs => match JVal.get kvs "expr" with
      | some v => do return .parser (mkLook (← v.asParser))
      | none => .error .noKey
    | _ => .error .assertion
  | 7 => do return .parser (← newRef it)
  | 8 => fCode it
  | 9 => match it with
    | .arr l => do return .parser (mkStr (← JVal.concat l))
    | _ => .error .assertion
  | 10 => match it with
    | .arr l => do return .parser (← newRegex rx (← JVal.concat l))
    | _ => .error .assertion
  | 11 => match it with
    | .arr l => do return .parser (← newRegex rx (asc "[" ++ (← JVal.concat l) ++ asc "]"))
    | _ => .error .assertion
  | 12 => joesonInt it
  | 13 => match it with
    | .str s => .ok (.str (asc "\\" ++ s))
    | _ => .error .assertion
  | _ => .error .assertion

/-- The operations on these values. -/
def joesonOps (rx : Bytes → Option Regex) : PureOps JVal where
  str b := .str b
  undef := .undef
  isUndef v := match v with | .undef => true | _ => false
  arr l := .arr l
  newMap k v := .map [(k, v)]
  -- parser_sequence.go:181-185
  mapSet r k v := match r with
    | .map kvs => .ok (.map (kvSet k v kvs))
    | _ => .error .assertion
  merge a b := a.merge b
  cb c v _ := (joesonCb rx c v).map some
  origin v _ := v

/-! ## The lines -/

namespace Joe

/-- joeson_handcompiled.go:23 `c` -/
def c (l : List Node) : Node := mkChoice l
/-- joeson_handcompiled.go:24 `e` -/
def e (n : Node) : Node := mkExist n
/-- joeson_handcompiled.go:25 `l` -/
def l (label : String) (n : Node) : Node := n.setInfo fun i => { i with label := label }
/-- joeson_handcompiled.go:26 `n` -/
def n (it : Node) : Node := mkNot it
/-- joeson_handcompiled.go:27 `r` -/
def r (name : String) : Node := mkRef name (name.toList.head? == some '_')
/-- joeson_handcompiled.go:29 `s` -/
def s (l : List Node) : Node := mkSeq l
/-- joeson_handcompiled.go:30 `st` -/
def st (t : String) : Node := mkStr (asc t)
/-- joeson_handcompiled.go:31-46 `p` -/
def p (value : Node) (join : Option Node) (mn : Int := -1) (mx : Int := -1) : Node := mkPattern value join mn mx

/-- joeson_handcompiled.go:58-60 `named` with `rules` -/
def nm (name : String) (lines : List Line) : LineFirst := .named name (.line (.a lines))
/-- joeson_handcompiled.go:58-60 `named` with a line -/
def nl (name : String) (line : Line) : LineFirst := .named name (.line line)
/-- joeson_handcompiled.go:58-60 `named` with a parser -/
def np (name : String) (p : Node) : LineFirst := .named name (.parser p)
/-- a parser -/
def pl (p : Node) : LineFirst := .plain (.parser p)

end Joe

open Joe in
/-- joeson_handcompiled.go:70-121 `JoesonRules` -/
def joesonLines : Except Panic (List Line) := do
  return [
    ← lineO (nm "EXPR" [
      ← lineO (pl (s [r "CHOICE", r "_"])) [],
      ← lineO (nm "CHOICE" [
        ← lineO (pl (s [p (r "_PIPE") none, p (r "SEQUENCE") (some (r "_PIPE")) 2, p (r "_PIPE") none])) [.cb 0],
        ← lineO (nm "SEQUENCE" [
          ← lineO (pl (p (r "UNIT") none 2)) [.cb 1],
          ← lineO (nm "UNIT" [
            ← lineO (pl (s [r "_", r "LABELED"])) [],
            ← lineO (nm "LABELED" [
              ← lineO (pl (s [e (s [l "label" (r "LABEL"), st ":"]), l "&" (c [r "DECORATED", r "PRIMARY"])])) [],
              ← lineO (nm "DECORATED" [
                ← lineO (pl (s [r "PRIMARY", st "?"])) [.cb 2],
                ← lineO (pl (s [l "value" (r "PRIMARY"), st "*", l "join" (e (s [n (r "__"), r "PRIMARY"])),
                    l "@" (e (r "RANGE"))])) [.cb 3],
                ← lineO (pl (s [l "value" (r "PRIMARY"), st "+", l "join" (e (s [n (r "__"), r "PRIMARY"]))])) [.cb 4],
                ← lineO (pl (s [l "value" (r "PRIMARY"), l "@" (r "RANGE")])) [.cb 3],
                ← lineO (pl (s [st "!", r "PRIMARY"])) [.cb 5],
                ← lineO (pl (c [s [st "(?", l "expr" (r "EXPR"), st ")"], s [st "?", l "expr" (r "EXPR")]])) [.cb 6],
                ← lineI (nl "RANGE" (← lineO (pl (s [st "{", r "_", l "min" (e (r "INT")), r "_", st ",", r "_",
                    l "max" (e (r "INT")), r "_", st "}"])) [])) []
              ]) [],
              ← lineO (nm "PRIMARY" [
                ← lineO (pl (s [r "WORD", st "(", r "EXPR", st ")"])) [.cb 7],
                ← lineO (pl (r "WORD")) [.cb 7],
                ← lineO (pl (s [st "(", l "inlineLabel" (e (s [r "WORD", st ": "])), l "expr" (r "EXPR"), st ")",
                    e (s [r "_", st "->", r "_", l "code" (r "CODE")])])) [.cb 8],
                ← lineI (nl "CODE" (← lineO (pl (s [st "{", p (s [n (st "}"), c [r "ESC1", r "."]]) none (-1) (-1),
                    st "}"])) [])) [.cb 8],
                ← lineO (pl (s [st "'", p (s [n (st "'"), c [r "ESC1", r "."]]) none, st "'"])) [.cb 9],
                ← lineO (pl (s [st "/", p (s [n (st "/"), c [r "ESC2", r "."]]) none, st "/"])) [.cb 10],
                ← lineO (pl (s [st "[", p (s [n (st "]"), c [r "ESC2", r "."]]) none, st "]"])) [.cb 11]
              ]) []
            ]) []
          ]) []
        ]) []
      ]) []
    ]) [],
    ← lineI (np "LABEL" (c [st "&", st "@", r "WORD"])) [],
    ← lineI (np "WORD" (mkRegex reWord)) [],
    ← lineI (np "INT" (mkRegex reInt)) [.cb 12],
    ← lineI (np "_PIPE" (s [r "_", st "|"])) [],
    ← lineI (np "_" (p (c [st " ", st "\n"]) none)) [],
    ← lineI (np "__" (p (c [st " ", st "\n"]) none 1)) [],
    ← lineI (np "." (mkRegex reAny)) [],
    ← lineI (np "ESC1" (s [st "\\", r "."])) [],
    ← lineI (np "ESC2" (s [st "\\", r "."])) [.cb 13]
  ]

/-- joeson_handcompiled.go:11-21 `NewJoesonWithOptions`. No line of it is a text. -/
def joesonMade : Except Panic Made := do
  grammarFromLines (fun _ => .error .assertion) "__joeson__" (← joesonLines)

/-- line.go:165-192: the text of a rule is parsed by the grammar `g` of rule texts, and the result has to be a parser.
Its name and options are set by `getRule`. -/
def compileText (rx : Bytes → Option Regex) (g : Grammar) (tr : Trace) (fuel : Nat) (text : Bytes) : Out Node :=
  match (parseString ((joesonOps rx).ops Unit) g tr [] fuel () text).1 with
  | .ok (.value v, _) => Out.ofExcept v.asParser
  | .ok (.error _, _) => .panic .badRuleText
  | .ok (.nil, _) => .panic .assertion
  | .panic e => .panic e
  | .oof => .oof

/-- line.go:165-192 as `rankFromLines` uses it. The panic `notModelled` stands for a `fuel` that is too small. -/
def compileRule (rx : Bytes → Option Regex) (g : Grammar) (tr : Trace) (fuel : Nat) (text : Bytes) : Except Panic Node :=
  match compileText rx g tr fuel text with
  | .ok n => .ok n
  | .panic e => .error e
  | .oof => .error .notModelled

end Joeson
