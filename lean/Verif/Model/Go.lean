/-!
# Go primitives used by the model

Go `string` values are byte sequences.  Panics are values.
-/

namespace Joeson

/-- A Go `string` (or `[]byte`): a finite sequence of bytes. -/
abbrev Bytes := List UInt8

/-- Why a Go execution panics.  Every constructor cites the place in /repo that raises it. -/
inductive Panic where
  /-- `SetPos`: codestream_rune.go:38-44, codestream_token.go:92-97 -/
  | outOfBound
  /-- Go runtime: index or slice bounds out of range -/
  | indexOutOfRange
  /-- Go runtime: nil pointer dereference -/
  | nilDeref
  /-- helpers.go:147-149 `RuneError` in `LastNRunes` -/
  | runeError
  /-- packrat.go:185 `where's my wipemask` and parsectx.go:110-112 -/
  | noWipemask
  /-- packrat.go:214 and packrat.go:249 `Unexpected stage` -/
  | unexpectedStage
  /-- packrat.go:236 `assert failed: i_frame.pos > startPos` -/
  | framePos
  /-- parser_ref.go:70-71 undefined reference -/
  | undefinedRef (name : String)
  /-- `panic("assert")` and the other assertion style panics of parser_sequence.go:184, 210-251 -/
  | assertion
  /-- a panic raised by user code in a callback, e.g. `panic(ctx.Error(..))`, parseoption.go:42-44 -/
  | user (code : Nat)
  /-- strconv failures turned into panics: native_int.go:22-24, 42, native_map.go:117-127 -/
  | notANumber
  /-- "Unable to make ..." / "unexpected type" panics: native_int.go:48, native_string.go:37, native_map.go:49-50, 101, 129 -/
  | badType
  /-- missing key: native_map.go:153, 164 -/
  | noKey
  /-- unknown or malformed TRACE option: traceoptions.go:114, 119, 123 -/
  | badTraceOption
  /-- Go runtime index error of `ctx.stack[ctx.stackLength] = ...` when the 1024 entries are used:
  parsectx.go:24, 88-89 -/
  | stackOverflow
  /-- Go runtime slice error of `ctx.loopStack[:len(ctx.loopStack)-1]` on an empty slice:
  parsectx.go:86 -/
  | loopStackEmpty
  /-- not in the Go code: raised by the checks that Spec/Checked.lean adds around parser calls -/
  | checkFailed
  /-- grammar.go:264-266 `Grammar tree should be a DAG` -/
  | notDag
  /-- line.go:186-187: the text of a rule does not parse -/
  | badRuleText
  /-- parser_regex.go:21-22 `Invalid regex` -/
  | badRegex
  /-- not in the Go code: the model stops here (Model/Build.lean says where and why) -/
  | notModelled
  deriving DecidableEq, Repr

/-- ASCII literal as Go bytes (used only to write concrete instances). -/
def asc (s : String) : Bytes := s.toList.map (fun c => UInt8.ofNat c.toNat)

/-- Go slice expression `s[lo:hi]` on a string: panics unless `0 <= lo <= hi <= len(s)`. -/
def goSlice (s : List α) (lo hi : Int) : Except Panic (List α) :=
  if 0 ≤ lo ∧ lo ≤ hi ∧ hi ≤ (s.length : Int) then
    .ok ((s.drop lo.toNat).take (hi - lo).toNat)
  else .error .indexOutOfRange

/-- Go index expression `a[i]` on a slice: panics unless `0 <= i < len(a)`. -/
def goIndex (a : List α) (i : Int) : Except Panic α :=
  if 0 ≤ i then
    match a[i.toNat]? with
    | some x => .ok x
    | none => .error .indexOutOfRange
  else .error .indexOutOfRange

end Joeson
