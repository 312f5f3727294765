import Verif.Model.Native
/-!
# traceoptions.go
-/

namespace Joeson

/-- traceoptions.go:14-20 `TraceOptions`. -/
structure TraceOptions where
  stack : Bool
  loop : Bool
  grammar : Bool
  filterLine : Int
  skipSetup : Bool
  deriving DecidableEq, Repr

/-- traceoptions.go:47-49 `Mute`. -/
def mute : TraceOptions := ⟨false, false, false, -1, false⟩

/-- traceoptions.go:52-54 `Verbose`. -/
def verbose : TraceOptions := ⟨true, false, true, -1, true⟩

/-- `strings.Split(s, sep)` for a separator of one byte. -/
def splitByte (sep : UInt8) : Bytes → List Bytes
  | [] => [[]]
  | b :: s =>
    if b = sep then [] :: splitByte sep s
    else match splitByte sep s with
      | [] => [[b]]
      | w :: ws => (b :: w) :: ws

/-- traceoptions.go:96-124: one turn of the loop over the comma separated words. -/
def traceWord (opt : TraceOptions) (v : Bytes) : Except Panic TraceOptions :=
  if v = asc "none" then .ok mute
  else if v = asc "stack" then .ok { opt with stack := true }
  else if v = asc "loop" then .ok { opt with loop := true }
  else if v = asc "skipsetup" then .ok { opt with skipSetup := true }
  else if v = asc "grammar" then .ok { opt with grammar := true }
  else if v = asc "all" then .ok verbose
  else if stringsIndex (asc "line=") v = some 0 ∨ stringsIndex (asc "filterline=") v = some 0 then
    match splitByte 0x3D v with
    | [_, n] => match atoi n with
      | some n => .ok { opt with filterLine := n }
      | none => .error .badTraceOption
    | _ => .error .badTraceOption
  else .error .badTraceOption

/-- The loop of traceoptions.go:95-125. -/
def traceWords (opt : TraceOptions) : List Bytes → Except Panic TraceOptions
  | [] => .ok opt
  | v :: vs => do
    let opt ← traceWord opt v
    traceWords opt vs

/-- traceoptions.go:70-128 `checkEnvironmentForTraceOptions` with an argument; `getenv` is `os.Getenv`. -/
def checkEnvironmentForTraceOptions (getenv : String → Bytes) (initial : TraceOptions) : Except Panic TraceOptions :=
  let env := if getenv "TRACE" = [] then getenv "trace" else getenv "TRACE"
  if env ≠ [] then traceWords mute (splitByte 0x2C env) else .ok initial

/-- traceoptions.go:59-61 `TraceOptionsFromEnvironmentOrUse`. -/
def traceOptionsFromEnvironmentOrUse (getenv : String → Bytes) (_defaultOpts : TraceOptions) : Except Panic TraceOptions :=
  checkEnvironmentForTraceOptions getenv mute

/-- traceoptions.go:36-44 `DefaultTraceOptions`. -/
def defaultTraceOptions (getenv : String → Bytes) : Except Panic TraceOptions :=
  traceOptionsFromEnvironmentOrUse getenv ⟨false, false, true, -1, true⟩

end Joeson
