import Verif.Proofs.TraceOptions
/-!
# C46: the TRACE variable
-/

namespace Joeson
open Spec

/-- The value that is looked at: `TRACE`, or `trace` if that is empty. -/
def Spec.TraceValue (getenv : String → Bytes) (v : Bytes) : Prop :=
  (getenv "TRACE" ≠ [] ∧ v = getenv "TRACE") ∨ (getenv "TRACE" = [] ∧ v = getenv "trace")

theorem traceValue_words {getenv : String → Bytes} {ws : List Bytes} (hv : TraceValue getenv (commas ws))
    (hne : commas ws ≠ []) (hc : ∀ w ∈ ws, (0x2C : UInt8) ∉ w) (d : TraceOptions) :
    traceOptionsFromEnvironmentOrUse getenv d = traceWords mute ws := by
  have hws : ws ≠ [] := fun h => hne (by rw [h]; rfl)
  unfold traceOptionsFromEnvironmentOrUse checkEnvironmentForTraceOptions
  have he : (if getenv "TRACE" = [] then getenv "trace" else getenv "TRACE") = commas ws := by
    rcases hv with ⟨h, h'⟩ | ⟨h, h'⟩
    · rw [if_neg h, h']
    · rw [if_pos h, h']
  dsimp only
  rw [he, if_pos hne, splitByte_commas ws hws hc]

/-- C46: a value of TRACE made of comma separated words is accepted exactly when every word is known. -/
theorem C46_accepts (getenv : String → Bytes) (ws : List Bytes) (hv : TraceValue getenv (commas ws))
    (hne : commas ws ≠ []) (hc : ∀ w ∈ ws, (0x2C : UInt8) ∉ w) (d : TraceOptions) :
    ((∃ o, traceOptionsFromEnvironmentOrUse getenv d = .ok o) ↔ ∀ w ∈ ws, Recognised w) ∧
    ∀ e, traceOptionsFromEnvironmentOrUse getenv d = .error e → e = .badTraceOption := by
  rw [traceValue_words hv hne hc]
  exact traceWords_recognised mute ws

/-- Every value is such a list. -/
theorem C46_every_value (v : Bytes) : ∃ ws : List Bytes, v = commas ws ∧ ∀ w ∈ ws, (0x2C : UInt8) ∉ w :=
  ⟨splitByte 0x2C v, (commas_splitByte v).1.symm, (commas_splitByte v).2⟩

/-- C46: reading goes left to right from a muted state: an option is on when a word turned it on and no later
word turned it off again, `none` turns everything off, `all` stands for stack, grammar and skipsetup and
forgets loop and the line, the last line given counts. -/
theorem C46_left_to_right (getenv : String → Bytes) (ws : List Bytes) (hv : TraceValue getenv (commas ws))
    (hne : commas ws ≠ []) (hc : ∀ w ∈ ws, (0x2C : UInt8) ∉ w) (d o : TraceOptions)
    (h : traceOptionsFromEnvironmentOrUse getenv d = .ok o) :
    (o.stack = true ↔ LastSay ws (· ∈ [asc "stack", asc "all"]) [asc "none"]) ∧
    (o.loop = true ↔ LastSay ws (· ∈ [asc "loop"]) [asc "none", asc "all"]) ∧
    (o.grammar = true ↔ LastSay ws (· ∈ [asc "grammar", asc "all"]) [asc "none"]) ∧
    (o.skipSetup = true ↔ LastSay ws (· ∈ [asc "skipsetup", asc "all"]) [asc "none"]) ∧
    (∀ n, (∃ pre v post, ws = pre ++ v :: post ∧ LineWord v n ∧
        ∀ x ∈ post, x ∉ [asc "none", asc "all"] ∧ ∀ m, ¬ LineWord x m) → o.filterLine = n) ∧
    ((¬ ∃ n, LastSay ws (LineWord · n) [asc "none", asc "all"]) → o.filterLine = -1) := by
  rw [traceValue_words hv hne hc] at h
  exact words_flags ws o h

/-- `TRACE=loop,line=12,stack`, read whatever the default. -/
example (d : TraceOptions) :
    let env := fun k => if k = "TRACE" then asc "loop,line=12,stack" else []
    traceOptionsFromEnvironmentOrUse env d = .ok ⟨true, true, false, 12, false⟩ ∧
      TraceValue env (commas [asc "loop", asc "line=12", asc "stack"]) ∧
      (∀ w ∈ [asc "loop", asc "line=12", asc "stack"], (0x2C : UInt8) ∉ w) :=
  ⟨rfl, Or.inl ⟨by decide, rfl⟩, by decide⟩

/-- `trace=loop,all,none,grammar` when TRACE is empty. -/
example : traceOptionsFromEnvironmentOrUse (fun k => if k = "trace" then asc "loop,all,none,grammar" else []) mute =
    .ok ⟨false, false, true, -1, false⟩ := rfl

/-- `TRACE=line=x` and `TRACE=stack,` are refused. -/
example : traceOptionsFromEnvironmentOrUse (fun _ => asc "line=x") mute = .error .badTraceOption ∧
    traceOptionsFromEnvironmentOrUse (fun _ => asc "stack,") mute = .error .badTraceOption := ⟨rfl, rfl⟩

/-- C46, last part as the code has it: without TRACE the options are muted, whatever default is given. -/
theorem C46_default_ignored (getenv : String → Bytes) (h1 : getenv "TRACE" = []) (h2 : getenv "trace" = [])
    (d : TraceOptions) : traceOptionsFromEnvironmentOrUse getenv d = .ok mute := by
  unfold traceOptionsFromEnvironmentOrUse checkEnvironmentForTraceOptions
  dsimp only
  rw [if_pos h1, h2]
  rfl

/-- C46, last part is false: without TRACE a default other than the muted one is not used. -/
theorem C46_default_not_used (getenv : String → Bytes) (h1 : getenv "TRACE" = []) (h2 : getenv "trace" = [])
    (d : TraceOptions) : traceOptionsFromEnvironmentOrUse getenv d = .ok d ↔ d = mute := by
  rw [C46_default_ignored getenv h1 h2]
  exact ⟨fun h => (Except.ok.inj h).symm, fun h => by rw [h]⟩

/-- The documented default traces the grammar; the code does not. -/
theorem C46_default_options_muted (getenv : String → Bytes) (h1 : getenv "TRACE" = []) (h2 : getenv "trace" = []) :
    ∃ o, defaultTraceOptions getenv = .ok o ∧ o.grammar = false ∧ o.skipSetup = false :=
  ⟨mute, C46_default_ignored getenv h1 h2 _, rfl, rfl⟩

example : traceOptionsFromEnvironmentOrUse (fun _ => []) verbose = .ok mute ∧ mute ≠ verbose := ⟨rfl, by decide⟩

end Joeson
