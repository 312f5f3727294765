import Verif.Props.Print
import Verif.Props.Colors
import Verif.Props.Regexp
/-!
# C56: how expressions are printed
-/

namespace Joeson
open Spec

/-- A text on one line: carriage returns, newlines and tabs are written `\r`, `\n` and `\t`. -/
inductive OneLine : Bytes → Bytes → Prop
  | nil : OneLine [] []
  | cr {s t} : OneLine s t → OneLine (0x0D :: s) (asc "\\r" ++ t)
  | lf {s t} : OneLine s t → OneLine (0x0A :: s) (asc "\\n" ++ t)
  | tab {s t} : OneLine s t → OneLine (0x09 :: s) (asc "\\t" ++ t)
  | other (b) {s t} : b ∉ [0x0D, 0x0A, 0x09] → OneLine s t → OneLine (b :: s) (b :: t)

theorem oneLine_escape : ∀ s : Bytes, OneLine s (s.flatMap escapeRegexByte)
  | [] => .nil
  | b :: s => by
    have ih := oneLine_escape s
    rw [List.flatMap_cons]
    unfold escapeRegexByte
    split
    · rename_i h; subst h; exact .cr ih
    · split
      · rename_i h; subst h; exact .lf ih
      · split
        · rename_i h; subst h; exact .tab ih
        · rename_i h1 h2 h3
          exact .other b (by simp [h1, h2, h3]) ih

/-- C56: an expression is printed on one line, between slashes and with `g` at the end; that is the text of the expression, but for
carriage returns, newlines and tabs. -/
theorem C56_regex_text (src : Regex → Bytes) (nm : Nat → String) (i : Info) (re : Regex) (hi : i.label = "") :
    ∃ t, OneLine (src re) t ∧ (∀ b ∈ t, b ∉ [(0x0D : UInt8), 0x0A, 0x09]) ∧
      (NoEscapes (asc "/" ++ t ++ asc "/g") → stripAnsi ((Node.regex i re).string src nm) = asc "/" ++ t ++ asc "/g") := by
  refine ⟨_, oneLine_escape (src re), ?_, fun hn => ?_⟩
  · intro b hb
    obtain ⟨c, _, hc⟩ := List.mem_flatMap.mp hb
    unfold escapeRegexByte at hc
    split at hc
    · simp only [List.mem_cons, List.not_mem_nil, or_false] at hc
      rcases hc with rfl | rfl <;> decide
    · split at hc
      · simp only [List.mem_cons, List.not_mem_nil, or_false] at hc
        rcases hc with rfl | rfl <;> decide
      · split at hc
        · simp only [List.mem_cons, List.not_mem_nil, or_false] at hc
          rcases hc with rfl | rfl <;> decide
        · rename_i h1 h2 h3
          rw [List.mem_singleton.mp hc]
          simp [h1, h2, h3]
  · have hp : labelPrefix (Node.regex i re).info = [] := if_neg (fun h => h hi)
    rw [Node.string, hp, List.nil_append, Node.body]
    exact C55_stripAnsi_partial (C55_colours magenta (by simp) (.plain _)) hn

example : stripAnsi ((Node.regex {} Sample.noRegex).string (fun _ => asc "([a\n\t]+\r?.)") (fun _ => "")) = asc "/([a\\n\\t]+\\r?.)/g" := by decide +kernel

/-- C56 is false for a newline that is escaped in the expression: `\` and a newline matches a newline; it is printed as the text of an expression
that matches a backslash followed by `n`. -/
theorem C56_regex_escaped_newline :
    rxCompile ([0x28] ++ [0x5C, 0x0A] ++ [0x29]) = some (.seq (.seq (.cls ⟨false, [(0x0A, 0x0A)]⟩) .empty) .empty) ∧
    stripAnsi ((Node.regex {} Sample.noRegex).string (fun _ => [0x28] ++ [0x5C, 0x0A] ++ [0x29]) (fun _ => "")) = asc "/" ++ ([0x28] ++ asc "\\\\n" ++ [0x29]) ++ asc "/g" ∧
    rxCompile ([0x28] ++ asc "\\\\n" ++ [0x29]) =
      some (.seq (.seq (.cls ⟨false, [(0x5C, 0x5C)]⟩) (.seq (.cls ⟨false, [(0x6E, 0x6E)]⟩) .empty)) .empty) := by
  decide +kernel

end Joeson
