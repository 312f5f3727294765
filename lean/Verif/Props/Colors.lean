import Verif.Proofs.Colors
/-!
# C55 `StripAnsi` undoes the colours
-/

namespace Joeson
open Spec

/-- C55: removing the escape sequences of a text to which colours were added gives the text, whatever it is, as long as it
has no escape characters (ESC, U+009B) and no BEL itself. -/
theorem C55_stripAnsi_partial {a p : Bytes} (h : Coloured a p) (hp : NoEscapes p) : stripAnsi a = p :=
  removeAll_coloured h hp _ (Nat.le_refl _)

/-- Every function of colors.go adds colours and nothing else. -/
theorem C55_colours (f : Bytes → Bytes)
    (hf : f ∈ [black, red, green, yellow, blue, magenta, cyan, white, boldBlack, boldRed, boldGreen, boldYellow, boldBlue,
      boldMagenta, boldCyan, boldWhite, bold]) {a p : Bytes} (h : Coloured a p) : Coloured (f a) p := by
  simp only [List.mem_cons, List.not_mem_nil, or_false] at hf
  rcases hf with rfl | rfl | rfl | rfl | rfl | rfl | rfl | rfl | rfl | rfl | rfl | rfl | rfl | rfl | rfl | rfl | rfl
  all_goals exact Coloured.paint (by decide) h

/-- Texts without escape sequences are left alone. -/
theorem C55_stripAnsi_plain {p : Bytes} (hp : NoEscapes p) : stripAnsi p = p := C55_stripAnsi_partial (Coloured.plain p) hp

/-- Stripping twice is the same as stripping once, for coloured texts. -/
theorem C55_stripAnsi_again {a p : Bytes} (h : Coloured a p) (hp : NoEscapes p) : stripAnsi (stripAnsi a) = stripAnsi a := by
  rw [C55_stripAnsi_partial h hp, C55_stripAnsi_plain hp]

/-- `Blue("(") + Bold("x[1m" + Red("é")) + Blue(")")` -/
example : stripAnsi (blue (asc "(") ++ bold (asc "x[1m" ++ red [0xC3, 0xA9]) ++ blue (asc ")")) = asc "(x[1m" ++ [0xC3, 0xA9] ++ asc ")" := by
  have hb : ∀ s, Coloured (blue s) s := fun s => C55_colours blue (by simp) (.plain s)
  have hr : ∀ s, Coloured (red s) s := fun s => C55_colours red (by simp) (.plain s)
  refine C55_stripAnsi_partial (((hb _).append (C55_colours bold (by simp) ((Coloured.plain _).append (hr _)))).append (hb _)) ?_
  exact ⟨by decide, by decide, by decide⟩

/-- C55 does not hold without the condition: when the text ends with a BEL everything up to it is taken for one escape
sequence, `StripAnsi(Blue("abc\a"))` is empty. -/
theorem C55_stripAnsi_bell : stripAnsi (blue (asc "abc" ++ [0x07])) = [] := by decide +kernel

/-- C55 does not hold without the condition: an escape character of the text may stay, or take the text after
it along. -/
theorem C55_stripAnsi_escape :
    stripAnsi (blue (asc "a" ++ [0x1B])) = asc "a" ++ [0x1B] ∧ stripAnsi ([0x1B] ++ asc "clear") = asc "lear" := by
  decide +kernel

end Joeson
