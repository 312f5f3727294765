import Verif.Props.TokenReport
/-!
# C08: lines around a position in a token stream
-/

namespace Joeson
open Spec

/-- C08, for tokens: `PeekLines` gives the lines of the original text around the place that is shown for the position, as it does for a text. Without
argument it gives the line of that place, and not nothing, as it does for a text. -/
theorem C08_tokens {text : Bytes} {tokens : List Token} (hl : Contiguous tokens) {w o : Nat} (h : ShownPlace tokens w o) (hO : o ≤ text.length) :
    (∀ a ns, ((TokenStream.new text tokens).withPos w).peekLines (a :: ns) = (runeAt text o).peekLines (a :: ns)) ∧
      ((TokenStream.new text tokens).withPos w).peekLines [] = .ok (lineRange text (lineAt text o) (lineAt text o)) := by
  have h1 : ((TokenStream.new text tokens).withPos w).line = (lineAt text o : Int) := (shown_at hl h hO w).1
  have h2 : (runeAt text o).line = (lineAt text o : Int) := (C02_line_col (runeAt text o) (runeAt_valid text hO) o hO).1
  have hcore : ∀ a ns, RuneStream.peekLinesCore text (lineStartsOf text) ((TokenStream.new text tokens).withPos w).line a ns =
      RuneStream.peekLinesCore text (lineStartsOf text) (runeAt text o).line a ns := by
    intro a ns; rw [h1, h2]
  refine ⟨?_, ?_⟩
  · intro a ns
    cases ns with
    | nil => exact hcore a [0]
    | cons b ns => exact hcore a (b :: ns)
  · show RuneStream.peekLinesCore text (lineStartsOf text) ((TokenStream.new text tokens).withPos w).line 0 [] = _
    rw [hcore]
    have e : RuneStream.peekLinesCore text (lineStartsOf text) (runeAt text o).line 0 [] = (runeAt text o).peekLines [0] := rfl
    have h0 := C08_peekLines_partial (runeAt text o) (runeAt_valid text hO) 0 []
    simp only [if_true, List.foldl_cons, List.foldl_nil] at h0
    have hlen := lines_length (runeAt text o).text
    have hle := newlines_take_le (runeAt text o).text (runeAt text o).pos
    rw [e, h0 (by omega) (by omega)]
    unfold lineRange lineAt
    have et : (runeAt text o).text = text := rfl
    have ep : (runeAt text o).pos = o := rfl
    rw [et, ep] at hle
    rw [et] at hlen
    rw [et, ep]
    congr 3
    omega

example : (Sample.twoLines.withPos 3).peekLines [] = .ok (asc " cd e") ∧ (Sample.twoLines.withPos 3).peekLines [-1, 5] = .ok (asc "ab\n cd e") ∧
    ShownPlace Sample.twoLines.tokens 3 5 := by
  refine ⟨by decide +kernel, by decide +kernel, ?_⟩
  exact .inside (pre := [⟨asc "ab", 0, 0⟩]) (t := ⟨asc "cd", 4, 2⟩) (post := [⟨asc "e", 7, 4⟩]) (n := 1) rfl (by simp) (by decide) (by decide) (by decide)

end Joeson
