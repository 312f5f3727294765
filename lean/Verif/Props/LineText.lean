import Verif.Proofs.LineText2
/-!
# C94: arrays of rules in the message about a misplaced array
-/

namespace Joeson
open Spec

/-- The message for an array, with the rows of its rules. -/
def arrayMessage (ws : List Written) : Bytes :=
  asc "Unknown type line, expected 'o' or 'i' line, got '[" ++ [0x0A] ++ unlines (Written.rowsAll 1 ws) ++ asc "]' (joeson.ALine)"

theorem stripped_message (src : Regex → Bytes) (nm : Nat → String) {ws : List Written} {ls : List Line} (h : Written.lines ws = .ok ls)
    (hl : Written.AllLegible ws) (hn : NoEscapes (arrayMessage ws)) : (unknownLine src nm (.a ls)).map stripAnsi = some (arrayMessage ws) := by
  have hc := stringIndent_array src nm 0 ls (lines_rows src nm ws 1 ls h hl)
  have e : arrayMessage ws = asc "Unknown type line, expected 'o' or 'i' line, got '" ++
      (asc "[" ++ [0x0A] ++ unlines (Written.rowsAll 1 ws) ++ (blanks 0 ++ asc "]")) ++ asc "' (" ++ asc "joeson.ALine" ++ asc ")" := by
    have e1 : asc "Unknown type line, expected 'o' or 'i' line, got '[" = asc "Unknown type line, expected 'o' or 'i' line, got '" ++ asc "[" := by decide
    have e2 : asc "]' (joeson.ALine)" = blanks 0 ++ (asc "]" ++ (asc "' (" ++ (asc "joeson.ALine" ++ asc ")"))) := by decide
    rw [arrayMessage, e1, e2]
    simp only [List.append_assoc]
  rw [unknownLine, Option.map_some]
  refine congrArg some (C55_stripAnsi_partial ?_ hn)
  rw [e]
  exact coloured_app (coloured_app (coloured_app (coloured_app (.plain _) hc) (.plain _)) (.plain _)) (.plain _)

/-- C94: the message about a misplaced array of rules has one row for every rule that has a text, and two around the rows of every rule that
has rules, in their order, indented by their depth, with `O` or `I`, the name, the text, and whether there is a callback.
Partial: rule texts that begin with a blank or the letter `o` are left out, see `C94_letter_o`. -/
theorem C94_rows_partial (src : Regex → Bytes) (nm : Nat → String) {ws : List Written} {ls : List Line} (h : Written.lines ws = .ok ls)
    (hl : Written.AllLegible ws) (hn : NoEscapes (arrayMessage ws)) : (unknownLine src nm (.a ls)).map stripAnsi = some (arrayMessage ws) :=
  stripped_message src nm h hl hn

/-- C94: different arrays have different messages (names are compared byte by byte, callbacks by whether there is one).
Partial, as above. -/
theorem C94_distinct_partial (src : Regex → Bytes) (nm : Nat → String) {ws ws' : List Written} {ls ls' : List Line} (h : Written.lines ws = .ok ls)
    (h' : Written.lines ws' = .ok ls') (hl : Written.AllLegible ws) (hl' : Written.AllLegible ws') (hc : Written.AllClean ws)
    (hc' : Written.AllClean ws') (hn : NoEscapes (arrayMessage ws)) (hn' : NoEscapes (arrayMessage ws'))
    (he : unknownLine src nm (.a ls) = unknownLine src nm (.a ls')) : Written.AllSame ws ws' := by
  have e : arrayMessage ws = arrayMessage ws' := by
    have e1 := stripped_message src nm h hl hn
    rw [he, stripped_message src nm h' hl' hn'] at e1
    exact (Option.some.inj e1).symm
  unfold arrayMessage at e
  have e1 := List.append_cancel_left (by simpa only [List.append_assoc] using e)
  have e2 : unlines (Written.rowsAll 1 ws) = unlines (Written.rowsAll 1 ws') := List.append_cancel_right (List.append_cancel_left e1)
  have e3 := unlines_inj (rowsAll_no_newline ws 1 hc) (rowsAll_no_newline ws' 1 hc') e2
  exact (rowsAll_inj ws ws' 0 [] [] [] [] hc hc' (by rw [e3])).1

namespace Sample

/-- `O("x 'a'", callback)`, `I(Named("LIST", []Line{O("a*"), O(Named("B", "b\nc"), Debug{true})}))` -/
def written : List Written :=
  [.text false "" (asc "x 'a'") [.cb 0],
   .group true "LIST" [.text false "" (asc "a*") [], .text false "B" (asc "b\nc") [.debug true]] []]

def writtenText : Bytes := asc "Unknown type line, expected 'o' or 'i' line, got '[\n  o  x 'a' " ++ [0xF0, 0x9D, 0x98, 0xA7] ++
  asc "\n  i LIST [\n    o  a*\n    o B o b\\nc\n  ]\n]' (joeson.ALine)"

end Sample

/-- the hypotheses of `C94_rows_partial` -/
example : (∃ ls, Written.lines Sample.written = .ok ls ∧ ∀ src nm, (unknownLine src nm (.a ls)).map stripAnsi = some Sample.writtenText) := by
  have hm : arrayMessage Sample.written = Sample.writtenText := by decide +kernel
  refine ⟨_, rfl, fun src nm => ?_⟩
  rw [← hm]
  refine C94_rows_partial src nm rfl ?_ ?_
  · simp only [Sample.written, Written.AllLegible, Written.Legible]; decide
  · rw [hm]; exact ⟨by decide +kernel, by decide +kernel, by decide +kernel⟩

/-- the hypotheses of `C94_distinct_partial`, of which the last does not hold: the two arrays differ in where a rule is -/
example (src : Regex → Bytes) (nm : Nat → String) :
    unknownLine src nm (.a [.i "L" (.a [.o "" (.s (asc "a")) {}]) {}, .o "" (.s (asc "b")) {}]) ≠
      unknownLine src nm (.a [.i "L" (.a [.o "" (.s (asc "a")) {}, .o "" (.s (asc "b")) {}]) {}]) := by
  intro he
  have := C94_distinct_partial src nm (ws := [.group true "L" [.text false "" (asc "a") []] [], .text false "" (asc "b") []])
    (ws' := [.group true "L" [.text false "" (asc "a") [], .text false "" (asc "b") []] []]) rfl rfl
    (by simp only [Written.AllLegible, Written.Legible]; decide) (by simp only [Written.AllLegible, Written.Legible]; decide)
    (by simp only [Written.AllClean, Written.Clean]; decide) (by simp only [Written.AllClean, Written.Clean]; decide)
    ⟨by decide +kernel, by decide +kernel, by decide +kernel⟩ ⟨by decide +kernel, by decide +kernel, by decide +kernel⟩ he
  cases this with
  | cons _ h => cases h

/-- C94 is false for rule texts that begin with `o`: whatever the number of blanks before and after that letter, `O` and `I` show `o`, one
blank and the rest. `O("other")` and `O("o ther")`, a reference to one rule and to two rules in sequence, have the same message. -/
theorem C94_letter_o (src : Regex → Bytes) (nm : Nat → String) (n i j : Nat) (name : String) (opts : RuleOpts) {t : Bytes} (ht : t.head? ≠ some 0x20)
    (hn : (0x0A : UInt8) ∉ t) :
    Line.stringIndent src nm n (.o name (.s (List.replicate i 0x20 ++ 0x6F :: (List.replicate j 0x20 ++ t))) opts) =
      Line.stringIndent src nm n (.o name (.s (asc "o " ++ t)) opts) := by
  have hb : ∀ k, (0x0A : UInt8) ∉ List.replicate k 0x20 := fun k hm => absurd (List.eq_of_mem_replicate hm) (by decide)
  have k : ∀ i j, replaceO (replaceNewlines (List.replicate i 0x20 ++ 0x6F :: (List.replicate j 0x20 ++ t))) = asc "o " ++ t := by
    intro i j
    rw [replaceNewlines_eq, onOneLine_id, replaceO_o _ _ ht]
    simp [hb, hn]
  have k2 : replaceO (replaceNewlines (asc "o " ++ t)) = asc "o " ++ t := k 0 1
  simp only [Line.stringIndent, k, k2]

example : lineO (.plain (.text (asc "other"))) [] = .ok (.o "" (.s (asc "other")) {}) ∧
    unknownLine (fun _ => []) (fun _ => "") (.a [.o "" (.s (asc "other")) {}]) = unknownLine (fun _ => []) (fun _ => "") (.a [.o "" (.s (asc "o ther")) {}]) ∧
    (unknownLine (fun _ => []) (fun _ => "") (.a [.o "" (.s (asc "other")) {}])).map stripAnsi =
      some (asc "Unknown type line, expected 'o' or 'i' line, got '[\n  o  o ther\n]' (joeson.ALine)") := by
  refine ⟨rfl, ?_, ?_⟩ <;> decide +kernel

/-- C94: blanks at the beginning of the text of an `O` without a name are shown, unless the letter `o` comes after them. -/
theorem C94_blanks (src : Regex → Bytes) (nm : Nat → String) (n i : Nat) (opts : RuleOpts) {t : Bytes} (ht : t.head? ≠ some 0x20)
    (ho : t.head? ≠ some 0x6F) (hn : (0x0A : UInt8) ∉ t) :
    Line.stringIndent src nm n (.o "" (.s (List.replicate i 0x20 ++ t)) opts) = blanks n ++ asc "o  " ++ List.replicate i 0x20 ++ t ++ cbMark opts := by
  have hb : (0x0A : UInt8) ∉ List.replicate i 0x20 := fun hm => absurd (List.eq_of_mem_replicate hm) (by decide)
  have k : replaceO (replaceNewlines (List.replicate i 0x20 ++ t)) = List.replicate i 0x20 ++ t := by
    rw [replaceNewlines_eq, onOneLine_id (by simp [hb, hn])]
    unfold replaceO
    rw [dropWhile_blanks, dropWhile_head ht]
    split
    · exact absurd rfl ho
    · rfl
  have e : asc "o" ++ (asc " " ++ asc "" ++ asc " ") = asc "o  " := by decide
  simp only [Line.stringIndent, k, indentOk_eq]
  rw [List.append_assoc (blanks n), e]
  simp only [List.append_assoc]

example : Line.stringIndent (fun _ => []) (fun _ => "") 1 (.o "" (.s (asc "   x")) {}) = asc "  o     x" := by decide +kernel

/-- C94: a grammar is never made of lines among which there is one that such a message is about. -/
theorem C94_panics (src : Regex → Bytes) (nm : Nat → String) (compile : Bytes → Except Panic Node) (name : String) {ls : List Line} {l : Line}
    (hl : l ∈ ls) (hm : unknownLine src nm l ≠ none) (x : Rules) : rankFromLines compile name ls ≠ .ok x := by
  have k : ∀ (ls : List Line) (r : Rank) (next : Nat), l ∈ ls → ∀ y, rankLines compile ls r next ≠ .ok y := by
    intro ls
    induction ls with
    | nil => intro r next hl; cases hl
    | cons a ls ih =>
      intro r next hl y hy
      rw [rankLines] at hy
      cases ha : rankLine compile r next a with
      | error e => rw [ha] at hy; cases hy
      | ok v =>
        rw [ha] at hy
        rcases List.mem_cons.mp hl with rfl | hl
        · cases l with
          | o _ _ _ => exact hm rfl
          | i _ _ _ => exact hm rfl
          | a _ => rw [rankLine] at ha; all_goals first | cases ha | (intros; intro h; cases h)
          | s _ => rw [rankLine] at ha; all_goals first | cases ha | (intros; intro h; cases h)
          | c _ _ => rw [rankLine] at ha; all_goals first | cases ha | (intros; intro h; cases h)
        · exact ih v.1 v.2 hl y hy
  intro h
  rw [rankFromLines] at h
  cases hr : rankLines compile ls { name := name } 1 with
  | error e => rw [hr] at h; cases h
  | ok v => exact k ls _ _ hl v hr

example : ∀ x, rankFromLines (fun _ => .ok (mkStr [])) "" [.o "" (.s []) {}, .a [.o "" (.s (asc "a")) {}]] ≠ .ok x :=
  C94_panics (fun _ => []) (fun _ => "") _ _ (l := .a [.o "" (.s (asc "a")) {}]) (List.mem_cons_of_mem _ List.mem_cons_self) (by intro h; cases h)

end Joeson
