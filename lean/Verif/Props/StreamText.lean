import Verif.Model.StreamText
import Verif.Spec.StreamText
import Verif.Props.TokenReport
import Verif.Props.Colors
import Verif.Props.Report
/-!
# C96: what code streams print about their position
-/

namespace Joeson
open Spec

theorem placeText_coloured (pos : Int) (total : Nat) (a b : Bytes) :
    Coloured (placeText pos total (a, b)) (asc "Code at offset " ++ itoa pos ++ asc "/" ++ itoa total ++ asc ": '" ++ a ++ asc "|" ++ b ++ asc "'") := by
  have hy : ∀ s, Coloured (boldYellow s) s := fun s => C55_colours boldYellow (by simp) (.plain s)
  have hc : ∀ s, Coloured (cyan s) s := fun s => C55_colours cyan (by simp) (.plain s)
  have hb : ∀ s, Coloured (boldCyan s) s := fun s => C55_colours boldCyan (by simp) (.plain s)
  have hw : ∀ s, Coloured (boldWhite s) s := fun s => C55_colours boldWhite (by simp) (.plain s)
  unfold placeText
  exact ((((((((Coloured.plain _).append (hy _)).append (.plain _)).append (hy _)).append (.plain _)).append (hc _)).append (hb _)).append (hw _)).append (.plain _)

theorem slices_at (text : Bytes) (p : Nat) :
    sliceString text (goMax 0 ((p : Int) - 20)) p = .ok (between text (p - 20) p) ∧ sliceString text p ((p : Int) + 40) = .ok (between text p (p + 40)) := by
  have e1 : goMax 0 ((p : Int) - 20) = ((p - 20 : Nat) : Int) := by unfold goMax; split <;> omega
  have e2 : (p : Int) + 40 = ((p + 40 : Nat) : Int) := by omega
  rw [C14_sliceString_js, C14_sliceString_js, e1, e2, jsSlice_between, jsSlice_between]
  exact ⟨rfl, rfl⟩

/-- C96: `Print` and `PrintDebug` of a text show the position, up to 20 bytes before it and up to 40 bytes after it. -/
theorem C96_text (text : Bytes) (p : Nat) (hn : NoEscapes (placeShown text p)) :
    ∃ s, (runeAt text p).print = .ok s ∧ (runeAt text p).printDebug = .ok s ∧ stripAnsi s = placeShown text p := by
  have h : (runeAt text p).print = .ok (placeText p text.length (between text (p - 20) p, between text p (p + 40))) := by
    unfold RuneStream.print RuneStream.printSlices
    have hp : (runeAt text p).pos = p := rfl
    have ht : (runeAt text p).text = text := rfl
    rw [hp, ht, (slices_at text p).1, (slices_at text p).2]
    rfl
  exact ⟨_, h, h, C55_stripAnsi_partial (placeText_coloured _ _ _ _) hn⟩

example : ∃ s, (runeAt (asc "let x = 1;\nlet y = ;") 19).print = .ok s ∧
    stripAnsi s = asc "Code at offset 19/20: '" ++ asc "let x = 1;\nlet y = " ++ asc "|" ++ asc ";" ++ asc "'" := by
  obtain ⟨s, h1, -, h3⟩ := C96_text (asc "let x = 1;\nlet y = ;") 19 ⟨by decide +kernel, by decide +kernel, by decide +kernel⟩
  exact ⟨s, h1, h3.trans (by decide +kernel)⟩

/-- C96: `Print` of a token stream prints what the original text prints, at the place that is shown for the position. -/
theorem C96_tokens {text : Bytes} {tokens : List Token} (hl : Contiguous tokens) {w o : Nat} (h : ShownPlace tokens w o) :
    ((TokenStream.new text tokens).withPos w).print = (runeAt text o).print := by
  have ho : (((TokenStream.new text tokens).withPos w).coords ((TokenStream.new text tokens).withPos w).workOffset).originalOffset = o :=
    coords_shown (text := text) hl h
  unfold TokenStream.print TokenStream.printSlices RuneStream.print RuneStream.printSlices
  dsimp only
  rw [ho]
  rfl

theorem visible_lines : ∀ text : Bytes, text.flatMap debugByte = (asc "<CR>\n").intercalate ((lines text).map visible)
  | [] => rfl
  | b :: s => by
    have ih := visible_lines s
    rw [List.flatMap_cons, ih]
    have hne := lines_ne_nil s
    unfold debugByte
    by_cases hb : b = 0x0A
    · rw [if_pos hb, lines, if_pos hb, List.map_cons]
      cases hs : (lines s).map visible with
      | nil => exact absurd (List.map_eq_nil_iff.mp hs) hne
      | cons x xs => simp [List.intercalate, List.intersperse, visible]
    · rw [if_neg hb, lines, if_neg hb]
      cases hs : lines s with
      | nil => exact absurd hs hne
      | cons l ls =>
        have hv : visible (b :: l) = (if b = 0x09 then asc "<TAB>" else if b = 0x20 then asc "_" else [b]) ++ visible l := List.flatMap_cons
        show _ = (asc "<CR>\n").intercalate (visible (b :: l) :: ls.map visible)
        rw [hv, List.map_cons]
        cases ls.map visible with
        | nil => simp [List.intercalate]
        | cons x xs => simp [List.intercalate, List.intersperse]

/-- C96 is false for `PrintDebug` of a token stream: its first row shows the original text at the position counted in the tokens joined,
whatever place that position stands for. After that come the lines of the original text with their blanks, tabs and ends made visible, the text of the tokens joined, and the
tokens. -/
theorem C96_debug (text : Bytes) (tokens : List Token) (w : Nat)
    (hn : NoEscapes (placeShown text w ++ asc "\nlineStarts:\n[" ++ joinWith (asc " ") ((lineStartsOf text).map itoa) ++ asc "]\nOriginal text:\n" ++
      (asc "<CR>\n").intercalate ((lines text).map visible) ++ asc "\n\nWork text (tokenized):\n" ++ tokens.flatMap (·.repr) ++ asc "\n\nTokens:\n" ++
      tokens.flatMap fun t => asc "[o=" ++ itoa t.orig ++ asc ", w=" ++ itoa t.work ++ asc "]" ++ t.repr)) :
    (((TokenStream.new text tokens).withPos w).printDebug).map stripAnsi = .ok (
      placeShown text w ++ asc "\nlineStarts:\n[" ++ joinWith (asc " ") ((lineStartsOf text).map itoa) ++ asc "]\nOriginal text:\n" ++
      (asc "<CR>\n").intercalate ((lines text).map visible) ++ asc "\n\nWork text (tokenized):\n" ++ tokens.flatMap (·.repr) ++ asc "\n\nTokens:\n" ++
      tokens.flatMap fun t => asc "[o=" ++ itoa t.orig ++ asc ", w=" ++ itoa t.work ++ asc "]" ++ t.repr) := by
  unfold TokenStream.printDebug
  have e1 : ((TokenStream.new text tokens).withPos w).workOffset = w := rfl
  have e2 : ((TokenStream.new text tokens).withPos w).original = text := rfl
  have e3 : ((TokenStream.new text tokens).withPos w).lineStarts = lineStartsOf text := rfl
  have e4 : ((TokenStream.new text tokens).withPos w).tokens = tokens := rfl
  have e5 : ((TokenStream.new text tokens).withPos w).printWorkText = asc "Work text (tokenized):\n" ++ tokens.flatMap (·.repr) ++ asc "\n" := rfl
  rw [e1, e2, e3, e4, e5]
  dsimp only
  rw [(slices_at text w).1, (slices_at text w).2]
  show Except.ok (stripAnsi _) = _
  refine congrArg Except.ok (C55_stripAnsi_partial ?_ hn)
  rw [visible_lines]
  have ht : ∀ ts : List Token, Coloured (ts.flatMap Token.debug) (ts.flatMap fun t => asc "[o=" ++ itoa t.orig ++ asc ", w=" ++ itoa t.work ++ asc "]" ++ t.repr) := by
    intro ts
    induction ts with
    | nil => exact .nil
    | cons t ts ih =>
      rw [List.flatMap_cons, List.flatMap_cons]
      exact Coloured.append (Coloured.append (C55_colours boldBlack (by simp) (.plain _)) (.plain _)) ih
  have hall := Coloured.append (Coloured.append (placeText_coloured w text.length (between text (w - 20) w) (between text w (w + 40)))
    (Coloured.plain (asc "\n" ++ asc "lineStarts:\n" ++ (asc "[" ++ joinWith (asc " ") ((lineStartsOf text).map itoa) ++ asc "]\n") ++
    asc "Original text:\n" ++ (asc "<CR>\n").intercalate ((lines text).map visible) ++ asc "\n\n" ++
      (asc "Work text (tokenized):\n" ++ tokens.flatMap (·.repr) ++ asc "\n") ++ asc "\n" ++ asc "Tokens:\n"))) (ht tokens)
  have k1 : asc "\nlineStarts:\n[" = asc "\n" ++ (asc "lineStarts:\n" ++ asc "[") := by decide
  have k2 : asc "]\nOriginal text:\n" = asc "]\n" ++ asc "Original text:\n" := by decide
  have k3 : asc "\n\nWork text (tokenized):\n" = asc "\n\n" ++ asc "Work text (tokenized):\n" := by decide
  have k4 : asc "\n\nTokens:\n" = asc "\n" ++ (asc "\n" ++ asc "Tokens:\n") := by decide
  unfold placeShown
  rw [k1, k2, k3, k4]
  simpa only [List.append_assoc] using hall

/-- `a    b c` in three tokens, before `b`: `Print` shows the place before `b`, `PrintDebug` the one after `a`. -/
example : let c := (TokenStream.new (asc "a    b c") [⟨asc "a", 0, 0⟩, ⟨asc "b", 5, 1⟩, ⟨asc "c", 7, 2⟩]).withPos 1
    c.print.map stripAnsi = .ok (asc "Code at offset 5/8: 'a    |b c'") ∧
    (c.printDebug.map stripAnsi) = .ok (asc "Code at offset 1/8: 'a|    b c'" ++
      asc "\nlineStarts:\n[0]\nOriginal text:\na____b_c\n\nWork text (tokenized):\nabc\n\nTokens:\n[o=0, w=0]a[o=5, w=1]b[o=7, w=2]c") := by
  have h : ∀ a b : Except Panic Bytes, (match a, b with | .ok x, .ok y => x == y | _, _ => false) = true → a = b := by
    intro a b h
    cases a <;> cases b <;> simp at h
    rw [h]
  exact ⟨h _ _ (by decide +kernel), h _ _ (by decide +kernel)⟩

end Joeson
