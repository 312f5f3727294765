import Verif.Model.LineText
import Verif.Spec.LineText
import Verif.Props.Colors
/-!
# Lemmas on printed lines
-/

namespace Joeson
open Spec

theorem indentOk_eq (n : Nat) : indentOk n = blanks n := by
  have h : ∀ n : Nat, (List.replicate n [(0x20 : UInt8), 0x20]).flatten = List.replicate (2 * n) 0x20 := by
    intro n
    induction n with
    | zero => rfl
    | succ n ih => rw [List.replicate_succ, List.flatten_cons, ih, Nat.mul_succ]; rfl
  have e : indent (n : Int) = .ok (blanks n) := by
    unfold indent
    rw [if_neg (by omega)]
    have : ((n : Int) + 1).toNat - 1 = n := by omega
    rw [this, h, blanks]
  rw [indentOk, e]

theorem replaceNewlines_eq : ∀ t : Bytes, replaceNewlines t = onOneLine t
  | [] => rfl
  | b :: t => by
    have ih := replaceNewlines_eq t
    unfold onOneLine at ih ⊢
    rw [replaceNewlines, List.flatMap_cons, ih]
    split <;> rfl

theorem cb_foldl : ∀ (opts : List LineOpt) (o : RuleOpts), (opts.foldl RuleOpts.apply o).cb.isSome = (hasCallback opts || o.cb.isSome)
  | [], o => by simp [hasCallback]
  | x :: opts, o => by
    rw [List.foldl_cons, cb_foldl opts]
    cases x <;> simp [hasCallback, RuleOpts.apply]

theorem cbMark_coloured (opts : List LineOpt) : Coloured (cbMark (opts.foldl RuleOpts.apply {})) (markOf opts) := by
  unfold cbMark markOf
  rw [cb_foldl]
  cases hasCallback opts
  · exact .nil
  · exact .char _ (C55_colours yellow (by simp) (.plain _))

theorem dropWhile_blanks (k : Nat) (s : Bytes) : (List.replicate k (0x20 : UInt8) ++ s).dropWhile (· == 0x20) = s.dropWhile (· == 0x20) := by
  induction k with
  | zero => rfl
  | succ k ih => rw [List.replicate_succ, List.cons_append, List.dropWhile_cons_of_pos (by decide), ih]

theorem dropWhile_head {s : Bytes} (h : s.head? ≠ some 0x20) : s.dropWhile (· == 0x20) = s := by
  cases s with
  | nil => rfl
  | cons b s =>
    rw [List.dropWhile_cons_of_neg]
    intro hb
    exact h (by rw [List.head?_cons, eq_of_beq hb])

theorem replaceO_id {s : Bytes} (h : s.head? ≠ some 0x20) (h' : s.head? ≠ some 0x6F) : replaceO s = s := by
  unfold replaceO
  rw [dropWhile_head h]
  split
  · exact absurd rfl h'
  · rfl

/-- blanks, `o`, blanks -/
theorem replaceO_o (i j : Nat) {s : Bytes} (h : s.head? ≠ some 0x20) :
    replaceO (List.replicate i 0x20 ++ 0x6F :: (List.replicate j 0x20 ++ s)) = asc "o " ++ s := by
  unfold replaceO
  rw [dropWhile_blanks, List.dropWhile_cons_of_neg (by decide)]
  show asc "o " ++ (List.replicate j (0x20 : UInt8) ++ s).dropWhile (· == 0x20) = asc "o " ++ s
  rw [dropWhile_blanks, dropWhile_head h]

theorem onOneLine_head {t : Bytes} {b : UInt8} (hb : b ≠ 0x5C) (h : t.head? ≠ some b) : (onOneLine t).head? ≠ some b := by
  cases t with
  | nil => exact h
  | cons c t =>
    unfold onOneLine
    rw [List.flatMap_cons]
    split
    · intro e
      have : (0x5C : UInt8) = b := by injection e
      exact hb this.symm
    · exact h

theorem coloured_app {a a' p p' : Bytes} (h : Coloured a p) (h' : Coloured a' p') : Coloured (a ++ a') (p ++ p') := h.append h'

theorem unlines_append (a b : List Bytes) : unlines (a ++ b) = unlines a ++ unlines b := List.flatMap_append

theorem unlines_one (a : Bytes) : unlines [a] = a ++ [0x0A] := by simp [unlines]

theorem stringIndent_o (src : Regex → Bytes) (nm : Nat → String) (incl : Bool) (n : Nat) (name : String) (c : Line) (opts : List LineOpt) {q : Bytes}
    (h : Coloured (replaceO (c.stringIndent src nm n)) q) :
    Coloured (Line.stringIndent src nm n (if incl then .i name c (opts.foldl RuleOpts.apply {}) else .o name c (opts.foldl RuleOpts.apply {})))
      (blanks n ++ headOf incl name ++ q ++ markOf opts) := by
  cases incl
  · rw [if_neg (by decide), Line.stringIndent, indentOk_eq]
    have e : blanks n ++ headOf false name = blanks n ++ asc "o" ++ (asc " " ++ asc name ++ asc " ") := by
      have : headOf false name = asc "o" ++ (asc " " ++ asc name ++ asc " ") := by
        show asc "o " ++ asc name ++ asc " " = _
        have : asc "o " = asc "o" ++ asc " " := by decide
        rw [this]; simp only [List.append_assoc]
      rw [this]; simp only [List.append_assoc]
    rw [e]
    exact coloured_app (coloured_app (.plain _) h) (cbMark_coloured opts)
  · rw [if_pos rfl, Line.stringIndent, indentOk_eq]
    have e : blanks n ++ headOf true name = blanks n ++ asc "i" ++ (asc " " ++ asc name ++ asc " ") := by
      have : headOf true name = asc "i" ++ (asc " " ++ asc name ++ asc " ") := by
        show asc "i " ++ asc name ++ asc " " = _
        have : asc "i " = asc "i" ++ asc " " := by decide
        rw [this]; simp only [List.append_assoc]
      rw [this]; simp only [List.append_assoc]
    rw [e]
    exact coloured_app (coloured_app (.plain _) h) (cbMark_coloured opts)

/-- What `O` and `I` make. -/
theorem make_line {incl : Bool} {name : String} {x : LineArg} {opts : List LineOpt} {l : Line}
    (h : (if incl then lineI else lineO) (firstArg name x) opts = .ok l) :
    ∃ c, (if name = "" then rule2line x else rule2line (.line (namedLine x))) = .ok c ∧
      l = if incl then .i name c (opts.foldl RuleOpts.apply {}) else .o name c (opts.foldl RuleOpts.apply {}) := by
  unfold firstArg at h
  cases incl <;> by_cases hn : name = ""
  · rw [if_pos hn] at h ⊢
    subst hn
    cases hx : rule2line x with
    | error e => simp only [lineO, lineInit, hx, Bool.false_eq_true, if_false] at h; cases h
    | ok c => simp only [lineO, lineInit, hx, Bool.false_eq_true, if_false] at h; cases h; exact ⟨c, rfl, rfl⟩
  · rw [if_neg hn] at h ⊢
    cases hx : rule2line (.line (namedLine x)) with
    | error e => simp only [lineO, lineInit, hx, Bool.false_eq_true, if_false] at h; cases h
    | ok c => simp only [lineO, lineInit, hx, Bool.false_eq_true, if_false] at h; cases h; exact ⟨c, rfl, rfl⟩
  · rw [if_pos hn] at h ⊢
    subst hn
    cases hx : rule2line x with
    | error e => simp only [lineI, lineInit, hx, if_true] at h; cases h
    | ok c => simp only [lineI, lineInit, hx, if_true] at h; cases h
  · rw [if_neg hn] at h ⊢
    cases hx : rule2line (.line (namedLine x)) with
    | error e => simp only [lineI, lineInit, hx, if_true] at h; cases h
    | ok c =>
      simp only [lineI, lineInit, hx, if_true] at h
      have h : (if name = "" then (Except.error Panic.assertion : Except Panic Line) else .ok (.i name c (opts.foldl RuleOpts.apply {}))) = .ok l := by
        by_cases hn' : name = ""
        · exact absurd hn' hn
        · rw [if_neg hn']
          exact (by simpa [hn', bind, Except.bind, pure, Except.pure] using h)
      rw [if_neg hn] at h
      cases h
      exact ⟨c, rfl, rfl⟩

theorem stringIndent_array (src : Regex → Bytes) (nm : Nat → String) (n : Nat) (ls : List Line) {q : Bytes}
    (h : Coloured (Line.stringArray src nm (n + 1) ls) q) :
    Coloured (Line.stringIndent src nm n (.a ls)) (asc "[" ++ [0x0A] ++ q ++ (blanks n ++ asc "]")) := by
  rw [Line.stringIndent, indentOk_eq, List.append_assoc]
  have e : asc "[\n" = asc "[" ++ [0x0A] := by decide
  rw [e]
  exact coloured_app (coloured_app (C55_colours boldBlue (by simp) (.plain _)) h)
    (coloured_app (.plain _) (C55_colours boldBlue (by simp) (.plain _)))

theorem replaceO_array (src : Regex → Bytes) (nm : Nat → String) (n : Nat) (ls : List Line) :
    replaceO (Line.stringIndent src nm n (.a ls)) = Line.stringIndent src nm n (.a ls) := by
  refine replaceO_id ?_ ?_ <;>
  · rw [Line.stringIndent, boldBlue, paint, escCode]
    intro e
    simp only [List.cons_append, List.head?_cons, Option.some.injEq] at e
    exact absurd e (by decide)

theorem legible_text {t : Bytes} (h : t.head? ≠ some 0x20 ∧ t.head? ≠ some 0x6F) : replaceO (replaceNewlines t) = onOneLine t := by
  rw [replaceNewlines_eq]
  exact replaceO_id (onOneLine_head (by decide) h.1) (onOneLine_head (by decide) h.2)

mutual
theorem line_rows (src : Regex → Bytes) (nm : Nat → String) : ∀ (w : Written) (n : Nat) (l : Line), w.line = .ok l → w.Legible →
    ∃ p, Coloured (l.stringIndent src nm n) p ∧ p ++ [0x0A] = unlines (w.rows n)
  | .text incl name t opts, n, l, h, hl => by
    rw [Written.line] at h
    rw [Written.Legible] at hl
    obtain ⟨c, hc, rfl⟩ := make_line h
    by_cases hn : name = ""
    · rw [if_pos hn] at hc
      cases hc
      refine ⟨_, stringIndent_o src nm incl n name _ opts (q := onOneLine t) ?_, ?_⟩
      · rw [Line.stringIndent, legible_text hl]; exact .plain _
      · rw [Written.rows, if_pos hn, unlines_one, List.append_nil]
    · rw [if_neg hn] at hc
      cases hc
      refine ⟨_, stringIndent_o src nm incl n name _ opts (q := asc "o " ++ onOneLine t) ?_, ?_⟩
      · rw [Line.stringIndent, indentOk_eq, Line.stringIndent, legible_text hl]
        have e : blanks n ++ asc "o" ++ (asc " " ++ asc "" ++ asc " ") ++ onOneLine t ++ cbMark {} =
            List.replicate (2 * n) 0x20 ++ 0x6F :: (List.replicate 2 0x20 ++ onOneLine t) := by
          have e1 : cbMark {} = [] := rfl
          have e2 : asc "o" ++ (asc " " ++ asc "" ++ asc " ") = 0x6F :: List.replicate 2 0x20 := by decide
          rw [e1, List.append_nil, List.append_assoc (blanks n), e2, List.append_assoc]
          rfl
        rw [e, replaceO_o _ _ (onOneLine_head (by decide) hl.1)]
        exact .plain _
      · rw [Written.rows, if_neg hn, unlines_one]; simp only [List.append_assoc]
  | .group incl name rules opts, n, l, h, hl => by
    rw [Written.line] at h
    rw [Written.Legible] at hl
    cases hr : Written.lines rules with
    | error e => rw [hr] at h; cases h
    | ok ls =>
      rw [hr] at h
      obtain ⟨c, hc, rfl⟩ := make_line h
      have hc : c = .a ls := by
        by_cases hn : name = ""
        · rw [if_pos hn] at hc; cases hc; rfl
        · rw [if_neg hn] at hc; cases hc; rfl
      subst hc
      have ih := lines_rows src nm rules (n + 1) ls hr hl
      have hq := stringIndent_array src nm n ls ih
      rw [← replaceO_array] at hq
      refine ⟨_, stringIndent_o src nm incl n name _ opts hq, ?_⟩
      rw [Written.rows, unlines_append, unlines_append, unlines_one, unlines_one]
      simp only [List.append_assoc]
theorem lines_rows (src : Regex → Bytes) (nm : Nat → String) : ∀ (ws : List Written) (n : Nat) (ls : List Line), Written.lines ws = .ok ls →
    Written.AllLegible ws → Coloured (Line.stringArray src nm n ls) (unlines (Written.rowsAll n ws))
  | [], n, ls, h, _ => by
    rw [Written.lines] at h
    cases h
    rw [Line.stringArray, Written.rowsAll]
    exact .nil
  | w :: ws, n, ls, h, hl => by
    rw [Written.lines] at h
    rw [Written.AllLegible] at hl
    cases hw : w.line with
    | error e => rw [hw] at h; cases h
    | ok l =>
      rw [hw] at h
      cases hws : Written.lines ws with
      | error e =>
        have h : (Written.lines ws >>= fun ls' => (.ok (l :: ls') : Except Panic (List Line))) = .ok ls := h
        rw [hws] at h; cases h
      | ok ls' =>
        have h : (Written.lines ws >>= fun ls' => (.ok (l :: ls') : Except Panic (List Line))) = .ok ls := h
        rw [hws] at h
        cases h
        obtain ⟨p, hp, he⟩ := line_rows src nm w n l hw hl.1
        rw [Line.stringArray, Written.rowsAll, unlines_append, ← he]
        have e : asc "\n" = [0x0A] := by decide
        rw [e]
        exact coloured_app (coloured_app hp (.plain _)) (lines_rows src nm ws n ls' hws hl.2)
end

end Joeson
