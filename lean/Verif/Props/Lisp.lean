import Verif.Proofs.Lisp
import Verif.Props.Readme
/-!
# C66: the reader of the Lisp example
-/

namespace Joeson.Lisp
open RuleText hiding decimal
open Arith

/-- The regular expressions of the grammar, compiled, and what they find. -/
structure Classes (rx : Bytes → Option Regex) (rs rn rw : Regex) : Prop where
  cs : rx (asc "[^\"]") = some rs
  cn : rx (asc "-?[0-9]+") = some rn
  cw : rx (asc "[a-zA-Z\\._][a-zA-Z\\._0-9?]*") = some rw
  finds : Finds rs rn rw

/-- The texts are those of grammar.go:17-29. -/
example (rs rn rw : Regex) : topE.text = asc "_ expr _" ∧ listE.text = asc "'(' _  expr*__  _ ')'" ∧ (stringE rs).text = asc "'\"' [^\"]* '\"'" ∧
    (numberE rn).text = asc "/-?[0-9]+/" ∧ operatorE.text = asc "word | '+' | '-' | '*' | '/' | '%' | '>=' | '<=' | '!=' | '=='| '<' | '>' |  '=' " ∧
    (wordE rw).text = asc "/[a-zA-Z\\._][a-zA-Z\\._0-9?]*/" :=
  ⟨by kernel_rfl, by kernel_rfl, by kernel_rfl, by kernel_rfl, by kernel_rfl, by kernel_rfl⟩

example : blanksE.text = asc "_SPACECHAR*" ∧ gapE.text = asc "_SPACECHAR+" ∧ spaceE.text = asc "' ' | '\t' | '\n'" ∧ anyE.text = asc "'\\s' | '\\S'" ∧ escE.text = asc "'\\\\' ." :=
  ⟨by kernel_rfl, by kernel_rfl, by kernel_rfl, by kernel_rfl, by kernel_rfl⟩

theorem lisp_names (rs rn rw : Regex) : GoodNames (lispLines rs rn rw) := by
  have hh : ∀ x : String, x ∈ (["expr", "list", "string", "number", "operator", "word", "_", "__", "_SPACECHAR", ".", "ESC1"] : List String) → '[' ∉ x.toList := by
    intro x hx
    simp only [List.mem_cons, List.not_mem_nil, or_false] at hx
    rcases hx with rfl | rfl | rfl | rfl | rfl | rfl | rfl | rfl | rfl | rfl | rfl <;> decide
  refine goodNames_of rfl ?_ fun d hd => hh _ ?_
  · show (["expr", "list", "string", "number", "operator", "word", "_", "__", "_SPACECHAR", ".", "ESC1"] : List String).Nodup
    decide
  · exact List.mem_map_of_mem (f := (·.1)) hd

theorem lisp_texts {rx : Bytes → Option Regex} {rs rn rw : Regex} (h : Classes rx rs rn rw) : AllLines (TextOk rx (lispLines rs rn rw)) (lispLines rs rn rw) := by
  refine textsOk_rx (by kernel_rfl) ?_
  simp only [lispLines, exprLines, AllLines, GLine.All, Body.All, Expr.RxOk, Units.RxOk, Alts.RxOk, Deco.RxOk, Prim.RxOk, topE, listE, stringE, numberE, operatorE, wordE, blanksE, gapE, spaceE,
    anyE, escE, quoteU, quoteP, refP, and_true, true_and]
  exact ⟨h.cs, h.cn, h.cw⟩

variable {rx : Bytes → Option Regex} {rs rn rw : Regex}

/-- C66: the grammar of the Lisp example, built with the library's compiler of rule texts, reads every expression of strings,
numbers, operators and lists, whatever the blanks, as the expression it stands for. Up to 500 lists in each other. If there is
a number that does not fit in 64 bits, it panics. -/
theorem C66_reads (h : Classes rx rs rn rw) (f : Int → Float64) (u : UserString) (e : SExpr) (he : e.Ok) (hn : e.nest ≤ 500) (w w' : Bytes)
    (hw : ∀ c ∈ w, IsSpace c) (hw' : ∀ c ∈ w', IsSpace c) :
    LibGives rx (lispLines rs rn rw) (lispOps f u) (w ++ e.text ++ w')
      (match e.val f with
      | some x => .ok (some (x.ast, []))
      | none => .error .notANumber) := by
  have hk := top_reads (f := f) (u := u) (N := (w ++ e.text ++ w').length) (s := []) h.finds e he hw hw' NoneOf.nil
    (.inr (by rw [List.append_nil]; exact fun c s' h => .inl (hw' c (by rw [h]; exact List.mem_cons_self ..))))
  rw [List.append_nil] at hk
  exact libGives_of (lisp_names rs rn rw) (lisp_texts h) (fun _ _ => rfl) (d := 2 * e.nest + 5) (by omega) hk

/-- C66: the value holds the expression. -/
theorem C66_values (x : LExpr) : toExpr x.ast = some x := toExpr_ast x

/-- C66: one expression is read. What follows it is an error, and the rest of the text is where it is reported. -/
theorem C66_rest (h : Classes rx rs rn rw) (f : Int → Float64) (u : UserString) (e : SExpr) (he : e.Ok) (hn : e.nest ≤ 500) (x : LExpr) (hx : e.val f = some x)
    (w w' s : Bytes) (hw : ∀ c ∈ w, IsSpace c) (hw' : ∀ c ∈ w', IsSpace c) (hs : NoneOf IsSpace s) (hc : e.closed = true ∨ Ends (w' ++ s)) :
    LibGives rx (lispLines rs rn rw) (lispOps f u) (w ++ e.text ++ w' ++ s) (.ok (some (x.ast, s))) := by
  have hk := top_reads (f := f) (u := u) (N := (w ++ e.text ++ w' ++ s).length) h.finds e he hw hw' hs hc
  rw [hx] at hk
  exact libGives_of (lisp_names rs rn rw) (lisp_texts h) (fun _ _ => rfl) (d := 2 * e.nest + 5) (by omega) hk

/-- C66: elements of a list must be separated by blanks, parentheses are not enough: `((a)(b))` is an error. -/
theorem C66_unseparated (h : Classes rx rs rn rw) (f : Int → Float64) (u : UserString) (e : SExpr) (he : e.Ok) (hn : e.nest ≤ 500) (hc : e.closed = true)
    (x : LExpr) (hx : e.val f = some x) (w w' s : Bytes) (hw : ∀ c ∈ w, IsSpace c) (hw' : ∀ c ∈ w', IsSpace c) (hs : NoneOf (fun c => IsSpace c ∨ c = 0x29) s) :
    LibGives rx (lispLines rs rn rw) (lispOps f u) (w ++ 0x28 :: (w' ++ (e.text ++ s))) (.ok none) :=
  libGives_of (lisp_names rs rn rw) (lisp_texts h) (fun _ _ => rfl) (d := 2 * e.nest + 7) (by omega)
    (unseparated h.finds e he hc hx hw hw' hs)

/-- C66: a line of the prompt need not be in parentheses, unless its first element is a list. -/
theorem C66_line (a b : Bytes) (ha : ∀ c ∈ a, c = 0x20) (hb : ∀ c ∈ b, c = 0x20) (e : SExpr) (l : SItems) (hl : (SItems.cons [] e l).Ok true) (he : ∀ l' w, e ≠ .list l' w) :
    replLine (a ++ (SItems.cons [] e l).text ++ b ++ [0x0A]) = (SExpr.list (.cons [] e l) []).text := by
  rw [line_reads ha hb e l hl, if_neg]
  have h1 : e.Ok := by unfold SItems.Ok at hl; exact hl.2.2.1
  exact text_list e h1 he l.text

/-- C66: a line that is in parentheses stays as it is. -/
theorem C66_line_list (a b : Bytes) (ha : ∀ c ∈ a, c = 0x20) (hb : ∀ c ∈ b, c = 0x20) (l : SItems) (w : Bytes) (hl : (SExpr.list l w).Ok) :
    replLine (a ++ (SExpr.list l w).text ++ b ++ [0x0A]) = (SExpr.list l w).text := by
  have := line_reads ha hb (.list l w) .nil (by unfold SItems.Ok; exact ⟨by simp, by simp, hl, by simp [SItems.Ok]⟩)
  simpa [SItems.text, SExpr.text] using this

/-! ## The assumptions are met -/

instance (c : UInt8) : Decidable (IsLetter c) := inferInstanceAs (Decidable (_ ∨ _))
instance (c : UInt8) : Decidable (IsLater c) := inferInstanceAs (Decidable (_ ∨ _))

theorem takeWhile_exact {p : UInt8 → Bool} : ∀ (w s : Bytes), (∀ c ∈ w, p c = true) → (∀ c s', s = c :: s' → ¬ p c = true) → (w ++ s).takeWhile p = w
  | [], [], _, _ => rfl
  | [], c :: s, _, hs => by simp [List.takeWhile_cons, hs c s rfl]
  | b :: w, s, hw, hs => by
    rw [List.cons_append, List.takeWhile_cons, if_pos (hw b (List.mem_cons_self ..)), takeWhile_exact w s (fun c hc => hw c (List.mem_cons_of_mem _ hc)) hs]

/-- The digits in front. -/
def digitsOf (s : Bytes) : Nat := (s.takeWhile fun c => decide (IsDigit c)).length

theorem digitsOf_le (s : Bytes) : digitsOf s ≤ s.length := (List.takeWhile_prefix _).length_le

/-- `-?[0-9]+`, when it is at the beginning. -/
def numberRe : Regex where
  find s := match s with
    | 0x2D :: t => if digitsOf t = 0 then none else some (0, digitsOf t + 1)
    | t => if digitsOf t = 0 then none else some (0, digitsOf t)
  bounds := by
    intro s a b h
    split at h <;> split at h
    · cases h
    · cases h
      rename_i t _ 
      exact ⟨by omega, by simpa using digitsOf_le t⟩
    · cases h
    · cases h
      exact ⟨by omega, digitsOf_le _⟩

theorem digitsOf_exact {ds s : Bytes} (hd : ∀ c ∈ ds, IsDigit c) (hs : ∀ c s', s = c :: s' → ¬ IsDigit c) : digitsOf (ds ++ s) = ds.length := by
  unfold digitsOf
  rw [takeWhile_exact ds s (fun c hc => by simpa using hd c hc) (fun c s' h => by simpa using hs c s' h)]

theorem digitsOf_pos {s : Bytes} (h : digitsOf s ≠ 0) : ∃ c s', s = c :: s' ∧ IsDigit c := by
  match s with
  | [] => exact absurd rfl h
  | c :: s =>
    refine ⟨c, s, rfl, ?_⟩
    by_cases hc : IsDigit c
    · exact hc
    · unfold digitsOf at h
      rw [List.takeWhile_cons, if_neg (by simpa using hc)] at h
      exact absurd rfl h

theorem numberRe_finds : FindsNumber numberRe := by
  constructor
  · intro neg ds s hne hd hs
    have h1 := digitsOf_exact hd hs
    have h2 : ds.length ≠ 0 := by simpa using hne
    cases neg with
    | true =>
      show (if digitsOf (ds ++ s) = 0 then none else some (0, digitsOf (ds ++ s) + 1)) = _
      rw [h1, if_neg h2]
      rfl
    | false =>
      match ds, hne with
      | c :: ds, _ =>
        have hc : c ≠ 0x2D := by
          rintro rfl
          exact absurd (hd _ (List.mem_cons_self ..)) (by unfold IsDigit; decide)
        have : numberRe.find (sign false ++ c :: ds ++ s) = if digitsOf (c :: ds ++ s) = 0 then none else some (0, digitsOf (c :: ds ++ s)) := by
          simp only [numberRe, sign]
          split
          · rename_i heq
            injection heq with heq _
            exact absurd heq hc
          · rfl
        rw [this, h1, if_neg h2]
        rfl
  · intro s n h
    dsimp only [numberRe] at h
    split at h <;> split at h
    · cases h
    · obtain ⟨c, s', rfl, hc⟩ := digitsOf_pos ‹_›
      exact ⟨true, c, s', rfl, hc⟩
    · cases h
    · obtain ⟨c, s', rfl, hc⟩ := digitsOf_pos ‹_›
      exact ⟨false, c, s', rfl, hc⟩

/-- The letters and the like in front. -/
def latersOf (s : Bytes) : Nat := (s.takeWhile fun c => decide (IsLater c)).length

/-- `[a-zA-Z\._][a-zA-Z\._0-9?]*`, when it is at the beginning. -/
def wordRe : Regex where
  find s := match s with
    | [] => none
    | c :: t => if IsLetter c then some (0, latersOf t + 1) else none
  bounds := by
    intro s a b h
    split at h
    · cases h
    · split at h
      · cases h
        rename_i t _
        exact ⟨by omega, by simpa [latersOf] using (List.takeWhile_prefix (l := t) fun c => decide (IsLater c)).length_le⟩
      · cases h

theorem wordRe_finds : FindsWord wordRe := by
  constructor
  · rintro w s ⟨c, l, rfl, hc, hl⟩ hs
    show (if IsLetter c then some (0, latersOf (l ++ s) + 1) else none) = _
    unfold latersOf
    rw [if_pos hc, takeWhile_exact l s (fun c hc => by simpa using hl c hc) (fun c s' h => by simpa using hs c s' h)]
    rfl
  · intro s n h
    match s, h with
    | c :: s, h =>
      dsimp only [wordRe] at h
      split at h
      · exact ⟨c, s, rfl, ‹_›⟩
      · cases h

/-- The regular expressions of the grammar. -/
def lispRx (t : Bytes) : Option Regex :=
  if t = asc "[^\"]" then some Sample.notQuoteRe
  else if t = asc "-?[0-9]+" then some numberRe
  else if t = asc "[a-zA-Z\\._][a-zA-Z\\._0-9?]*" then some wordRe
  else none

theorem classes_ex : Classes lispRx Sample.notQuoteRe numberRe wordRe :=
  ⟨by kernel_rfl, by kernel_rfl, by kernel_rfl, Sample.notQuoteRe_but, numberRe_finds, wordRe_finds⟩

/-- `( + "é" (car (1 -2)) )` -/
def sampleExpr : SExpr :=
  .list (.cons [0x20] (.op [0x2B]) (.cons [0x20] (.str [0xC3, 0xA9]) (.cons [0x20]
    (.list (.cons [] (.op (asc "car")) (.cons [0x20] (.list (.cons [] (.num false (asc "1")) (.cons [0x20] (.num true (asc "2")) .nil)) []) .nil)) []) .nil))) [0x20]

theorem sampleExpr_ok : sampleExpr.Ok := by
  have : IsWord (asc "car") := ⟨0x63, [0x61, 0x72], by kernel_rfl, by decide, by decide⟩
  simp only [sampleExpr, SExpr.Ok, SItems.Ok]
  refine ⟨⟨by unfold IsSpace; decide, by decide, .inr (by decide), by unfold IsSpace; decide, by decide, by decide, by unfold IsSpace; decide, by decide,
    ⟨⟨by simp, by decide, .inl this, by unfold IsSpace; decide, by decide, ⟨⟨by simp, by decide, ⟨by decide, by unfold IsDigit; decide⟩,
      by unfold IsSpace; decide, by decide, ⟨by decide, by unfold IsDigit; decide⟩, trivial⟩, by simp⟩, trivial⟩, by simp⟩, trivial⟩, by unfold IsSpace; decide⟩

example : sampleExpr.text = asc "( + \"" ++ [0xC3, 0xA9] ++ asc "\" (car (1 -2)) )" ∧ sampleExpr.nest = 3 := ⟨by kernel_rfl, by kernel_rfl⟩

/-- It is read. -/
example (f : Int → Float64) (u : UserString) : LibGives lispRx (lispLines Sample.notQuoteRe numberRe wordRe) (lispOps f u) sampleExpr.text
    (.ok (some ((LExpr.list [.op [0x2B], .str [0xC3, 0xA9], .list [.op (asc "car"), .list [.num (f 1), .num (f (-2))]]]).ast, []))) := by
  have h := C66_reads classes_ex f u sampleExpr sampleExpr_ok (by decide) [] [] (by simp) (by simp)
  have hv : sampleExpr.val f = some (.list [.op [0x2B], .str [0xC3, 0xA9], .list [.op (asc "car"), .list [.num (f 1), .num (f (-2))]]]) := by kernel_rfl
  rw [List.append_nil, hv] at h
  exact h

/-- A number that does not fit. -/
example (f : Int → Float64) : (SExpr.num false (asc "9223372036854775808")).val f = none ∧ (SExpr.num true (asc "9223372036854775808")).val f = some (.num (f (-9223372036854775808))) :=
  ⟨by kernel_rfl, by kernel_rfl⟩

/-- `((a)(b))` -/
example (f : Int → Float64) (u : UserString) : LibGives lispRx (lispLines Sample.notQuoteRe numberRe wordRe) (lispOps f u) (asc "((a)(b))") (.ok none) :=
  C66_unseparated classes_ex f u (.list (.cons [] (.op (asc "a")) .nil) [])
    (by simp only [SExpr.Ok, SItems.Ok]; exact ⟨⟨by simp, by decide, .inl ⟨0x61, [], by kernel_rfl, by decide, by simp⟩, trivial⟩, by simp⟩) (by decide) rfl _ rfl [] [] (asc "(b))")
    (by simp) (by simp) (by intro c s' h; cases h; unfold IsSpace; decide)

/-- `(a) (b)` -/
example (f : Int → Float64) (u : UserString) : LibGives lispRx (lispLines Sample.notQuoteRe numberRe wordRe) (lispOps f u) (asc "(a) (b)") (.ok (some ((LExpr.list [.op (asc "a")]).ast, asc "(b)"))) :=
  C66_rest classes_ex f u (.list (.cons [] (.op (asc "a")) .nil) [])
    (by simp only [SExpr.Ok, SItems.Ok]; exact ⟨⟨by simp, by decide, .inl ⟨0x61, [], by kernel_rfl, by decide, by simp⟩, trivial⟩, by simp⟩) (by decide) _ rfl [] [0x20] (asc "(b)")
    (by simp) (by unfold IsSpace; decide) (by intro c s' h; cases h; unfold IsSpace; decide) (.inl rfl)

/-- ` + 1 2` and a newline -/
example : replLine (asc " + 1 2\n") = asc "(+ 1 2)" :=
  C66_line [0x20] [] (by simp) (by simp) (.op [0x2B]) (.cons [0x20] (.num false [0x31]) (.cons [0x20] (.num false [0x32]) .nil))
    (by simp only [SExpr.Ok, SItems.Ok]
        exact ⟨by simp, by decide, .inr (by decide), by unfold IsSpace; decide, by decide, ⟨by decide, by unfold IsDigit; decide⟩, by unfold IsSpace; decide, by decide,
          ⟨by decide, by unfold IsDigit; decide⟩, trivial⟩) (by simp)

/-- If the first element is a list, a line is not put in parentheses. -/
example : replLine (asc "(1 2) 3\n") = asc "(1 2) 3" := by kernel_rfl

end Joeson.Lisp
