import Verif.Proofs.LispPrint
import Verif.Props.LispOnly
/-!
# C77: reading what the Lisp example prints
-/

namespace Joeson.Lisp
open Arith Spec RuleText

variable {rx : Bytes → Option Regex} {rs rn rw : Regex}

/-- C77: expressions without numbers are read back: the parser gives for the printed expression, without the colours, the expression. -/
theorem C77_reads_back_partial (h : Classes rx rs rn rw) (f : Int → Float64) (u : UserString) (fmt : Float64 → Bytes) (hf : PrintsFixed fmt) (e : LExpr)
    (hn : e.NoNum) (hp : e.Plain) (hd : e.nest ≤ 500) :
    LibGives rx (lispLines rs rn rw) (lispOps f u) (stripAnsi (exprString fmt e)) (.ok (some (e.ast, []))) := by
  rw [C55_stripAnsi_partial (coloured_string fmt e) (bare_noEscapes hf e hp).1, ← written_text fmt e hn]
  have := C66_reads h f u e.written (written_ok e hn hp) (by rw [written_nest]; exact hd) [] [] (by simp) (by simp)
  rw [written_val f e hn] at this
  simpa using this

/-- C77: expressions with numbers are not: whatever `%f` prints for a number, with or without a point, the parser does not give the
expression for it, at any depth. -/
theorem C77_numbers_are_not_read_back (h : Classes rx rs rn rw) (f : Int → Float64) (u : UserString) (fmt : Float64 → Bytes) (hf : PrintsFixed fmt) (e : LExpr)
    (hn : ¬ e.NoNum) (hp : e.Plain) :
    ¬ LibGives rx (lispLines rs rn rw) (lispOps f u) (stripAnsi (exprString fmt e)) (.ok (some (e.ast, []))) := by
  rw [C55_stripAnsi_partial (coloured_string fmt e) (bare_noEscapes hf e hp).1]
  intro hg
  obtain ⟨e', w, w', x, he', hw, hw', ht, hx, hv⟩ := C66_only h f u _ _ hg
  have hx' : x = e := by
    have := congrArg toExpr hv
    rw [C66_values, C66_values] at this
    exact (Option.some.inj this).symm
  subst hx'
  obtain ⟨c, t, hc, hsol⟩ := bare_head hf x hp
  have hw0 : w = [] := by
    match w, hw with
    | [], _ => rfl
    | a :: w, hw =>
      rw [hc] at ht
      simp only [List.cons_append, List.cons.injEq] at ht
      exact absurd (hw a (List.mem_cons_self ..)) (ht.1 ▸ hsol.1)
  subst hw0
  obtain ⟨_, h2⟩ := bare_text hf f x hp e' he' [] w' (fun c s h => by cases h) (fun c s' hc => .inl (hw' c (by rw [hc]; exact List.mem_cons_self ..)))
    (by simpa using ht)
  exact hn (h2 hx)

/-- C77: a number on its own: the part before the point is read, and the point is an error; if the part before the point does not fit
in 64 bits there is a panic. -/
theorem C77_number_alone (h : Classes rx rs rn rw) (f : Int → Float64) (u : UserString) (fmt : Float64 → Bytes) (x : Float64) (neg : Bool) (ds ds' : Bytes)
    (hne : ds ≠ []) (hd : ∀ c ∈ ds, IsDigit c) (hd' : ∀ c ∈ ds', IsDigit c) (hx : fmt x = sign neg ++ ds ++ 0x2E :: ds') :
    LibGives rx (lispLines rs rn rw) (lispOps f u) (stripAnsi (exprString fmt (.num x)))
      (match number neg ds with
      | some n => .ok (some ((LExpr.num (f n)).ast, 0x2E :: ds'))
      | none => .error .notANumber) := by
  have hb : Coloured (exprString fmt (.num x)) (sign neg ++ ds ++ 0x2E :: ds') := hx ▸ coloured_string fmt (.num x)
  have hpr : Printable (sign neg ++ ds ++ 0x2E :: ds') := by
    intro c hc
    simp only [List.append_assoc, List.mem_append, List.mem_cons] at hc
    rcases hc with hc | hc | rfl | hc
    · exact sign_printable neg c hc
    · exact digit_printable (hd c hc)
    · decide
    · exact digit_printable (hd' c hc)
  rw [C55_stripAnsi_partial hb (printable_noEscapes hpr)]
  have := libGives_of (lisp_names rs rn rw) (lisp_texts h) (fun _ _ => rfl) (d := 5) (by omega)
    (top_point (f := f) (u := u) (N := (sign neg ++ ds ++ 0x2E :: ds').length) h.finds neg hne hd ds')
  cases hn : number neg ds with
  | none => rw [hn] at this; exact this
  | some n => rw [hn] at this; exact this

/-! ## The assumptions are met -/

/-- A `%f` that knows `0`, `1` and `-2.5`, and takes everything else for an infinity or no number. -/
def fixedEx (x : Float64) : Bytes :=
  if x = f0' then asc "0.000000" else if x = f1' then asc "1.000000" else if x = fm then asc "-2.500000" else if x = 0x7FF0000000000000 then asc "+Inf"
  else if x = 0xFFF0000000000000 then asc "-Inf" else asc "NaN"
where
  f0' : Float64 := 0
  f1' : Float64 := 0x3FF0000000000000
  fm : Float64 := 0xC004000000000000

theorem fixedEx_prints : PrintsFixed fixedEx := by
  intro x
  unfold fixedEx
  split
  · exact .inl ⟨false, asc "0", asc "000000", by decide, by unfold IsDigit; decide, by unfold IsDigit; decide, by kernel_rfl⟩
  split
  · exact .inl ⟨false, asc "1", asc "000000", by decide, by unfold IsDigit; decide, by unfold IsDigit; decide, by kernel_rfl⟩
  split
  · exact .inl ⟨true, asc "2", asc "500000", by decide, by unfold IsDigit; decide, by unfold IsDigit; decide, by kernel_rfl⟩
  split
  · exact .inr (.inr (.inl (by kernel_rfl)))
  split
  · exact .inr (.inr (.inr (by kernel_rfl)))
  · exact .inr (.inl (by kernel_rfl))

/-- `(car ("é (" () (>= x)))` -/
def printEx : LExpr := .list [.op (asc "car"), .list [.str ([0xC3, 0xA9] ++ asc " ("), .list [], .list [.op (asc ">="), .op (asc "x")]]]

/-- Without colours. -/
example : bare fixedEx printEx = asc "(car (\"" ++ [0xC3, 0xA9] ++ asc " (\" () (>= x)))" := by kernel_rfl

theorem printEx_plain : printEx.Plain := by
  have h1 : IsWord (asc "car") := ⟨0x63, [0x61, 0x72], by kernel_rfl, by unfold IsLetter; decide, by unfold IsLater IsLetter IsDigit; decide⟩
  have h2 : IsWord (asc "x") := ⟨0x78, [], by kernel_rfl, by unfold IsLetter; decide, by simp⟩
  simp only [printEx, LExpr.Plain, LExpr.Plains, and_true, true_and]
  exact ⟨.inl h1, ⟨by decide, by decide, by decide, by decide⟩, .inr (by decide), .inl h2⟩

/-- It is read back. -/
example : LibGives lispRx (lispLines Sample.notQuoteRe numberRe wordRe) (lispOps (fun _ => 0) (fun _ _ => [])) (stripAnsi (exprString fixedEx printEx))
    (.ok (some (printEx.ast, []))) :=
  C77_reads_back_partial classes_ex _ _ _ fixedEx_prints _ (by simp [printEx, LExpr.NoNum, LExpr.NoNums]) printEx_plain (by decide)

/-- `(+ 1.000000 1.000000)` is not, nor is the answer `1.000000`. -/
example : ¬ LibGives lispRx (lispLines Sample.notQuoteRe numberRe wordRe) (lispOps (fun _ => 0) (fun _ _ => []))
    (stripAnsi (exprString fixedEx (.list [.op [0x2B], .num 0x3FF0000000000000, .num 0x3FF0000000000000])))
    (.ok (some ((LExpr.list [.op [0x2B], .num 0x3FF0000000000000, .num 0x3FF0000000000000]).ast, []))) :=
  C77_numbers_are_not_read_back classes_ex _ _ _ fixedEx_prints _ (by simp [LExpr.NoNum, LExpr.NoNums])
    (by simp only [LExpr.Plain, LExpr.Plains, and_true, true_and]; exact .inr (by decide))

example : LibGives lispRx (lispLines Sample.notQuoteRe numberRe wordRe) (lispOps (fun _ => 0x3FF0000000000000) (fun _ _ => []))
    (stripAnsi (exprString fixedEx (.num 0x3FF0000000000000))) (.ok (some ((LExpr.num 0x3FF0000000000000).ast, asc ".000000"))) := by
  have := C77_number_alone classes_ex (fun _ => 0x3FF0000000000000) (fun _ _ => []) fixedEx 0x3FF0000000000000 false (asc "1") (asc "000000") (by decide)
    (by unfold IsDigit; decide) (by unfold IsDigit; decide) (by kernel_rfl)
  rw [show number false (asc "1") = some 1 by kernel_rfl] at this
  exact this

end Joeson.Lisp
