import Verif.Props.WellFormed
/-!
# C66: the reader of the Lisp example reads nothing else
-/

namespace Joeson.Lisp
open RuleText hiding decimal
open Arith

variable {rx : Bytes → Option Regex} {rs rn rw : Regex}

/-- C66: if the grammar of the Lisp example gives a value for a text, then the text is an expression with blanks around it, and
the value is what it stands for. On any bytes, however deep lists are nested. -/
theorem C66_only (h : Classes rx rs rn rw) (f : Int → Float64) (u : UserString) (text : Bytes) (v : Ast)
    (hg : LibGives rx (lispLines rs rn rw) (lispOps f u) text (.ok (some (v, [])))) :
    ∃ e w w' x, SExpr.Ok e ∧ (∀ c ∈ w, IsSpace c) ∧ (∀ c ∈ w', IsSpace c) ∧ text = w ++ e.text ++ w' ∧ e.val f = some x ∧ v = x.ast := by
  obtain ⟨d, hy⟩ := C68_value_said (lisp_names rs rn rw) (lisp_texts h) (C68_lisp_well_formed h.finds.s.ne (number_ne h.finds.n) (word_ne h.finds.w)) _ (fun _ _ => rfl) text v hg
  rcases inv_top h.finds hy with h | ⟨e, w, w', s', x, he, hw, hw', _, ht, hx, h⟩ | ⟨h, _⟩
  · cases h
  · cases h
    exact ⟨e, w, w', x, he, hw, hw', by simpa using ht, hx, rfl⟩
  · cases h

/-- C66: reading panics only for a number that does not fit in 64 bits, and for lists that are nested too deeply. The type
assertions of the callbacks never fail. -/
theorem C66_panics_only (h : Classes rx rs rn rw) (f : Int → Float64) (u : UserString) (text : Bytes) (x : Panic)
    (hg : LibGives rx (lispLines rs rn rw) (lispOps f u) text (.error x)) : (x = .notANumber ∧ HasBig text) ∨ x = .stackOverflow := by
  by_cases hx : x = .stackOverflow
  · exact .inr hx
  obtain ⟨d, hy⟩ := C68_panic_said (lisp_names rs rn rw) (lisp_texts h) (C68_lisp_well_formed h.finds.s.ne (number_ne h.finds.n) (word_ne h.finds.w)) _ (fun _ _ => rfl) text x hx hg
  rcases inv_top h.finds hy with h | ⟨_, _, _, _, _, _, _, _, _, _, _, h⟩ | ⟨h, hb⟩
  · cases h
  · cases h
  · cases h
    exact .inl ⟨rfl, hb⟩

/-- C66: a text is read in one way: two expressions with the same text stand for the same. -/
theorem C66_unambiguous (f : Int → Float64) (e e' : SExpr) (he : e.Ok) (he' : e'.Ok) (w w' v v' : Bytes) (hw : ∀ c ∈ w, IsSpace c) (hw' : ∀ c ∈ w', IsSpace c)
    (hv : ∀ c ∈ v, IsSpace c) (hv' : ∀ c ∈ v', IsSpace c) (ht : w ++ e.text ++ w' = v ++ e'.text ++ v') : e.val f = e'.val f := by
  have key := fun (e : SExpr) he w w' hw hw' => top_reads (f := f) (u := fun _ _ => []) (N := 0) (s := []) classes_ex.finds e he (w := w) (w' := w') hw hw' NoneOf.nil
    (.inr (by rw [List.append_nil]; exact fun c s' h => .inl (hw' c (by rw [h]; exact List.mem_cons_self ..))))
  have h1 := key e he w w' hw hw'
  have h2 := key e' he' v v' hv hv'
  rw [ht] at h1
  have := yields_det (lisp_one _ _ _) h1 h2
  revert this
  cases e.val f with
  | none => cases e'.val f with
    | none => intro; rfl
    | some y => intro h; cases h
  | some x => cases e'.val f with
    | none => intro h; cases h
    | some y =>
      intro h
      simp only [res, Except.ok.injEq, Option.some.injEq, Prod.mk.injEq, and_true] at h
      have h3 := toExpr_ast x
      rw [h, toExpr_ast] at h3
      exact h3.symm

/-- C66: `ParseString` gives a value for a text whose lists are nested at most 500 deep exactly if the text is an expression with
blanks around it, whose numbers fit. -/
theorem C66_exactly (h : Classes rx rs rn rw) (f : Int → Float64) (u : UserString) (e : SExpr) (he : e.Ok) (hn : e.nest ≤ 500) (w w' : Bytes)
    (hw : ∀ c ∈ w, IsSpace c) (hw' : ∀ c ∈ w', IsSpace c) (v : Ast) :
    LibGives rx (lispLines rs rn rw) (lispOps f u) (w ++ e.text ++ w') (.ok (some (v, []))) ↔ ∃ x, e.val f = some x ∧ v = x.ast := by
  constructor
  · intro hg
    obtain ⟨e', v1, v2, x, he', hv1, hv2, ht, hx, rfl⟩ := C66_only h f u _ v hg
    exact ⟨x, (C66_unambiguous f e e' he he' w w' v1 v2 hw hw' hv1 hv2 ht).trans hx, rfl⟩
  · rintro ⟨x, hx, rfl⟩
    have := C66_reads h f u e he hn w w' hw hw'
    rw [hx] at this
    exact this

/-! ## The assumptions are met -/

/-- A value is given. -/
example (f : Int → Float64) (u : UserString) : LibGives lispRx (lispLines Sample.notQuoteRe numberRe wordRe) (lispOps f u) (asc " -7\n") (.ok (some ((LExpr.num (f (-7))).ast, []))) :=
  (C66_exactly classes_ex f u (.num true (asc "7")) ⟨by decide, by unfold IsDigit; decide⟩ (by decide) [0x20] [0x0A] (by unfold IsSpace; decide) (by unfold IsSpace; decide) _).mpr
    ⟨_, by kernel_rfl, rfl⟩

/-- A string need not be UTF-8. -/
example (f : Int → Float64) (u : UserString) : LibGives lispRx (lispLines Sample.notQuoteRe numberRe wordRe) (lispOps f u) [0x22, 0xFF, 0x0A, 0x22] (.ok (some ((LExpr.str [0xFF, 0x0A]).ast, []))) :=
  (C66_exactly classes_ex f u (.str [0xFF, 0x0A]) (by unfold SExpr.Ok; decide) (by decide) [] [] (by simp) (by simp) _).mpr ⟨_, rfl, rfl⟩

/-- `(1 9223372036854775808` panics though the list is not closed. -/
example : HasBig (asc "(1 9223372036854775808") :=
  ⟨asc "(1 ", false, asc "9223372036854775808", [], by kernel_rfl, by decide, by unfold IsDigit; decide, by kernel_rfl⟩

end Joeson.Lisp
