import Verif.Proofs.Lisp
/-! # examples/lisp-repl: nothing else is read -/

namespace Joeson.Lisp
open RuleText hiding decimal
open Arith

variable {f : Int → Float64} {u : UserString} {N : Nat} {rs rn rw : Regex} {d : Nat}

local notation "Op" => lispOps f u
local notation "Li" => lispLines rs rn rw

theorem lisp_one (rs rn rw : Regex) : OneRule (lispLines rs rn rw) := by
  refine oneRule_of ?_
  show (["expr", "list", "string", "number", "operator", "word", "_", "__", "_SPACECHAR", ".", "ESC1"] : List String).Nodup
  decide

theorem number_ne {re : Regex} (h : FindsNumber re) (s : Bytes) : re.find s ≠ some (0, 0) := by
  intro h0
  obtain ⟨neg, c, t, rfl, hc⟩ := h.2 _ _ h0
  obtain ⟨w, s', rfl, h1, h2⟩ := greedy IsDigit t
  have := h.1 neg (c :: w) s' (by simp) (by simpa using ⟨hc, h1⟩) h2
  rw [show sign neg ++ c :: w ++ s' = sign neg ++ c :: (w ++ s') by simp, h0] at this
  simp at this

theorem word_ne {re : Regex} (h : FindsWord re) (s : Bytes) : re.find s ≠ some (0, 0) := by
  intro h0
  obtain ⟨c, t, rfl, hc⟩ := h.2 _ _ h0
  obtain ⟨w, s', rfl, h1, h2⟩ := greedy IsLater t
  have := h.1 (c :: w) s' ⟨c, w, rfl, hc, h1⟩ h2
  rw [List.cons_append, h0] at this
  simp at this

theorem inv_blanks {s : Bytes} {h : Bool} {r : VRes Ast} (hy : Yields Op N Li d (.part h (.name "" "_" true)) s r) :
    ∃ w s' v, s = w ++ s' ∧ (∀ c ∈ w, IsSpace c) ∧ NoneOf IsSpace s' ∧ r = .ok (some (v, s')) := by
  obtain ⟨w, s', rfl, h1, h2⟩ := greedy IsSpace s
  obtain ⟨v, hv⟩ := blanks (f := f) (u := u) (N := N) (d := 0) (rs := rs) (rn := rn) (rw := rw) h1 h2 h
  exact ⟨w, s', v, rfl, h1, h2, yields_det (lisp_one rs rn rw) hy hv⟩

theorem inv_gap {s : Bytes} {r : VRes Ast} (hy : Yields Op N Li d (.part false (.name "" "__" true)) s r) :
    r = .ok none ∨ ∃ w s' v, s = w ++ s' ∧ w ≠ [] ∧ (∀ c ∈ w, IsSpace c) ∧ r = .ok (some (v, s')) := by
  obtain ⟨w, s', rfl, h1, h2⟩ := greedy IsSpace s
  by_cases hw : w = []
  · subst hw
    exact .inl (yields_det (lisp_one rs rn rw) hy (gap_miss (d := 0) h2))
  · obtain ⟨v, hv⟩ := gap_hit (f := f) (u := u) (N := N) (d := 0) (rs := rs) (rn := rn) (rw := rw) h1 hw h2
    exact .inr ⟨w, s', v, rfl, hw, h1, yields_det (lisp_one rs rn rw) hy hv⟩

theorem inv_string (hf : Finds rs rn rw) {s : Bytes} {r : VRes Ast} (hy : Yields Op N Li d (.rule (some 1) (.text (stringE rs))) s r) :
    r = .ok none ∨ ∃ w s', s = [0x22] ++ w ++ [0x22] ++ s' ∧ 0x22 ∉ w ∧ r = .ok (some ((LExpr.str w).ast, s')) := by
  by_cases h0 : ∃ t, s = 0x22 :: t
  · obtain ⟨t, rfl⟩ := h0
    obtain ⟨w, s', rfl, h1, h2⟩ := greedy (· ≠ 0x22) t
    have hw : (0x22 : UInt8) ∉ w := fun hm => h1 _ hm rfl
    rcases Stops.cases h2 with rfl | ⟨s', rfl⟩
    · refine .inl (yields_det (lisp_one rs rn rw) hy (d' := 1) ?_)
      obtain ⟨ps, _, hp⟩ := Yields.repBut (P := Op) (N := N) (L := Li) (d := 0) hf.s (h := true) (lab := "") (.inl rfl) hw h2
      refine Yields.rtext (cb := some 1) (r := .ok none) (string_vp rs) (Yields.bare (.inr rfl) (.seq ?_))
      have hfo : formOf [VP.lit "" [0x22], .rep "" (.re "" rs) none 0 none, .lit "" [0x22]] = .single := rfl
      rw [hfo]
      exact .itemsPut (Yields.plit (b := [0x22])) rfl (.itemsPut hp rfl (.itemsMiss (Yields.plitMiss fun s' h => by cases h)))
    · refine .inr ⟨w, s', by simp, hw, yields_det (lisp_one rs rn rw) hy (d' := 1) ?_⟩
      have := string_text (f := f) (u := u) (N := N) (d := 0) hf hw s'
      simpa using this
  · exact .inl (yields_det (lisp_one rs rn rw) hy (string_miss (d := 0) fun s' h => h0 ⟨s', h⟩))

theorem inv_number (hf : Finds rs rn rw) {s : Bytes} {r : VRes Ast} (hy : Yields Op N Li d (.rule (some 2) (.text (numberE rn))) s r) :
    r = .ok none ∨ ∃ neg ds s', s = sign neg ++ ds ++ s' ∧ ds ≠ [] ∧ (∀ c ∈ ds, IsDigit c) ∧ r = res ((number neg ds).map fun n => .num (f n)) s' := by
  by_cases h0 : ∃ neg c t, IsDigit c ∧ s = sign neg ++ c :: t
  · obtain ⟨neg, c, t, hc, rfl⟩ := h0
    obtain ⟨w, s', rfl, h1, h2⟩ := greedy IsDigit t
    have hd : ∀ x ∈ c :: w, IsDigit x := by
      intro x hx
      rcases List.mem_cons.mp hx with rfl | hx
      · exact hc
      · exact h1 x hx
    refine .inr ⟨neg, c :: w, s', by simp, by simp, hd, yields_det (lisp_one rs rn rw) hy (d' := 1) ?_⟩
    have := number_text (f := f) (u := u) (N := N) (d := 0) hf neg (by simp) hd h2
    simpa using this
  · exact .inl (yields_det (lisp_one rs rn rw) hy (number_miss (d := 0) hf.n fun neg c s' hc h => h0 ⟨neg, c, s', hc, h⟩))

theorem inv_operator (hf : Finds rs rn rw) {s : Bytes} {r : VRes Ast} (hy : Yields Op N Li d (.rule (some 3) (.text operatorE)) s r) :
    r = .ok none ∨ ∃ w s', s = w ++ s' ∧ (IsWord w ∨ w ∈ symbols) ∧ r = .ok (some ((LExpr.op w).ast, s')) := by
  by_cases h0 : ∃ c t, s = c :: t ∧ IsLetter c
  · obtain ⟨c, t, rfl, hc⟩ := h0
    obtain ⟨w, s', rfl, h1, h2⟩ := greedy IsLater t
    have hw : IsWord (c :: w) := ⟨c, w, rfl, hc, h1⟩
    refine .inr ⟨c :: w, s', rfl, .inl hw, yields_det (lisp_one rs rn rw) hy (d' := 2) ?_⟩
    have h3 := Yields.re (P := Op) (N := N) (L := Li) (d := 0) (h := false) (lab := "") (hf.w.1 _ _ hw h2)
    rw [List.take_left' rfl, List.drop_left' rfl] at h3
    refine Yields.rtext (cb := some 3) (r := .ok (some (Ast.str (c :: w), s'))) operator_vp (Yields.bare (.inr rfl) (.alt ?_))
    exact .altsDone (Yields.call (.inr rfl) mem_word (Yields.rtext (cb := none) (word_vp rw) (Yields.bare (.inr rfl) h3))) (by simp)
  · have hm := word_miss (f := f) (u := u) (N := N) (d := 0) (rs := rs) (rn := rn) hf.w (s := s) fun c t he hc => h0 ⟨c, t, he, hc⟩
    have ha := alts_pick (N := N) (d := 1) (Q := Op) (L' := Li) s symbols
    have := Yields.rtext (cb := some 3) operator_vp (Yields.bare (.inr rfl) (.alt (.altsMiss hm ha)))
    have := yields_det (lisp_one rs rn rw) hy this
    subst this
    cases hp : symbols.find? (·.isPrefixOf s) with
    | none => exact .inl rfl
    | some b =>
      have h1 := List.mem_of_find?_eq_some hp
      have h2 := List.find?_some hp
      obtain ⟨t, rfl⟩ := List.isPrefixOf_iff_prefix.mp h2
      refine .inr ⟨b, t, rfl, .inr h1, ?_⟩
      simp
      rfl

theorem HasBig.after {s : Bytes} (h : HasBig s) (a : Bytes) : HasBig (a ++ s) := by
  obtain ⟨a', neg, ds, b, rfl, h⟩ := h
  exact ⟨a ++ a', neg, ds, b, by simp, h⟩

/-- What the rule for expressions answers. -/
def ExprAns (f : Int → Float64) (s : Bytes) (r : VRes Ast) : Prop :=
  r = .ok none ∨ (∃ e s' x, SExpr.Ok e ∧ s = e.text ++ s' ∧ e.val f = some x ∧ r = .ok (some (x.ast, s'))) ∨ (r = .error .notANumber ∧ HasBig s)

/-- What further elements of a list are answered. -/
def MoreAns (f : Int → Float64) (vs : List Ast) (s : Bytes) (r : VRes Ast) : Prop :=
  (∃ l s' xs, SItems.Ok false l ∧ s = l.text ++ s' ∧ l.vals f = some xs ∧ r = .ok (some (.arr (vs ++ LExpr.asts xs), s'))) ∨ (r = .error .notANumber ∧ HasBig s)

theorem inv_moreExprs {k : Nat} (hE : ∀ s : Bytes, s.length ≤ k → ∀ d r, Yields Op N Li d (.rule none (.rank (exprLines rs rn rw))) s r → ExprAns f s r) :
    ∀ (n : Nat) (s : Bytes), s.length ≤ n → s.length ≤ k → ∀ d vs r, Yields Op N Li d (.more (.name "" "expr" false) (some (.name "" "__" true)) 0 none vs) s r → MoreAns f vs s r := by
  intro n
  induction n with
  | zero => 
    intro s hn hk d vs r hy
    obtain rfl : s = [] := List.length_eq_zero_iff.mp (by omega)
    have hm := gap_miss (f := f) (u := u) (N := N) (d := 0) (rs := rs) (rn := rn) (rw := rw) (s := []) NoneOf.nil
    have := yields_det (lisp_one rs rn rw) hy (Yields.noSep (mn := 0) (vs := vs) Room.none (.sepSome hm))
    exact .inl ⟨.nil, [], [], by simp [SItems.Ok], rfl, by simp [SItems.vals], by rw [this]; simp [vstop, LExpr.asts]; rfl⟩
  | succ n ih =>
    intro s hn hk d vs r hy
    have stop : r = vstop Op 0 vs s → MoreAns f vs s r := fun h =>
      .inl ⟨.nil, s, [], by simp [SItems.Ok], by simp [SItems.text], by simp [SItems.vals], by rw [h]; simp [vstop, LExpr.asts]; rfl⟩
    cases hy with
    | more _ h1 h2 h3 =>
      cases h1 with | sepSome h1 => _
      rcases inv_gap h1 with h | ⟨w, s1, v, rfl, hw, hws, h⟩
      · cases h
      cases h
      have hlw : 0 < w.length := List.length_pos_iff.mpr hw
      simp only [List.length_append] at hn hk
      rcases hE _ (by omega) _ _ (inv_call (lisp_one rs rn rw) (.inr rfl) mem_expr h2) with h | ⟨e, s2, x, he, rfl, hx, h⟩ | ⟨h, _⟩
      · cases h
      · cases h
        simp only [List.length_append] at hn hk
        rcases ih _ (by omega) (by omega) _ _ _ h3 with ⟨l, s3, xs, hl, rfl, hxs, rfl⟩ | ⟨rfl, hb⟩
        · refine .inl ⟨.cons w e l, s3, x :: xs, ?_, by simp [SItems.text], by simp [SItems.vals, hx, hxs], by simp [LExpr.asts]⟩
          unfold SItems.Ok
          exact ⟨hws, fun _ => hw, he, hl⟩
        · exact .inr ⟨rfl, (hb.after _).after _⟩
      · cases h
    | sepPanic _ h1 =>
      cases h1 with | sepSome h1 => _
      rcases inv_gap h1 with h | ⟨_, _, _, _, _, _, h⟩ <;> cases h
    | morePanic _ h1 h2 =>
      cases h1 with | sepSome h1 => _
      rcases inv_gap h1 with h | ⟨w, s1, v, rfl, hw, hws, h⟩
      · cases h
      cases h
      simp only [List.length_append] at hn hk
      rcases hE _ (by omega) _ _ (inv_call (lisp_one rs rn rw) (.inr rfl) mem_expr h2) with h | ⟨e, s2, x, he, rfl, hx, h⟩ | ⟨h, hb⟩
      · cases h
      · cases h
      · cases h
        exact .inr ⟨rfl, hb.after _⟩
    | full => exact stop rfl
    | noSep => exact stop rfl
    | noMore => exact stop rfl

/-- The elements of a list, and what is before it. -/
theorem inv_exprs {k : Nat} (hE : ∀ s : Bytes, s.length ≤ k → ∀ d r, Yields Op N Li d (.rule none (.rank (exprLines rs rn rw))) s r → ExprAns f s r)
    {s : Bytes} (hk : s.length ≤ k) {r : VRes Ast} {w : Bytes} (hw : ∀ c ∈ w, IsSpace c)
    (hy : Yields Op N Li d (.part true (.rep "" (.name "" "expr" false) (some (.name "" "__" true)) 0 none)) s r) :
    (∃ l s' xs, SItems.Ok true l ∧ (w ++ s = l.text ++ s' ∨ l = .nil ∧ s = s') ∧ l.vals f = some xs ∧ r = .ok (some (.arr (LExpr.asts xs), s'))) ∨
      (r = .error .notANumber ∧ HasBig s) := by
  have hy := inv_bare (.inl rfl) hy
  cases hy with
  | repMiss =>
    exact .inl ⟨.nil, s, [], by simp [SItems.Ok], .inr ⟨rfl, rfl⟩, by simp [SItems.vals], by simp [vstop, LExpr.asts]; rfl⟩
  | repPanic h =>
    rcases hE _ hk _ _ (inv_call (lisp_one rs rn rw) (.inr rfl) mem_expr h) with h | ⟨e, s2, x, he, _, hx, h⟩ | ⟨h, hb⟩
    · cases h
    · cases h
    · cases h
      exact .inr ⟨rfl, hb⟩
  | rep h h2 =>
    rcases hE _ hk _ _ (inv_call (lisp_one rs rn rw) (.inr rfl) mem_expr h) with h | ⟨e, s2, x, he, rfl, hx, h⟩ | ⟨h, hb⟩
    · cases h
    · cases h
      simp only [List.length_append] at hk
      rcases inv_moreExprs hE _ _ (Nat.le_refl _) (by omega) _ _ _ h2 with ⟨l, s3, xs, hl, rfl, hxs, rfl⟩ | ⟨rfl, hb⟩
      · refine .inl ⟨.cons w e l, s3, x :: xs, ?_, .inl (by simp [SItems.text]), by simp [SItems.vals, hx, hxs], by simp [LExpr.asts]⟩
        unfold SItems.Ok
        exact ⟨hw, by simp, he, hl⟩
      · exact .inr ⟨rfl, hb.after _⟩
    · cases h

theorem inv_list {k : Nat} (hE : ∀ s : Bytes, s.length ≤ k → ∀ d r, Yields Op N Li d (.rule none (.rank (exprLines rs rn rw))) s r → ExprAns f s r)
    {s : Bytes} (hk : s.length ≤ k + 1) {r : VRes Ast} (hy : Yields Op N Li d (.rule (some 0) (.text listE)) s r) : ExprAns f s r := by
  obtain ⟨d', r0, hy0, rfl⟩ := inv_text list_vp hy
  clear hy
  have hfo : formOf [VP.lit "" [0x28], .name "" "_" true, .rep "" (.name "" "expr" false) (some (.name "" "__" true)) 0 none,
    .name "" "_" true, .lit "" [0x29]] = .single := by kernel_rfl
  have hy := inv_seq (.inr rfl) hy0
  rw [hfo] at hy
  match r0, hy with
  | .ok none, _ => exact .inl rfl
  | .error x, hy =>
    rcases inv_item_error (by simp) hy with e1 | ⟨_, _, h1, y1⟩
    · exact (inv_plit_error (.inl rfl) e1).elim
    obtain ⟨rfl, rfl⟩ := inv_plit (.inl rfl) h1
    rcases inv_item_error (by simp) y1 with e2 | ⟨_, _, h2, y2⟩
    · obtain ⟨_, _, _, _, _, _, h⟩ := inv_blanks e2
      cases h
    obtain ⟨w, s2, v, rfl, hw, _, h⟩ := inv_blanks h2
    cases h
    simp only [List.length_append, List.length_cons, List.length_nil] at hk
    rcases inv_item_error (by simp) y2 with e3 | ⟨_, _, h3, y3⟩
    · rcases inv_exprs hE (by omega) hw e3 with ⟨_, _, _, _, _, _, h⟩ | ⟨h, hb⟩
      · cases h
      · cases h
        exact .inr (.inr ⟨rfl, (hb.after _).after _⟩)
    rcases inv_item_error (by simp) y3 with e4 | ⟨_, _, h4, y4⟩
    · obtain ⟨_, _, _, _, _, _, h⟩ := inv_blanks e4
      cases h
    rcases inv_item_error (by simp) y4 with e5 | ⟨_, _, h5, y5⟩
    · exact (inv_plit_error (.inl rfl) e5).elim
    · exact (inv_items_error_end y5).elim
  | .ok (some (v, s')), hy =>
    obtain ⟨_, _, h1, y1⟩ := inv_item hy
    obtain ⟨rfl, rfl⟩ := inv_plit (.inl rfl) h1
    obtain ⟨_, _, h2, y2⟩ := inv_item y1
    obtain ⟨w, s2, v2, rfl, hw, _, h⟩ := inv_blanks h2
    cases h
    simp only [List.length_append, List.length_cons, List.length_nil] at hk
    obtain ⟨_, _, h3, y3⟩ := inv_item y2
    rcases inv_exprs hE (by omega) hw h3 with ⟨l, s3, xs, hl, hls, hxs, h⟩ | ⟨h, hb⟩
    rotate_left
    · cases h
    cases h
    obtain ⟨_, _, h4, y4⟩ := inv_item y3
    obtain ⟨w', s4, v4, rfl, hw', _, h⟩ := inv_blanks h4
    cases h
    obtain ⟨_, s6, h5, y5⟩ := inv_item y4
    obtain ⟨rfl, rfl⟩ := inv_plit (.inl rfl) h5
    obtain ⟨rfl, hv⟩ := inv_itemsEnd y5
    cases hv
    have hc : called Op N (some 0) (.ok (some (Ast.arr (LExpr.asts xs), s6))) = .ok (some ((LExpr.list xs).ast, s6)) := by
      simp only [called, lispOps, treePure, exprFromList, toExprs_asts]
      rfl
    refine .inr (.inl ?_)
    rcases hls with hls | ⟨rfl, rfl⟩
    · refine ⟨.list l w', s6, .list xs, ?_, ?_, by simp [SExpr.val, hxs], hc⟩
      · unfold SExpr.Ok
        exact ⟨hl, hw'⟩
      · rw [hls]
        simp [SExpr.text]
    · refine ⟨.list .nil (w ++ w'), s6, .list xs, ?_, by simp [SExpr.text, SItems.text], by simp [SExpr.val, hxs], hc⟩
      unfold SExpr.Ok
      exact ⟨hl, fun c hc => (List.mem_append.mp hc).elim (hw c) (hw' c)⟩

/-- The rule for expressions matches expressions. -/
theorem inv_expr (hf : Finds rs rn rw) : ∀ (k : Nat) (s : Bytes), s.length ≤ k → ∀ d r, Yields Op N Li d (.rule none (.rank (exprLines rs rn rw))) s r → ExprAns f s r := by
  have rest : ∀ (s : Bytes) (d : Nat) (r : VRes Ast), Yields Op N Li d (.lines (exprLines rs rn rw).tail) s r → ExprAns f s r := by
    intro s d r hy
    rcases inv_line hy with hy | ⟨_, hy⟩
    · rcases inv_string hf hy with h | ⟨w, s', rfl, hw, h⟩
      · exact .inl h
      · exact .inr (.inl ⟨.str w, s', .str w, hw, rfl, rfl, h⟩)
    rcases inv_line hy with hy | ⟨_, hy⟩
    · rcases inv_number hf hy with h | ⟨neg, ds, s', rfl, hne, hd, h⟩
      · exact .inl h
      · cases hn : number neg ds with
        | none =>
          rw [hn] at h
          exact .inr (.inr ⟨h, [], neg, ds, s', rfl, hne, hd, hn⟩)
        | some n =>
          rw [hn] at h
          exact .inr (.inl ⟨.num neg ds, s', .num (f n), ⟨hne, hd⟩, rfl, by simp [SExpr.val, hn], h⟩)
    rcases inv_line hy with hy | ⟨_, hy⟩
    · rcases inv_operator hf hy with h | ⟨w, s', rfl, hw, h⟩
      · exact .inl h
      · exact .inr (.inl ⟨.op w, s', .op w, hw, rfl, rfl, h⟩)
    exact .inl (inv_linesEnd (inv_incl hy))
  intro k
  induction k with
  | zero =>
    intro s hk d r hy
    obtain rfl : s = [] := List.length_eq_zero_iff.mp (by omega)
    obtain ⟨d', r0, hy0, rfl⟩ := inv_rank hy
    clear hy
    have hn : called Op N none r0 = r0 := by cases r0 with | error => rfl | ok o => cases o <;> rfl
    rw [hn]
    rcases inv_line hy0 with hy | ⟨_, hy⟩
    · exact .inl (yields_det (lisp_one rs rn rw) hy (list_miss (d := 0) (by simp)))
    · exact rest _ _ _ hy
  | succ k ih =>
    intro s hk d r hy
    obtain ⟨d', r0, hy0, rfl⟩ := inv_rank hy
    clear hy
    have hn : called Op N none r0 = r0 := by cases r0 with | error => rfl | ok o => cases o <;> rfl
    rw [hn]
    rcases inv_line hy0 with hy | ⟨_, hy⟩
    · exact inv_list ih hk hy
    · exact rest _ _ _ hy

/-- The whole text. -/
theorem inv_top (hf : Finds rs rn rw) {s : Bytes} {r : VRes Ast} (hy : Yields Op N Li d (.lines Li) s r) :
    r = .ok none ∨ (∃ e w w' s' x, SExpr.Ok e ∧ (∀ c ∈ w, IsSpace c) ∧ (∀ c ∈ w', IsSpace c) ∧ NoneOf IsSpace s' ∧ s = w ++ e.text ++ w' ++ s' ∧ e.val f = some x ∧
      r = .ok (some (x.ast, s'))) ∨ (r = .error .notANumber ∧ HasBig s) := by
  rcases inv_line hy with hy | ⟨_, hy⟩
  rotate_left
  · exact .inl (inv_linesEnd (inv_incl (inv_incl (inv_incl (inv_incl (inv_incl (inv_incl hy)))))))
  obtain ⟨d', r0, hy0, rfl⟩ := inv_text top_vp hy
  clear hy
  have hfo : formOf [VP.name "" "_" true, .name "" "expr" false, .name "" "_" true] = .single := by kernel_rfl
  have hy := inv_seq (.inr rfl) hy0
  rw [hfo] at hy
  match r0, hy with
  | .ok none, _ => exact .inl rfl
  | .error x, hy =>
    rcases inv_item_error (by simp) hy with e1 | ⟨_, _, h1, y1⟩
    · obtain ⟨_, _, _, _, _, _, h⟩ := inv_blanks e1
      cases h
    obtain ⟨w, s2, v, rfl, hw, _, h⟩ := inv_blanks h1
    cases h
    rcases inv_item_error (by simp) y1 with e2 | ⟨_, _, h3, y2⟩
    · rcases inv_expr hf _ _ (Nat.le_refl _) _ _ (inv_call (lisp_one rs rn rw) (.inl rfl) mem_expr e2) with h | ⟨_, _, _, _, _, _, h⟩ | ⟨h, hb⟩
      · cases h
      · cases h
      · cases h
        exact .inr (.inr ⟨rfl, hb.after _⟩)
    rcases inv_item_error (by simp) y2 with e3 | ⟨_, _, h4, y3⟩
    · obtain ⟨_, _, _, _, _, _, h⟩ := inv_blanks e3
      cases h
    · exact (inv_items_error_end y3).elim
  | .ok (some (v, s')), hy =>
    obtain ⟨_, _, h1, y1⟩ := inv_item hy
    obtain ⟨w, s2, v2, rfl, hw, _, h⟩ := inv_blanks h1
    cases h
    obtain ⟨_, _, h3, y2⟩ := inv_item y1
    rcases inv_expr hf _ _ (Nat.le_refl _) _ _ (inv_call (lisp_one rs rn rw) (.inl rfl) mem_expr h3) with h | ⟨e, s3, x, he, rfl, hx, h⟩ | ⟨h, hb⟩
    · cases h
    rotate_left
    · cases h
    cases h
    obtain ⟨_, s6, h4, y3⟩ := inv_item y2
    obtain ⟨w', s4, v4, rfl, hw', hs4, h⟩ := inv_blanks h4
    cases h
    obtain ⟨rfl, hv⟩ := inv_itemsEnd y3
    cases hv
    exact .inr (.inl ⟨e, w, w', s6, x, he, hw, hw', hs4, by simp, hx, rfl⟩)

end Joeson.Lisp
