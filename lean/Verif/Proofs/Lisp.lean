import Verif.Spec.Lisp
import Verif.Model.Lisp
import Verif.Proofs.Readme2
import Verif.Proofs.Precedence2
/-! # examples/lisp-repl: reading expressions -/

namespace Joeson.Lisp
open RuleText hiding decimal
open Arith

theorem top_vp : topE.vp = .seq "" [.name "" "_" true, .name "" "expr" false, .name "" "_" true] := by kernel_rfl
theorem list_vp : listE.vp = .seq "" [.lit "" [0x28], .name "" "_" true, .rep "" (.name "" "expr" false) (some (.name "" "__" true)) 0 none,
  .name "" "_" true, .lit "" [0x29]] := by kernel_rfl
theorem string_vp (r : Regex) : (stringE r).vp = .seq "" [.lit "" [0x22], .rep "" (.re "" r) none 0 none, .lit "" [0x22]] := by kernel_rfl
theorem number_vp (r : Regex) : (numberE r).vp = .re "" r := by kernel_rfl
theorem operator_vp : operatorE.vp = .alt "" (.name "" "word" false :: symbols.map (.lit "")) := by kernel_rfl
theorem word_vp (r : Regex) : (wordE r).vp = .re "" r := by kernel_rfl
theorem blanks_vp : blanksE.vp = .rep "" (.name "" "_SPACECHAR" true) none 0 none := by kernel_rfl
theorem gap_vp : gapE.vp = .rep "" (.name "" "_SPACECHAR" true) none 1 none := by kernel_rfl
theorem space_vp : spaceE.vp = .alt "" [.lit "" [0x20], .lit "" [0x09], .lit "" [0x0A]] := by kernel_rfl

mutual
theorem toExpr_ast : ∀ e : LExpr, toExpr e.ast = some e
  | .str s => by simp [LExpr.ast, toExpr]
  | .num x => by simp [LExpr.ast, toExpr]
  | .list l => by simp [LExpr.ast, toExpr, toExprs_asts l]
  | .op s => by simp [LExpr.ast, toExpr]
theorem toExprs_asts : ∀ l : List LExpr, toExprs (LExpr.asts l) = some l
  | [] => by simp [LExpr.asts, toExprs]
  | e :: l => by simp [LExpr.asts, toExprs, toExpr_ast e, toExprs_asts l]
end

theorem asts_append (l l' : List LExpr) : LExpr.asts (l ++ l') = LExpr.asts l ++ LExpr.asts l' := by
  induction l with
  | nil => rfl
  | cons e l ih => simp only [List.cons_append, LExpr.asts, ih]

/-- An outcome; `none`: a panic of the conversion of numbers. -/
def res (val : Option LExpr) (s : Bytes) : VRes Ast :=
  match val with
  | some e => .ok (some (e.ast, s))
  | none => .error .notANumber

/-- The same for the elements of a list. -/
def resAll (vs : List Ast) (val : Option (List LExpr)) (s : Bytes) : VRes Ast :=
  match val with
  | some l => .ok (some (.arr (vs ++ LExpr.asts l), s))
  | none => .error .notANumber

/-- What the regular expressions of the grammar find. -/
structure Finds (rs rn rw : Regex) : Prop where
  /-- `[^"]` -/
  s : FindsBut 0x22 rs
  n : FindsNumber rn
  w : FindsWord rw

variable {f : Int → Float64} {u : UserString} {N : Nat} {rs rn rw : Regex} {d : Nat}

local notation "Op" => lispOps f u
local notation "Li" => lispLines rs rn rw

theorem mem_expr : ("expr", none, Body.rank (exprLines rs rn rw)) ∈ rulesOf Li := by simp [lispLines, rulesOf, GLine.rules, Body.rules]
theorem mem_blanks : ("_", none, Body.text blanksE) ∈ rulesOf Li := by simp [lispLines, exprLines, rulesOf, GLine.rules, Body.rules]
theorem mem_gap : ("__", none, Body.text gapE) ∈ rulesOf Li := by simp [lispLines, exprLines, rulesOf, GLine.rules, Body.rules]
theorem mem_space : ("_SPACECHAR", none, Body.text spaceE) ∈ rulesOf Li := by simp [lispLines, exprLines, rulesOf, GLine.rules, Body.rules]
theorem mem_word : ("word", none, Body.text (wordE rw)) ∈ rulesOf Li := by simp [lispLines, exprLines, rulesOf, GLine.rules, Body.rules]

/-! ## Literals -/

theorem alts_pick {V : Type} {Q : PureOps V} {L' : List GLine} (t : Bytes) : ∀ l : List Bytes,
    Yields Q N L' d (.alts (l.map (.lit ""))) t (match l.find? (·.isPrefixOf t) with | some b => .ok (some (Q.str b, t.drop b.length)) | none => .ok none)
  | [] => .altsEnd
  | b :: l => by
    rw [List.map_cons, List.find?_cons]
    cases h : b.isPrefixOf t with
    | true =>
      obtain ⟨s, rfl⟩ := List.isPrefixOf_iff_prefix.mp h
      refine .altsDone ?_ (by simp)
      simpa using Yields.plit (P := Q) (N := N) (L := L') (d := d) (h := false) (b := b) (s := s)
    | false =>
      refine .altsMiss (Yields.plitMiss fun s' he => ?_) (alts_pick t l)
      rw [he] at h
      have : b.isPrefixOf (b ++ s') = true := List.isPrefixOf_iff_prefix.mpr ⟨s', rfl⟩
      rw [this] at h
      cases h

/-! ## Blanks -/

theorem space_hit {c : UInt8} (hc : IsSpace c) (s : Bytes) :
    Yields Op N Li (d + 1) (.part false (.name "" "_SPACECHAR" true)) (c :: s) (.ok (some (.str [c], s))) := by
  refine Yields.call (.inr rfl) mem_space (Yields.rtext (cb := none) (r := .ok (some (Ast.str [c], s))) space_vp (Yields.bare (.inr rfl) (.alt ?_)))
  have := alts_pick (N := N) (d := d) (Q := Op) (L' := Li) (c :: s) [[0x20], [0x09], [0x0A]]
  rcases hc with rfl | rfl | rfl <;> (simp [List.find?_cons] at this; exact this)

theorem space_miss {s : Bytes} (hs : NoneOf IsSpace s) : Yields Op N Li (d + 1) (.part false (.name "" "_SPACECHAR" true)) s (.ok none) := by
  refine Yields.call (.inr rfl) mem_space (Yields.rtext (cb := none) (r := .ok none) space_vp (Yields.bare (.inr rfl) (.alt ?_)))
  refine .altsMiss (Yields.plitMiss fun s' h => hs _ _ h (.inl rfl)) (.altsMiss (Yields.plitMiss fun s' h => hs _ _ h (.inr (.inl rfl)))
    (.altsMiss (Yields.plitMiss fun s' h => hs _ _ h (.inr (.inr rfl))) .altsEnd))

theorem spaces_more {mn : Nat} {s : Bytes} (hs : NoneOf IsSpace s) : ∀ (w : Bytes) (vs : List Ast), (∀ c ∈ w, IsSpace c) → mn ≤ vs.length →
    ∃ v, Yields Op N Li (d + 1) (.more (.name "" "_SPACECHAR" true) none mn none vs) (w ++ s) (.ok (some (v, s)))
  | [], vs, _, hmn => by
    have h := Yields.noMore (P := Op) (mn := mn) (vs := vs) Room.none .sepNone (space_miss (f := f) (u := u) (N := N) (d := d) (rs := rs) (rn := rn) (rw := rw) hs)
    rw [vstop, if_neg (by omega)] at h
    exact ⟨_, h⟩
  | c :: w, vs, hw, hmn => by
    obtain ⟨v, h⟩ := spaces_more (mn := mn) hs w (vs ++ [.str [c]]) (fun x hx => hw x (List.mem_cons_of_mem _ hx)) (by simp; omega)
    exact ⟨v, .more Room.none .sepNone (space_hit (hw c (List.mem_cons_self ..)) _) h⟩

theorem blanks {w s : Bytes} (hw : ∀ c ∈ w, IsSpace c) (hs : NoneOf IsSpace s) (h : Bool) :
    ∃ v, Yields Op N Li (d + 2) (.part h (.name "" "_" true)) (w ++ s) (.ok (some (v, s))) := by
  have key : ∃ v, Yields Op N Li (d + 1) (.part false (.rep "" (.name "" "_SPACECHAR" true) none 0 none)) (w ++ s) (.ok (some (v, s))) := by
    match w, hw with
    | [], _ => exact ⟨_, Yields.bare (.inr rfl) (.repMiss (space_miss hs))⟩
    | c :: w, hw =>
      obtain ⟨v, hv⟩ := spaces_more (f := f) (u := u) (N := N) (d := d) (rs := rs) (rn := rn) (rw := rw) (mn := 0) hs w [.str [c]] (fun x hx => hw x (List.mem_cons_of_mem _ hx)) (by simp)
      exact ⟨v, Yields.bare (.inr rfl) (.rep (space_hit (hw c (List.mem_cons_self ..)) _) hv)⟩
  obtain ⟨v, hv⟩ := key
  exact ⟨v, Yields.call (.inr rfl) mem_blanks (Yields.rtext (cb := none) (r := .ok (some (v, s))) blanks_vp hv)⟩

theorem gap_hit {w s : Bytes} (hw : ∀ c ∈ w, IsSpace c) (hne : w ≠ []) (hs : NoneOf IsSpace s) :
    ∃ v, Yields Op N Li (d + 2) (.part false (.name "" "__" true)) (w ++ s) (.ok (some (v, s))) := by
  match w, hne, hw with
  | c :: w, _, hw =>
    obtain ⟨v, hv⟩ := spaces_more (f := f) (u := u) (N := N) (d := d) (rs := rs) (rn := rn) (rw := rw) (mn := 1) hs w [.str [c]] (fun x hx => hw x (List.mem_cons_of_mem _ hx)) (by simp)
    exact ⟨v, Yields.call (.inr rfl) mem_gap (Yields.rtext (cb := none) (r := .ok (some (v, s))) gap_vp
      (Yields.bare (.inr rfl) (.rep (space_hit (hw c (List.mem_cons_self ..)) _) hv)))⟩

theorem gap_miss {s : Bytes} (hs : NoneOf IsSpace s) : Yields Op N Li (d + 2) (.part false (.name "" "__" true)) s (.ok none) :=
  Yields.call (.inr rfl) mem_gap (Yields.rtext (cb := none) (r := .ok none) gap_vp (Yields.bare (.inr rfl) (.repMiss (mn := 1) (space_miss hs))))

/-! ## What an expression begins with -/

theorem list_miss {s : Bytes} (hs : ∀ s', s ≠ 0x28 :: s') : Yields Op N Li (d + 1) (.rule (some 0) (.text listE)) s (.ok none) :=
  Yields.rtext (cb := some 0) (r := .ok none) list_vp (Yields.bare (.inr rfl) (.seq (.itemsMiss (Yields.plitMiss hs))))

theorem string_miss {s : Bytes} (hs : ∀ s', s ≠ 0x22 :: s') : Yields Op N Li (d + 1) (.rule (some 1) (.text (stringE rs))) s (.ok none) :=
  Yields.rtext (cb := some 1) (r := .ok none) (string_vp rs) (Yields.bare (.inr rfl) (.seq (.itemsMiss (Yields.plitMiss hs))))

theorem number_miss (hn : FindsNumber rn) {s : Bytes} (hs : ∀ neg c s', IsDigit c → s ≠ sign neg ++ c :: s') :
    Yields Op N Li (d + 1) (.rule (some 2) (.text (numberE rn))) s (.ok none) :=
  Yields.rtext (cb := some 2) (r := .ok none) (number_vp rn) (Yields.bare (.inr rfl) (.reMiss fun n h => by
    obtain ⟨neg, c, s', he, hc⟩ := hn.2 s n h
    exact hs neg c s' hc he))

theorem word_miss (hw : FindsWord rw) {s : Bytes} (hs : NoneOf IsLetter s) : Yields Op N Li (d + 1) (.part false (.name "" "word" false)) s (.ok none) :=
  Yields.call (.inr rfl) mem_word (Yields.rtext (cb := none) (r := .ok none) (word_vp rw) (Yields.bare (.inr rfl) (.reMiss fun n h => by
    obtain ⟨c, s', he, hc⟩ := hw.2 s n h
    exact hs c s' he hc)))

/-- At the end of a list there is no expression. -/
theorem expr_end (hf : Finds rs rn rw) (s : Bytes) : Yields Op N Li (d + 3) (.part false (.name "" "expr" false)) (0x29 :: s) (.ok none) := by
  refine Yields.call (.inr rfl) mem_expr (Yields.rank (cb := none) (r := .ok none) ?_)
  refine .altMiss (list_miss (by intro s' h; injection h with h _; exact absurd h (by decide))) (.altMiss (string_miss (by intro s' h; injection h with h _; exact absurd h (by decide)))
    (.altMiss (number_miss hf.n ?_) (.altMiss ?_ (.incl .linesEnd))))
  · intro neg c s' hc h
    cases neg
    · injection h with h _
      subst h
      exact absurd hc (by unfold IsDigit; decide)
    · injection h with h _
      exact absurd h (by decide)
  · refine Yields.rtext (cb := some 3) (r := .ok none) operator_vp (Yields.bare (.inr rfl) (.alt (.altsMiss (word_miss hf.w ?_) ?_)))
    · intro c s' h hc
      cases h
      exact absurd hc (by unfold IsLetter; decide)
    · simpa [symbols, List.find?_cons] using alts_pick (N := N) (d := d + 1) (Q := Op) (L' := Li) (0x29 :: s) symbols

/-! ## Strings, numbers and operators -/

theorem string_text (hf : Finds rs rn rw) {w : Bytes} (hw : 0x22 ∉ w) (s : Bytes) :
    Yields Op N Li (d + 1) (.rule (some 1) (.text (stringE rs))) ([0x22] ++ w ++ [0x22] ++ s) (.ok (some ((LExpr.str w).ast, s))) := by
  obtain ⟨ps, hps, hy⟩ := Yields.repBut (P := Op) (N := N) (L := Li) (d := d) hf.s (h := true) (lab := "") (.inl rfl) hw (s := 0x22 :: s) (by
    intro c s' h hc
    cases h
    exact hc rfl)
  have h1 : Yields Op N Li d (.part false (stringE rs).vp) ([0x22] ++ w ++ [0x22] ++ s) (.ok (some (.arr (ps.map .str), s))) := by
    rw [string_vp]
    refine Yields.bare (.inr rfl) (.seq ?_)
    have hfo : formOf [VP.lit "" [0x22], .rep "" (.re "" rs) none 0 none, .lit "" [0x22]] = .single := rfl
    rw [hfo, List.append_assoc, List.append_assoc]
    refine .itemsPut (Yields.plit (b := [0x22])) rfl ?_
    refine .itemsPut hy rfl ?_
    refine .itemsPut (Yields.plit (b := [0x22]) (s := s)) rfl ?_
    exact .itemsEnd rfl
  have h2 := Yields.text (cb := some 1) h1
  have hv : called Op N (some 1) (.ok (some (.arr (ps.map .str), s))) = .ok (some ((LExpr.str w).ast, s)) := by
    simp only [called, lispOps, treePure, exprFromString, concat_pieces, hps]
    rfl
  rw [hv] at h2
  exact h2

theorem string_reads (hf : Finds rs rn rw) {w : Bytes} (hw : 0x22 ∉ w) (s : Bytes) :
    Yields Op N Li (d + 2) (.rule none (.rank (exprLines rs rn rw))) ([0x22] ++ w ++ [0x22] ++ s) (.ok (some ((LExpr.str w).ast, s))) := by
  refine Yields.rank (cb := none) (r := .ok (some ((LExpr.str w).ast, s))) (.altMiss (list_miss ?_) (.altDone (string_text hf hw s) (by simp)))
  intro s' h
  injection h with h _
  exact absurd h (by decide)

theorem sign_head (neg : Bool) {ds : Bytes} (hne : ds ≠ []) (hd : ∀ c ∈ ds, IsDigit c) (s : Bytes) {c : UInt8} {t : Bytes} (h : sign neg ++ ds ++ s = c :: t) :
    c = 0x2D ∨ IsDigit c := by
  match ds, hne with
  | b :: ds, _ =>
    cases neg
    · injection h with h _
      exact .inr (h ▸ hd _ (List.mem_cons_self ..))
    · injection h with h _
      exact .inl h.symm

theorem number_text (hf : Finds rs rn rw) (neg : Bool) {ds : Bytes} (hne : ds ≠ []) (hd : ∀ c ∈ ds, IsDigit c) {s : Bytes} (hs : NoneOf IsDigit s) :
    Yields Op N Li (d + 1) (.rule (some 2) (.text (numberE rn))) (sign neg ++ ds ++ s) (res ((number neg ds).map fun n => .num (f n)) s) := by
  have h0 := hf.n.1 neg ds s hne hd hs
  have h1 := Yields.re (P := Op) (N := N) (L := Li) (d := d) (h := false) (lab := "") h0
  rw [List.take_left' rfl, List.drop_left' rfl] at h1
  have h2 := Yields.rtext (cb := some 2) (number_vp rn) (Yields.bare (.inr rfl) h1)
  have hv : called Op N (some 2) (.ok (some ((Op).str (sign neg ++ ds), s))) = res ((number neg ds).map fun n => .num (f n)) s := by
    have ha : atoi (sign neg ++ ds) = number neg ds := Calc.atoi_number neg ds hne hd
    simp only [called, lispOps, treePure, exprFromNumber, newNativeIntFrom, nativeIntFrom, ha]
    cases number neg ds <;> rfl
  rw [hv] at h2
  exact h2

theorem number_reads (hf : Finds rs rn rw) (neg : Bool) {ds : Bytes} (hne : ds ≠ []) (hd : ∀ c ∈ ds, IsDigit c) {s : Bytes} (hs : Ends s) :
    Yields Op N Li (d + 2) (.rule none (.rank (exprLines rs rn rw))) (sign neg ++ ds ++ s) (res ((number neg ds).map fun n => .num (f n)) s) := by
  have h2 := number_text (f := f) (u := u) (N := N) (d := d) hf neg hne hd (s := s) (by
    intro c s' h hc
    rcases hs c s' h with (rfl | rfl | rfl) | rfl <;> exact absurd hc (by unfold IsDigit; decide))
  have hr : called Op N none (res ((number neg ds).map fun n => .num (f n)) s) = res ((number neg ds).map fun n => .num (f n)) s := by
    cases number neg ds <;> rfl
  rw [← hr]
  refine Yields.rank (cb := none) (.altMiss (list_miss ?_) (.altMiss (string_miss ?_) (.altDone h2 (by cases number neg ds <;> simp [res]))))
  · intro s' h
    rcases sign_head neg hne hd s h with h | h <;> revert h
    · decide
    · unfold IsDigit; decide
  · intro s' h
    rcases sign_head neg hne hd s h with h | h <;> revert h
    · decide
    · unfold IsDigit; decide

theorem ends_not {s : Bytes} (hs : Ends s) {C : UInt8 → Prop} (h1 : ¬ C 0x20) (h2 : ¬ C 0x09) (h3 : ¬ C 0x0A) (h4 : ¬ C 0x29) : NoneOf C s := by
  intro c s' h hc
  rcases hs c s' h with (rfl | rfl | rfl) | rfl <;> contradiction

theorem operator_text (hf : Finds rs rn rw) {w : Bytes} (hw : IsWord w ∨ w ∈ symbols) {s : Bytes} (hs : Ends s) :
    Yields Op N Li (d + 1) (.part false operatorE.vp) (w ++ s) (.ok (some (.str w, s))) := by
  rw [operator_vp]
  refine Yields.bare (.inr rfl) (.alt ?_)
  rcases hw with hw | hw
  · have h0 := hf.w.1 w s hw (ends_not hs (by unfold IsLater IsLetter IsDigit; decide) (by unfold IsLater IsLetter IsDigit; decide)
      (by unfold IsLater IsLetter IsDigit; decide) (by unfold IsLater IsLetter IsDigit; decide))
    have h1 := Yields.re (P := Op) (N := N) (L := Li) (d := d) (h := false) (lab := "") h0
    rw [List.take_left' rfl, List.drop_left' rfl] at h1
    refine .altsDone (Yields.call (.inr rfl) mem_word (Yields.rtext (cb := none) (word_vp rw) (Yields.bare (.inr rfl) h1))) (by simp)
  · refine .altsMiss (word_miss hf.w ?_) ?_
    · intro c s' h hc
      have : ∀ w ∈ symbols, ∃ c l, w = c :: l ∧ ¬ IsLetter c := by
        unfold IsLetter symbols
        intro w hw
        simp only [List.mem_cons, List.not_mem_nil, or_false] at hw
        rcases hw with rfl | rfl | rfl | rfl | rfl | rfl | rfl | rfl | rfl | rfl | rfl | rfl <;> exact ⟨_, _, rfl, by decide⟩
      obtain ⟨c', l, rfl, hc'⟩ := this w hw
      injection h with h _
      subst h
      exact hc' hc
    · have h := alts_pick (N := N) (d := d + 1) (Q := Op) (L' := Li) (w ++ s) symbols
      have hp : symbols.find? (·.isPrefixOf (w ++ s)) = some w := by
        unfold symbols at hw
        simp only [List.mem_cons, List.not_mem_nil, or_false] at hw
        match s, hs with
        | [], _ => rcases hw with rfl | rfl | rfl | rfl | rfl | rfl | rfl | rfl | rfl | rfl | rfl | rfl <;> rfl
        | c :: s, hs =>
          rcases hs c s rfl with (rfl | rfl | rfl) | rfl <;>
          rcases hw with rfl | rfl | rfl | rfl | rfl | rfl | rfl | rfl | rfl | rfl | rfl | rfl <;> rfl
      rw [hp] at h
      simp at h
      exact h

/-- What an operator begins with. -/
theorem operator_head {w : Bytes} (hw : IsWord w ∨ w ∈ symbols) : ∃ c l, w = c :: l ∧ ¬ IsDigit c ∧ c ≠ 0x28 ∧ c ≠ 0x22 ∧ ¬ IsSpace c ∧ (c = 0x2D → l = []) := by
  rcases hw with ⟨c, l, rfl, hc, _⟩ | hw
  · refine ⟨c, l, rfl, ?_⟩
    refine ⟨?_, ?_, ?_, ?_, ?_⟩
    · intro hd
      unfold IsDigit at hd
      rcases hc with hc | hc | rfl | rfl
      · omega
      · omega
      · revert hd; decide
      · revert hd; decide
    · rintro rfl
      revert hc
      unfold IsLetter
      decide
    · rintro rfl
      revert hc
      unfold IsLetter
      decide
    · rintro (rfl | rfl | rfl) <;>
      · revert hc
        unfold IsLetter
        decide
    · rintro rfl
      exact absurd hc (by unfold IsLetter; decide)
  · unfold symbols at hw
    simp only [List.mem_cons, List.not_mem_nil, or_false] at hw
    unfold IsDigit IsSpace
    rcases hw with rfl | rfl | rfl | rfl | rfl | rfl | rfl | rfl | rfl | rfl | rfl | rfl <;> exact ⟨_, _, rfl, by decide⟩

theorem operator_reads (hf : Finds rs rn rw) {w : Bytes} (hw : IsWord w ∨ w ∈ symbols) {s : Bytes} (hs : Ends s) :
    Yields Op N Li (d + 3) (.rule none (.rank (exprLines rs rn rw))) (w ++ s) (.ok (some ((LExpr.op w).ast, s))) := by
  have h2 := Yields.text (cb := some 3) (operator_text (f := f) (u := u) (N := N) (d := d) hf hw hs)
  have hv : called Op N (some 3) (.ok (some (.str w, s))) = .ok (some ((LExpr.op w).ast, s)) := rfl
  rw [hv] at h2
  obtain ⟨c, l, hcl, hdig, hpar, hquo, _, hmin⟩ := operator_head hw
  refine Yields.rank (cb := none) (r := .ok (some ((LExpr.op w).ast, s))) (.altMiss (list_miss ?_) (.altMiss (string_miss ?_) (.altMiss (number_miss hf.n ?_) (.altDone h2 (by simp)))))
  · rintro s' h
    rw [hcl] at h
    injection h with h _
    exact hpar h
  · rintro s' h
    rw [hcl] at h
    injection h with h _
    exact hquo h
  · rintro neg c' s' hc' h
    rw [hcl] at h
    cases neg
    · injection h with h _
      exact hdig (h ▸ hc')
    · injection h with h h'
      rw [hmin h] at h'
      rcases hs c' s' h' with (rfl | rfl | rfl) | rfl <;> exact absurd hc' (by unfold IsDigit; decide)

/-! ## Lists -/

/-- An expression does not begin with a blank. -/
theorem text_head : ∀ e : SExpr, e.Ok → ∃ c t, e.text = c :: t ∧ ¬ IsSpace c
  | .str w, _ => ⟨0x22, w ++ [0x22], by simp [SExpr.text], by unfold IsSpace; decide⟩
  | .num neg ds, h => by
    unfold SExpr.Ok at h
    obtain ⟨hne, hd⟩ := h
    have hx := fun c t => sign_head neg hne hd [] (c := c) (t := t)
    rw [List.append_nil] at hx
    match ht : sign neg ++ ds with
    | [] => simp at ht; exact absurd ht.2 hne
    | c :: t =>
      refine ⟨c, t, ht, ?_⟩
      rcases hx _ _ ht with rfl | h
      · unfold IsSpace; decide
      · rintro (rfl | rfl | rfl) <;> exact absurd h (by unfold IsDigit; decide)
  | .op w, h => by
    obtain ⟨c, l, hc, _, _, _, h, _⟩ := operator_head h
    exact ⟨c, l, hc, h⟩
  | .list l w, _ => ⟨0x28, l.text ++ w ++ [0x29], by simp [SExpr.text], by unfold IsSpace; decide⟩

theorem items_ends {l : SItems} (hl : l.Ok false) {w : Bytes} (hw : ∀ c ∈ w, IsSpace c) (s : Bytes) : Ends (l.text ++ (w ++ 0x29 :: s)) := by
  intro c s' h
  match l, hl with
  | .nil, _ =>
    match w, hw with
    | [], _ => injection h with h _; exact .inr h.symm
    | x :: w, hw => injection h with h _; exact .inl (h ▸ hw x (List.mem_cons_self ..))
  | .cons w' e l, hl =>
    unfold SItems.Ok at hl
    match w', hl with
    | [], hl => exact absurd rfl (hl.2.1 rfl)
    | x :: w', hl => injection h with h _; exact .inl (h ▸ hl.1 x (List.mem_cons_self ..))

theorem called_res (v : Option LExpr) (s : Bytes) : called Op N none (res v s) = res v s := by cases v <;> rfl

theorem close_none (s : Bytes) : NoneOf IsSpace (0x29 :: s) := by
  intro c s' h hc
  cases h
  exact absurd hc (by unfold IsSpace; decide)

theorem text_none {e : SExpr} (he : e.Ok) (s : Bytes) : NoneOf IsSpace (e.text ++ s) := by
  obtain ⟨c, t, h, hc⟩ := text_head e he
  intro c' s' h' hc'
  rw [h] at h'
  injection h' with h' _
  exact hc (h' ▸ hc')

mutual
theorem expr_reads (hf : Finds rs rn rw) : ∀ (e : SExpr), e.Ok → ∀ s, e.closed = true ∨ Ends s →
    Yields Op N Li (2 * e.nest + 4) (.rule none (.rank (exprLines rs rn rw))) (e.text ++ s) (res (e.val f) s)
  | .str w, h, s, hs => by
    unfold SExpr.Ok at h
    exact yields_upTo (string_reads (d := 0) hf h s) (by omega)
  | .num neg ds, h, s, hs => by
    unfold SExpr.Ok at h
    unfold SExpr.text SExpr.val
    exact yields_upTo (number_reads (d := 0) hf neg h.1 h.2 (hs.resolve_left (by simp [SExpr.closed]))) (by omega)
  | .op w, h, s, hs => by
    unfold SExpr.Ok at h
    exact yields_upTo (operator_reads (d := 0) hf h (hs.resolve_left (by simp [SExpr.closed]))) (by omega)
  | .list l w, h, s, hs => by
    unfold SExpr.Ok at h
    obtain ⟨hl, hw⟩ := h
    have key := items_first hf l hl w hw s
    unfold SExpr.nest SExpr.text SExpr.val
    have hfo : formOf [VP.lit "" [0x28], .name "" "_" true, .rep "" (.name "" "expr" false) (some (.name "" "__" true)) 0 none,
      .name "" "_" true, .lit "" [0x29]] = .single := by kernel_rfl
    have h1 : Yields Op N Li (2 * l.nest + 4) (.part false listE.vp) ([0x28] ++ l.text ++ w ++ [0x29] ++ s)
        (resAll [] (l.vals f) s) := by
      rw [list_vp]
      refine Yields.bare (.inr rfl) (.seq ?_)
      rw [hfo]
      have ht : [0x28] ++ l.text ++ w ++ [0x29] ++ s = [0x28] ++ (l.text ++ (w ++ 0x29 :: s)) := by simp
      rw [ht]
      refine .itemsPut (Yields.plit (b := [0x28])) rfl ?_
      obtain ⟨v, t, w'', hw'', hb, hr⟩ := key
      refine .itemsPut hb rfl ?_
      cases hv : l.vals f with
      | none =>
        rw [hv] at hr
        exact .itemsPanic (Yields.bare (.inr rfl) hr)
      | some es =>
        rw [hv] at hr
        obtain ⟨v', hb'⟩ := blanks (f := f) (u := u) (N := N) (d := 2 * l.nest + 2) (rs := rs) (rn := rn) (rw := rw) hw'' (close_none s) true
        refine .itemsPut (Yields.bare (.inr rfl) hr) rfl (.itemsPut hb' rfl (.itemsPut (Yields.plit (b := [0x29]) (s := s)) rfl (.itemsEnd rfl)))
    have h2 := Yields.text (cb := some 0) h1
    have hv : called Op N (some 0) (resAll [] (l.vals f) s) = res ((l.vals f).map .list) s := by
      cases l.vals f with
      | none => rfl
      | some es =>
        simp only [resAll, List.nil_append, called, lispOps, treePure, exprFromList, toExprs_asts]
        rfl
    rw [hv] at h2
    rw [← called_res (f := f) (u := u) (N := N)]
    have hd : 2 * (l.nest + 1) + 4 = 2 * l.nest + 4 + 1 + 1 := by omega
    rw [hd]
    exact Yields.rank (cb := none) (.altDone h2 (by cases l.vals f <;> simp [res]))
theorem items_first (hf : Finds rs rn rw) : ∀ (l : SItems), l.Ok true → ∀ w, (∀ c ∈ w, IsSpace c) → ∀ s, ∃ v t w'', (∀ c ∈ w'', IsSpace c) ∧
    Yields Op N Li (2 * l.nest + 4) (.part true (.name "" "_" true)) (l.text ++ (w ++ 0x29 :: s)) (.ok (some (v, t))) ∧
    Yields Op N Li (2 * l.nest + 4) (.core true (.rep "" (.name "" "expr" false) (some (.name "" "__" true)) 0 none)) t (resAll [] (l.vals f) (w'' ++ 0x29 :: s))
  | .nil, _, w, hw, s => by
    obtain ⟨v, h⟩ := blanks (f := f) (u := u) (N := N) (d := 2) (rs := rs) (rn := rn) (rw := rw) hw (close_none s) true
    exact ⟨v, _, [], by simp, h, .repMiss (mn := 0) (expr_end (d := 1) hf s)⟩
  | .cons w' e l, hl, w, hw, s => by
    unfold SItems.Ok at hl
    obtain ⟨hw', _, he, hl⟩ := hl
    have ht : (SItems.cons w' e l).text ++ (w ++ 0x29 :: s) = w' ++ (e.text ++ (l.text ++ (w ++ 0x29 :: s))) := by simp [SItems.text]
    obtain ⟨v, h⟩ := blanks (f := f) (u := u) (N := N) (d := 2 * (SItems.cons w' e l).nest + 2) (rs := rs) (rn := rn) (rw := rw) hw' (text_none he (l.text ++ (w ++ 0x29 :: s))) true
    rw [ht]
    refine ⟨v, _, w, hw, h, ?_⟩
    have h1 := yields_upTo (expr_reads hf e he _ (.inr (items_ends hl hw s))) (d' := 2 * (SItems.cons w' e l).nest + 4) (by simp only [SItems.nest]; omega)
    have h2 := Yields.call (h := false) (lab := "") (q := false) (.inr rfl) mem_expr h1
    unfold SItems.vals
    cases hv : e.val f with
    | none =>
      rw [hv] at h2
      exact .repPanic h2
    | some x =>
      rw [hv] at h2
      have h3 := yields_upTo (items_more hf l hl w hw s [x.ast]) (d' := 2 * (SItems.cons w' e l).nest + 4) (by simp only [SItems.nest]; omega)
      have h4 := Yields.rep (h := true) (lab := "") h2 h3
      cases hvl : l.vals f with
      | none => rw [hvl] at h4; exact h4
      | some es => rw [hvl] at h4; exact h4
theorem items_more (hf : Finds rs rn rw) : ∀ (l : SItems), l.Ok false → ∀ w, (∀ c ∈ w, IsSpace c) → ∀ s vs,
    Yields Op N Li (2 * l.nest + 4) (.more (.name "" "expr" false) (some (.name "" "__" true)) 0 none vs) (l.text ++ (w ++ 0x29 :: s))
      (resAll vs (l.vals f) (w ++ 0x29 :: s))
  | .nil, _, w, hw, s, vs => by
    have hr : resAll vs (SItems.nil.vals f) (w ++ 0x29 :: s) = vstop Op 0 vs (w ++ 0x29 :: s) := by
      simp [SItems.vals, resAll, LExpr.asts, vstop]
      rfl
    rw [hr]
    by_cases hne : w = []
    · subst hne
      exact .noSep Room.none (.sepSome (gap_miss (d := 2) (close_none s)))
    · obtain ⟨v, h⟩ := gap_hit (f := f) (u := u) (N := N) (d := 2) (rs := rs) (rn := rn) (rw := rw) hw hne (close_none s)
      exact .noMore Room.none (.sepSome h) (expr_end (d := 1) hf s)
  | .cons w' e l, hl, w, hw, s, vs => by
    unfold SItems.Ok at hl
    obtain ⟨hw', hne, he, hl⟩ := hl
    have ht : (SItems.cons w' e l).text ++ (w ++ 0x29 :: s) = w' ++ (e.text ++ (l.text ++ (w ++ 0x29 :: s))) := by simp [SItems.text]
    obtain ⟨v, h⟩ := gap_hit (f := f) (u := u) (N := N) (d := 2 * (SItems.cons w' e l).nest + 2) (rs := rs) (rn := rn) (rw := rw) hw' (hne rfl) (text_none he (l.text ++ (w ++ 0x29 :: s)))
    rw [ht]
    have h1 := yields_upTo (expr_reads hf e he _ (.inr (items_ends hl hw s))) (d' := 2 * (SItems.cons w' e l).nest + 4) (by simp only [SItems.nest]; omega)
    have h2 := Yields.call (h := false) (lab := "") (q := false) (.inr rfl) mem_expr h1
    unfold SItems.vals
    cases hv : e.val f with
    | none =>
      rw [hv] at h2
      exact .morePanic Room.none (.sepSome h) h2
    | some x =>
      rw [hv] at h2
      have h3 := yields_upTo (items_more hf l hl w hw s (vs ++ [x.ast])) (d' := 2 * (SItems.cons w' e l).nest + 4) (by simp only [SItems.nest]; omega)
      have h4 := Yields.more Room.none (.sepSome h) h2 h3
      cases hvl : l.vals f with
      | none => rw [hvl] at h4; exact h4
      | some es =>
        rw [hvl] at h4
        simpa [resAll, LExpr.asts] using h4
end

/-- The whole text, and what follows. -/
theorem top_reads (hf : Finds rs rn rw) (e : SExpr) (he : e.Ok) {w w' s : Bytes} (hw : ∀ c ∈ w, IsSpace c) (hw' : ∀ c ∈ w', IsSpace c)
    (hs : NoneOf IsSpace s) (hc : e.closed = true ∨ Ends (w' ++ s)) :
    Yields Op N Li (2 * e.nest + 5) (.lines Li) (w ++ e.text ++ w' ++ s) (res (e.val f) s) := by
  have hfo : formOf [VP.name "" "_" true, .name "" "expr" false, .name "" "_" true] = .single := by kernel_rfl
  obtain ⟨v, h⟩ := blanks (f := f) (u := u) (N := N) (d := 2 * e.nest + 2) (rs := rs) (rn := rn) (rw := rw) hw (text_none he (w' ++ s)) true
  have h1 := Yields.call (h := true) (lab := "") (q := false) (.inl rfl) mem_expr (expr_reads (f := f) (u := u) (N := N) hf e he _ hc)
  obtain ⟨v', h'⟩ := blanks (f := f) (u := u) (N := N) (d := 2 * e.nest + 2) (rs := rs) (rn := rn) (rw := rw) hw' hs true
  have h2 : Yields Op N Li (2 * e.nest + 4) (.part false topE.vp) (w ++ e.text ++ w' ++ s) (res (e.val f) s) := by
    rw [top_vp, List.append_assoc, List.append_assoc]
    refine Yields.bare (.inr rfl) (.seq ?_)
    rw [hfo]
    refine .itemsPut h rfl ?_
    cases hv : e.val f with
    | none => rw [hv] at h1; exact .itemsPanic h1
    | some x => rw [hv] at h1; exact .itemsPut h1 rfl (.itemsPut h' rfl (.itemsEnd rfl))
  have h3 := Yields.text (cb := none) h2
  rw [called_res] at h3
  exact .altDone h3 (by cases e.val f <;> simp [res])

/-- Elements of a list that are not separated. -/
theorem unseparated (hf : Finds rs rn rw) (e : SExpr) (he : e.Ok) (hc : e.closed = true) {x : LExpr} (hx : e.val f = some x) {w w' : Bytes} (hw : ∀ c ∈ w, IsSpace c)
    (hw' : ∀ c ∈ w', IsSpace c) {s : Bytes} (hs : NoneOf (fun c => IsSpace c ∨ c = 0x29) s) :
    Yields Op N Li (2 * e.nest + 7) (.lines Li) (w ++ 0x28 :: (w' ++ (e.text ++ s))) (.ok none) := by
  have hs' : NoneOf IsSpace s := fun c s' h hc => hs c s' h (.inl hc)
  have hcl : ∀ s', s ≠ [0x29] ++ s' := fun s' h => hs _ _ h (.inr rfl)
  have hfo : formOf [VP.name "" "_" true, .name "" "expr" false, .name "" "_" true] = .single := by kernel_rfl
  have hfo' : formOf [VP.lit "" [0x28], .name "" "_" true, .rep "" (.name "" "expr" false) (some (.name "" "__" true)) 0 none,
      .name "" "_" true, .lit "" [0x29]] = .single := by kernel_rfl
  obtain ⟨v, h⟩ := blanks (f := f) (u := u) (N := N) (d := 2 * e.nest + 4) (rs := rs) (rn := rn) (rw := rw) hw (s := 0x28 :: (w' ++ (e.text ++ s)))
    (by intro c s' h hc; cases h; exact absurd hc (by unfold IsSpace; decide)) true
  obtain ⟨v1, hb⟩ := blanks (f := f) (u := u) (N := N) (d := 2 * e.nest + 2) (rs := rs) (rn := rn) (rw := rw) hw' (text_none he s) true
  obtain ⟨v2, hb'⟩ := blanks (f := f) (u := u) (N := N) (d := 2 * e.nest + 2) (rs := rs) (rn := rn) (rw := rw) (w := []) (by simp) hs' true
  have h1 := expr_reads (f := f) (u := u) (N := N) hf e he s (.inl hc)
  rw [hx] at h1
  have h2 := Yields.call (h := false) (lab := "") (q := false) (.inr rfl) mem_expr h1
  have hm : Yields Op N Li (2 * e.nest + 4) (.more (.name "" "expr" false) (some (.name "" "__" true)) 0 none [x.ast]) s (.ok (some (.arr [x.ast], s))) :=
    .noSep Room.none (.sepSome (gap_miss (d := 2 * e.nest + 2) hs'))
  have hl : Yields Op N Li (2 * e.nest + 5) (.rule (some 0) (.text listE)) (0x28 :: (w' ++ (e.text ++ s))) (.ok none) := by
    refine Yields.rtext (cb := some 0) (r := .ok none) list_vp (Yields.bare (.inr rfl) (.seq ?_))
    rw [hfo']
    refine .itemsPut (Yields.plit (b := [0x28])) rfl (.itemsPut hb rfl (.itemsPut (v := .arr [x.ast]) (s' := s) (Yields.bare (.inr rfl) (.rep h2 hm)) rfl ?_))
    exact .itemsPut hb' rfl (.itemsMiss (Yields.plitMiss hcl))
  have hr : Yields Op N Li (2 * e.nest + 6) (.part true (.name "" "expr" false)) (0x28 :: (w' ++ (e.text ++ s))) (.ok none) := by
    refine Yields.call (.inl rfl) mem_expr (Yields.rank (cb := none) (r := .ok none) (.altMiss hl (.altMiss (string_miss ?_) (.altMiss (number_miss hf.n ?_) (.altMiss ?_ (.incl .linesEnd))))))
    · intro s' h; injection h with h _; exact absurd h (by decide)
    · intro neg c s' hc h
      cases neg
      · injection h with h _
        subst h
        exact absurd hc (by unfold IsDigit; decide)
      · injection h with h _
        exact absurd h (by decide)
    · refine Yields.rtext (cb := some 3) (r := .ok none) operator_vp (Yields.bare (.inr rfl) (.alt (.altsMiss (word_miss hf.w ?_) ?_)))
      · intro c s' h hc
        cases h
        exact absurd hc (by unfold IsLetter; decide)
      · simpa [symbols, List.find?_cons] using alts_pick (N := N) (d := 2 * e.nest + 4) (Q := Op) (L' := Li) (0x28 :: (w' ++ (e.text ++ s))) symbols
  refine .altMiss (Yields.rtext (cb := none) (r := .ok none) top_vp (Yields.bare (.inr rfl) (.seq ?_))) ?_
  · rw [hfo]
    exact .itemsPut h rfl (.itemsMiss hr)
  · exact .incl (.incl (.incl (.incl (.incl (.incl .linesEnd)))))

/-! ## Lines -/

theorem trimNewline_line (s : Bytes) : trimNewline (s ++ [0x0A]) = s := by simp [trimNewline]

theorem dropSpaces {a s : Bytes} (ha : ∀ c ∈ a, c = 0x20) (hs : ∀ c s', s = c :: s' → c ≠ 0x20) : (a ++ s).dropWhile (· == 0x20) = s := by
  induction a with
  | nil =>
    match s, hs with
    | [], _ => rfl
    | c :: s, hs => simp [List.dropWhile_cons, hs c s rfl]
  | cons c a ih =>
    rw [List.cons_append, List.dropWhile_cons, ha c (List.mem_cons_self ..)]
    exact ih fun c hc => ha c (List.mem_cons_of_mem _ hc)

theorem trimSpaces_of {a s b : Bytes} (ha : ∀ c ∈ a, c = 0x20) (hb : ∀ c ∈ b, c = 0x20) (hs : ∀ c s', s = c :: s' → c ≠ 0x20) (he : ∀ c, s.getLast? = some c → c ≠ 0x20) (hne : s ≠ []) :
    trimSpaces (a ++ s ++ b) = s := by
  unfold trimSpaces
  rw [List.append_assoc, dropSpaces ha, List.reverse_append, dropSpaces (a := b.reverse), List.reverse_reverse]
  · simpa using hb
  · intro c s' h
    refine he c ?_
    rw [← List.head?_reverse, h]
    rfl
  · intro c s' h
    match s, hne with
    | x :: s, _ =>
      injection h with h h'
      exact hs c s (by rw [h])

/-- An expression does not end with a blank. -/
theorem text_last : ∀ e : SExpr, e.Ok → ∃ c, e.text.getLast? = some c ∧ ¬ IsSpace c
  | .str w, _ => ⟨0x22, by rw [SExpr.text, List.getLast?_append]; rfl, by unfold IsSpace; decide⟩
  | .num neg ds, h => by
    unfold SExpr.Ok at h
    obtain ⟨hne, hd⟩ := h
    refine ⟨ds.getLast hne, by simp [SExpr.text, List.getLast?_append, List.getLast?_eq_some_getLast hne], ?_⟩
    have := hd _ (List.getLast_mem hne)
    intro hs
    unfold IsDigit at this
    rcases hs with h | h | h <;> rw [h] at this <;> revert this <;> decide
  | .op w, h => by
    unfold SExpr.Ok at h
    rcases h with ⟨c, l, rfl, hc, hl⟩ | h
    · have hm : ∀ x ∈ c :: l, IsLater x := by
        intro x hx
        rcases List.mem_cons.mp hx with rfl | hx
        · exact .inl hc
        · exact hl x hx
      refine ⟨(c :: l).getLast (by simp), by rw [SExpr.text, List.getLast?_eq_some_getLast (by simp)], ?_⟩
      have := hm _ (List.getLast_mem (l := c :: l) (by simp))
      intro hs
      unfold IsLater IsLetter IsDigit at this
      rcases hs with h | h | h <;> rw [h] at this <;> revert this <;> decide
    · unfold symbols at h
      simp only [List.mem_cons, List.not_mem_nil, or_false] at h
      unfold IsSpace
      rcases h with rfl | rfl | rfl | rfl | rfl | rfl | rfl | rfl | rfl | rfl | rfl | rfl <;> exact ⟨_, rfl, by decide⟩
  | .list l w, _ => ⟨0x29, by rw [SExpr.text, List.getLast?_append]; rfl, by unfold IsSpace; decide⟩

theorem items_last : ∀ (l : SItems) (b : Bool), l.Ok b → l ≠ .nil → ∃ c, l.text.getLast? = some c ∧ ¬ IsSpace c
  | .nil, _, _, h => absurd rfl h
  | .cons w e .nil, _, hl, _ => by
    unfold SItems.Ok at hl
    obtain ⟨c, hc, hs⟩ := text_last e hl.2.2.1
    exact ⟨c, by simp [SItems.text, List.getLast?_append, hc], hs⟩
  | .cons w e (.cons w' e' l), b, hl, _ => by
    unfold SItems.Ok at hl
    obtain ⟨c, hc, hs⟩ := items_last (.cons w' e' l) false hl.2.2.2 (by simp)
    exact ⟨c, by rw [SItems.text, List.getLast?_append, hc]; rfl, hs⟩

/-- Is it a list? -/
theorem text_list : ∀ e : SExpr, e.Ok → (∀ l w, e ≠ .list l w) → ∀ s, (e.text ++ s).head? ≠ some 0x28
  | .str w, _, _, s => by simp [SExpr.text]
  | .num neg ds, h, _, s => by
    unfold SExpr.Ok at h
    have hx := fun c t => sign_head neg h.1 h.2 s (c := c) (t := t)
    unfold SExpr.text
    match ht : sign neg ++ ds ++ s with
    | [] => simp
    | c :: t =>
      intro hc
      injection hc with hc
      subst hc
      rcases hx _ _ ht with h | h <;> revert h
      · decide
      · unfold IsDigit; decide
  | .op w, h, _, s => by
    obtain ⟨c, l, rfl, _, hc, _⟩ := operator_head h
    intro h
    injection h with h
    exact hc h
  | .list l w, _, h, _ => absurd rfl (h l w)

theorem line_reads {a b : Bytes} (ha : ∀ c ∈ a, c = 0x20) (hb : ∀ c ∈ b, c = 0x20) (e : SExpr) (l : SItems) (hl : (SItems.cons [] e l).Ok true) :
    replLine (a ++ (SItems.cons [] e l).text ++ b ++ [0x0A]) =
      if (SItems.cons [] e l).text.head? = some 0x28 then (SItems.cons [] e l).text else (SExpr.list (.cons [] e l) []).text := by
  obtain ⟨c, hc, hs⟩ := items_last _ _ hl (by simp)
  have he : e.Ok := by unfold SItems.Ok at hl; exact hl.2.2.1
  have ht : trimSpaces (a ++ (SItems.cons [] e l).text ++ b) = (SItems.cons [] e l).text := by
    refine trimSpaces_of ha hb ?_ ?_ ?_
    · intro c s' h hc
      have := text_none he l.text
      rw [SItems.text, List.nil_append] at h
      exact this c s' h (.inl hc)
    · intro c' h h'
      rw [hc] at h
      cases h
      exact hs (.inl h')
    · intro h
      rw [h] at hc
      cases hc
  unfold replLine
  rw [trimNewline_line]
  dsimp only
  rw [ht]
  by_cases h : (SItems.cons [] e l).text.head? = some 0x28
  · rw [if_pos h, if_pos h]
  · rw [if_neg h, if_neg h]
    simp [SExpr.text]

end Joeson.Lisp
