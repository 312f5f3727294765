import Verif.Proofs.LineText
/-!
# Rows can be read back
-/

namespace Joeson
open Spec

theorem split_at {c : UInt8} : ∀ {a a' b b' : Bytes}, c ∉ a → c ∉ a' → a ++ c :: b = a' ++ c :: b' → a = a' ∧ b = b'
  | [], [], _, _, _, _, h => ⟨rfl, by injection h⟩
  | [], x :: a', _, _, _, h', h => by
    have e : c = x := by injection h
    exact absurd (e ▸ List.mem_cons_self) h'
  | x :: a, [], _, _, h', _, h => by
    have e : x = c := by injection h
    exact absurd (e ▸ List.mem_cons_self) h'
  | x :: a, y :: a', _, _, h1, h2, h => by
    have e : x = y := by injection h
    have e' := split_at (fun hm => h1 (List.mem_cons_of_mem _ hm)) (fun hm => h2 (List.mem_cons_of_mem _ hm)) (by injection h)
    exact ⟨by rw [e, e'.1], e'.2⟩

theorem unlines_inj : ∀ {a b : List Bytes}, (∀ r ∈ a, (0x0A : UInt8) ∉ r) → (∀ r ∈ b, (0x0A : UInt8) ∉ r) → unlines a = unlines b → a = b
  | [], [], _, _, _ => rfl
  | [], r :: b, _, _, h => by simp [unlines] at h
  | r :: a, [], _, _, h => by simp [unlines] at h
  | r :: a, r' :: b, ha, hb, h => by
    have h : r ++ 0x0A :: unlines a = r' ++ 0x0A :: unlines b := by simpa [unlines] using h
    have e := split_at (ha _ List.mem_cons_self) (hb _ List.mem_cons_self) h
    rw [e.1, unlines_inj (fun x hx => ha x (List.mem_cons_of_mem _ hx)) (fun x hx => hb x (List.mem_cons_of_mem _ hx)) e.2]

theorem onOneLine_id {t : Bytes} (h : (0x0A : UInt8) ∉ t) : onOneLine t = t := by
  induction t with
  | nil => rfl
  | cons b t ih =>
    unfold onOneLine at ih ⊢
    rw [List.flatMap_cons, ih (fun hm => h (List.mem_cons_of_mem _ hm)), if_neg (fun (e : b = 0x0A) => h (by rw [e]; exact List.mem_cons_self))]
    rfl

theorem headOf_inj {incl incl' : Bool} {name name' : String} {b b' : Bytes} (h : (0x20 : UInt8) ∉ asc name) (h' : (0x20 : UInt8) ∉ asc name')
    (e : headOf incl name ++ b = headOf incl' name' ++ b') : incl = incl' ∧ asc name = asc name' ∧ b = b' := by
  have k : ∀ (incl : Bool) (name : String) (b : Bytes),
      headOf incl name ++ b = (if incl then 0x69 else 0x6F) :: 0x20 :: (asc name ++ 0x20 :: b) := by
    intro incl name b
    have e1 : asc "i " = [0x69, 0x20] := by decide
    have e2 : asc "o " = [0x6F, 0x20] := by decide
    have e3 : asc " " = [0x20] := by decide
    cases incl <;> simp [headOf, e1, e2, e3]
  rw [k, k] at e
  have e1 : (if incl then (0x69 : UInt8) else 0x6F) = if incl' then 0x69 else 0x6F := by injection e
  have e2 : asc name ++ 0x20 :: b = asc name' ++ 0x20 :: b' := by
    injection e with _ e; injection e
  have e3 := split_at h h' e2
  refine ⟨?_, e3⟩
  cases incl <;> cases incl' <;> first | rfl | exact absurd e1 (by decide)

theorem markOf_inj {opts opts' : List LineOpt} (h : markOf opts = markOf opts') : hasCallback opts = hasCallback opts' := by
  unfold markOf at h
  cases h1 : hasCallback opts <;> cases h2 : hasCallback opts' <;> rw [h1, h2] at h <;> first | rfl | exact absurd h (by decide)

theorem text_mark_inj {t t' : Bytes} {opts opts' : List LineOpt} (h : ¬ [0x20, 0xF0, 0x9D, 0x98, 0xA7] <:+ t)
    (h' : ¬ [0x20, 0xF0, 0x9D, 0x98, 0xA7] <:+ t') (e : t ++ markOf opts = t' ++ markOf opts') : t = t' ∧ hasCallback opts = hasCallback opts' := by
  unfold markOf at e
  cases h1 : hasCallback opts <;> cases h2 : hasCallback opts' <;> simp only [h1, h2, Bool.false_eq_true, if_false, if_true, List.append_nil] at e
  · exact ⟨e, rfl⟩
  · exact absurd ⟨t', e.symm⟩ h
  · exact absurd ⟨t, e⟩ h'
  · exact ⟨List.append_cancel_right e, rfl⟩

/-- A text is not taken for the beginning of a group. -/
theorem text_ne_bracket {t : Bytes} {name : String} {opts : List LineOpt} (h : t ≠ asc "[") :
    (if name = "" then [] else asc "o ") ++ t ++ markOf opts ≠ asc "[" := by
  have e0 : asc "[" = [0x5B] := by decide
  rw [e0] at h ⊢
  intro e
  split at e
  · rw [List.nil_append] at e
    unfold markOf at e
    split at e
    · have := congrArg List.length e
      simp at this
    · exact h (by rwa [List.append_nil] at e)
  · have := congrArg List.head? e
    exact absurd this (by
      show some (0x6F : UInt8) ≠ some 0x5B
      decide)

/-- The row that ends a group is no row of a rule one level deeper. -/
theorem end_ne {n : Nat} {incl : Bool} {name : String} {b m : Bytes} : blanks (n + 1) ++ (headOf incl name ++ b) ≠ blanks n ++ (asc "]" ++ m) := by
  intro e
  have e1 : blanks (n + 1) = blanks n ++ [0x20, 0x20] := by
    unfold blanks
    rw [Nat.mul_succ]
    exact (List.replicate_append_replicate (n := 2 * n) (m := 2) (a := (0x20 : UInt8))).symm
  rw [e1, List.append_assoc] at e
  have e2 := List.append_cancel_left e
  have e3 := congrArg List.head? e2
  exact absurd e3 (by
    show some (0x20 : UInt8) ≠ some 0x5D
    decide)

/-- The first row of a rule. -/
theorem rows_first (n : Nat) (w : Written) : ∃ incl name b rs, w.rows n = (blanks n ++ (headOf incl name ++ b)) :: rs := by
  cases w with
  | text incl name t opts =>
    exact ⟨incl, name, (if name = "" then [] else asc "o ") ++ onOneLine t ++ markOf opts, [], by rw [Written.rows]; simp only [List.append_assoc]⟩
  | group incl name rules opts =>
    exact ⟨incl, name, asc "[", Written.rowsAll (n + 1) rules ++ [blanks n ++ asc "]" ++ markOf opts], by
      rw [Written.rows]; simp only [List.append_assoc, List.cons_append, List.nil_append]⟩

mutual
theorem rows_inj : ∀ (w w' : Written) (n : Nat) (r r' : List Bytes), w.Clean → w'.Clean → w.rows n ++ r = w'.rows n ++ r' → w.Same w' ∧ r = r'
  | .text incl name t opts, .text incl' name' t' opts', n, r, r', h, h', e => by
    simp only [Written.Clean] at h h'
    rw [Written.rows, Written.rows, onOneLine_id h.2.2.1, onOneLine_id h'.2.2.1] at e
    simp only [List.append_assoc, List.cons_append, List.nil_append, List.cons.injEq] at e
    obtain ⟨e1, e2⟩ := e
    obtain ⟨rfl, e3, e4⟩ := headOf_inj h.1 h'.1 (List.append_cancel_left e1)
    have hn : name = "" ↔ name' = "" := by
      have k : ∀ s : String, s = "" ↔ asc s = [] := by
        intro s; constructor
        · rintro rfl; rfl
        · intro hs; exact String.ext (by simpa [asc] using hs)
      rw [k, k, e3]
    have e5 : t ++ markOf opts = t' ++ markOf opts' := by
      by_cases hn' : name = ""
      · rwa [if_pos hn', if_pos (hn.mp hn'), List.nil_append, List.nil_append] at e4
      · rw [if_neg hn', if_neg (fun x => hn' (hn.mpr x))] at e4
        exact List.append_cancel_left e4
    obtain ⟨rfl, e6⟩ := text_mark_inj h.2.2.2.2 h'.2.2.2.2 e5
    exact ⟨.text e3 e6, e2⟩
  | .text incl name t opts, .group incl' name' rules' opts', n, r, r', h, h', e => by
    simp only [Written.Clean] at h h'
    rw [Written.rows, Written.rows, onOneLine_id h.2.2.1] at e
    simp only [List.append_assoc, List.cons_append, List.nil_append, List.cons.injEq] at e
    obtain ⟨-, -, e4⟩ := headOf_inj h.1 h'.1 (List.append_cancel_left e.1)
    rw [← List.append_assoc] at e4
    exact absurd e4 (text_ne_bracket h.2.2.2.1)
  | .group incl name rules opts, .text incl' name' t' opts', n, r, r', h, h', e => by
    simp only [Written.Clean] at h h'
    rw [Written.rows, Written.rows, onOneLine_id h'.2.2.1] at e
    simp only [List.append_assoc, List.cons_append, List.nil_append, List.cons.injEq] at e
    obtain ⟨-, -, e4⟩ := headOf_inj h.1 h'.1 (List.append_cancel_left e.1)
    rw [← List.append_assoc] at e4
    exact absurd e4.symm (text_ne_bracket h'.2.2.2.1)
  | .group incl name rules opts, .group incl' name' rules' opts', n, r, r', h, h', e => by
    simp only [Written.Clean] at h h'
    rw [Written.rows, Written.rows] at e
    simp only [List.append_assoc, List.cons_append, List.nil_append, List.cons.injEq] at e
    obtain ⟨rfl, e3, -⟩ := headOf_inj h.1 h'.1 (List.append_cancel_left e.1)
    obtain ⟨h1, h2, h3⟩ := rowsAll_inj rules rules' n (markOf opts) (markOf opts') r r' h.2.2 h'.2.2 e.2
    exact ⟨.group e3 (markOf_inj h2) h1, h3⟩
theorem rowsAll_inj : ∀ (ws ws' : List Written) (n : Nat) (m m' : Bytes) (r r' : List Bytes), Written.AllClean ws → Written.AllClean ws' →
    Written.rowsAll (n + 1) ws ++ (blanks n ++ (asc "]" ++ m)) :: r = Written.rowsAll (n + 1) ws' ++ (blanks n ++ (asc "]" ++ m')) :: r' →
    Written.AllSame ws ws' ∧ m = m' ∧ r = r'
  | [], [], n, m, m', r, r', _, _, e => by
    simp only [Written.rowsAll, List.nil_append, List.cons.injEq] at e
    exact ⟨.nil, List.append_cancel_left (List.append_cancel_left e.1), e.2⟩
  | [], w :: ws, n, m, m', r, r', _, _, e => by
    obtain ⟨incl, name, b, rs, hr⟩ := rows_first (n + 1) w
    rw [Written.rowsAll, Written.rowsAll, hr] at e
    simp only [List.nil_append, List.cons_append, List.cons.injEq] at e
    exact absurd e.1.symm end_ne
  | w :: ws, [], n, m, m', r, r', _, _, e => by
    obtain ⟨incl, name, b, rs, hr⟩ := rows_first (n + 1) w
    rw [Written.rowsAll, Written.rowsAll, hr] at e
    simp only [List.nil_append, List.cons_append, List.cons.injEq] at e
    exact absurd e.1 end_ne
  | w :: ws, w' :: ws', n, m, m', r, r', h, h', e => by
    rw [Written.AllClean] at h h'
    rw [Written.rowsAll, Written.rowsAll, List.append_assoc, List.append_assoc] at e
    obtain ⟨h1, h2⟩ := rows_inj w w' (n + 1) _ _ h.1 h'.1 e
    obtain ⟨h3, h4⟩ := rowsAll_inj ws ws' n m m' r r' h.2 h'.2 h2
    exact ⟨.cons h1 h3, h4⟩
end

mutual
theorem rows_no_newline : ∀ (w : Written) (n : Nat), w.Clean → ∀ r ∈ w.rows n, (0x0A : UInt8) ∉ r
  | .text incl name t opts, n, h, r, hr => by
    rw [Written.Clean] at h
    rw [Written.rows, onOneLine_id h.2.2.1, List.mem_singleton] at hr
    subst hr
    have hb : (0x0A : UInt8) ∉ blanks n := fun hm => absurd (List.eq_of_mem_replicate hm) (by decide)
    have hm : (0x0A : UInt8) ∉ markOf opts := by unfold markOf; split <;> decide
    have hh : (0x0A : UInt8) ∉ headOf incl name := by
      intro hm
      unfold headOf at hm
      rcases List.mem_append.mp hm with hm | hm
      · rcases List.mem_append.mp hm with hm | hm
        · cases incl <;> exact absurd hm (by decide)
        · exact h.2.1 hm
      · exact absurd hm (by decide)
    have ho : (0x0A : UInt8) ∉ (if name = "" then [] else asc "o ") := by split <;> decide
    simp only [List.mem_append, hb, hm, hh, ho, h.2.2.1, or_self, not_false_eq_true]
  | .group incl name rules opts, n, h, r, hr => by
    rw [Written.Clean] at h
    have hb : (0x0A : UInt8) ∉ blanks n := fun hm => absurd (List.eq_of_mem_replicate hm) (by decide)
    have hm : (0x0A : UInt8) ∉ markOf opts := by unfold markOf; split <;> decide
    have hh : (0x0A : UInt8) ∉ headOf incl name := by
      intro hm
      unfold headOf at hm
      rcases List.mem_append.mp hm with hm | hm
      · rcases List.mem_append.mp hm with hm | hm
        · cases incl <;> exact absurd hm (by decide)
        · exact h.2.1 hm
      · exact absurd hm (by decide)
    have h1 : (0x0A : UInt8) ∉ asc "[" := by decide
    have h2 : (0x0A : UInt8) ∉ asc "]" := by decide
    rw [Written.rows] at hr
    rcases List.mem_append.mp hr with hr | hr
    · rcases List.mem_append.mp hr with hr | hr
      · rw [List.mem_singleton] at hr
        subst hr
        simp only [List.mem_append, hb, hh, h1, or_self, not_false_eq_true]
      · exact rowsAll_no_newline rules (n + 1) h.2.2 r hr
    · rw [List.mem_singleton] at hr
      subst hr
      simp only [List.mem_append, hb, hm, h2, or_self, not_false_eq_true]
theorem rowsAll_no_newline : ∀ (ws : List Written) (n : Nat), Written.AllClean ws → ∀ r ∈ Written.rowsAll n ws, (0x0A : UInt8) ∉ r
  | [], n, _, r, hr => by rw [Written.rowsAll] at hr; cases hr
  | w :: ws, n, h, r, hr => by
    rw [Written.AllClean] at h
    rw [Written.rowsAll] at hr
    rcases List.mem_append.mp hr with hr | hr
    · exact rows_no_newline w n h.1 r hr
    · exact rowsAll_no_newline ws n h.2 r hr
end

end Joeson
