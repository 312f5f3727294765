import Verif.Proofs.NativeText
/-!
# C95: results compared by their printed form
-/

namespace Joeson
open Spec

theorem intercalate_cons2 (sep a b : Bytes) (l : List Bytes) : sep.intercalate (a :: b :: l) = a ++ sep ++ sep.intercalate (b :: l) := by
  simp [List.intercalate, List.intersperse]

mutual
theorem printed (u : UserString) : ∀ {v : Ast} {s : Bytes}, Prints v s → v.string u = s
  | .undef, _, .undef => by rw [Ast.string]
  | .str _, _, .str => by rw [Ast.string]
  | .int _, _, .int h => by rw [Ast.string, h]
  | .arr _, _, .arr h => by rw [Ast.string, (printedAll u h).1]
  | .map _, _, .map h => by rw [Ast.string, (printedKvs u h).1]
  | .error _, _, .error => by rw [Ast.string]
theorem printedAll (u : UserString) : ∀ {l : List Ast} {ts : List Bytes}, PrintsAll l ts →
    Ast.stringList u true l = (asc ",").intercalate ts ∧ Ast.stringList u false l = ts.flatMap (asc "," ++ ·)
  | [], _, .nil => by rw [Ast.stringList, Ast.stringList]; exact ⟨rfl, rfl⟩
  | v :: l, _, .cons (s := s) (ts := ts) h h' => by
    obtain ⟨e1, e2⟩ := printedAll u h'
    rw [Ast.stringList, Ast.stringList, printed u h, e2]
    refine ⟨?_, by simp⟩
    rw [if_pos rfl, List.nil_append]
    clear e1 e2 h h'
    induction ts generalizing s with
    | nil => simp [List.intercalate]
    | cons t ts ih => rw [intercalate_cons2, ← ih, List.flatMap_cons]; simp
theorem printedKvs (u : UserString) : ∀ {l : List (String × Ast)} {ts : List Bytes}, PrintsKvs l ts →
    Ast.stringKvs u true l = (asc ", ").intercalate ts ∧ Ast.stringKvs u false l = ts.flatMap (asc ", " ++ ·)
  | [], _, .nil => by rw [Ast.stringKvs, Ast.stringKvs]; exact ⟨rfl, rfl⟩
  | (k, v) :: l, _, .cons (s := s) (ts := ts) h h' => by
    obtain ⟨e1, e2⟩ := printedKvs u h'
    rw [Ast.stringKvs, Ast.stringKvs, printed u h, e2]
    refine ⟨?_, by simp⟩
    rw [if_pos rfl, List.nil_append]
    clear e1 e2 h h'
    generalize keyBytes k ++ asc ":" ++ s = s
    induction ts generalizing s with
    | nil => simp [List.intercalate]
    | cons t ts ih => rw [intercalate_cons2, ← ih, List.flatMap_cons]; simp
end

/-- C95: native values are printed as `Prints` says: elements between brackets with commas, entries of maps with their key, in order. -/
theorem C95_printed (u : UserString) {v : Ast} {s : Bytes} (h : Prints v s) : v.string u = s := printed u h

example (u : UserString) : (Ast.map [("op", .str (asc "+")), ("args", .arr [.int (-1), .undef, .arr []])]).string u =
    asc "NativeMap{op:+, args:[-1,<NativeUndefined>,[]]}" := by
  refine (C95_printed u (.map (.cons .str (.cons (.arr (.cons (.int rfl) (.cons .undef (.cons (.arr .nil) .nil)))) .nil)))).trans ?_
  decide +kernel

/-- C95: values that are printed alike are the same, at any depth. Partial: no string is empty, is a number or contains one of the signs
`[ ] , { } : < >`, no key contains such a sign; and native values only, since users say how their values are printed. -/
theorem C95_compare_partial (u : UserString) (v v' : Ast) (h : Readable v) (h' : Readable v') (e : v.string u = v'.string u) : v = v' :=
  (value_inj u v v' [] [] h h' (fun x hx => by cases hx) (fun x hx => by cases hx) (by rw [e])).1

/-- the hypotheses, of which the last does not hold: nested differently -/
example (u : UserString) : (Ast.arr [.str (asc "a"), .map [("k", .arr [.str (asc "b"), .int 12])]]).string u ≠
    (Ast.arr [.str (asc "a"), .map [("k", .arr [.str (asc "b")]), ("l", .int 12)]]).string u := by
  have nn : ∀ (c : UInt8) (n : Int), c = 0x61 ∨ c = 0x62 → ¬ Numeral [c] n := by
    intro c n hc ⟨sign, ds, h1, h2, h3, _⟩
    cases ds with
    | nil => exact h1 rfl
    | cons d ds =>
      have hm : digitByte d ∈ [c] := by rw [h3]; exact List.mem_append_right _ List.mem_cons_self
      have hd : d < 10 := h2 d List.mem_cons_self
      have k : ∀ d : Fin 10, digitByte d.val ≠ 0x61 ∧ digitByte d.val ≠ 0x62 := by decide
      have := k ⟨d, hd⟩
      rw [List.mem_singleton] at hm
      rcases hc with rfl | rfl
      · exact this.1 hm
      · exact this.2 hm
  have ra : Readable (.str (asc "a")) := by
    rw [Readable]; exact ⟨by decide, by unfold NoSigns; decide, fun n => nn 0x61 n (.inl rfl)⟩
  have rb : Readable (.str (asc "b")) := by
    rw [Readable]; exact ⟨by decide, by unfold NoSigns; decide, fun n => nn 0x62 n (.inr rfl)⟩
  have ri : Readable (.int 12) := by rw [Readable]; unfold Fits; decide
  have kk : NoSigns (keyBytes "k") := by unfold NoSigns; decide
  have kl : NoSigns (keyBytes "l") := by unfold NoSigns; decide
  intro e
  have := C95_compare_partial u _ _ (by simp only [Readable, ReadableList, ReadableKvs]; simp only [Readable] at ra rb ri; exact ⟨ra, ⟨kk, ⟨rb, ri, trivial⟩, trivial⟩, trivial⟩)
    (by simp only [Readable, ReadableList, ReadableKvs]; simp only [Readable] at ra rb ri; exact ⟨ra, ⟨kk, ⟨rb, trivial⟩, kl, ri, trivial⟩, trivial⟩) e
  simp at this

/-- C95 is false in general. A string that is printed like another value cannot be told from that value: an integer and the string of its digits; an
array with any text and an array with that text cut at a comma; an array without elements and an array with an empty string. -/
theorem C95_ambiguous (u : UserString) (n : Int) (s t : Bytes) :
    (Ast.int n).string u = (Ast.str (itoa n)).string u ∧
    (Ast.arr [.str (s ++ asc "," ++ t)]).string u = (Ast.arr [.str s, .str t]).string u ∧
    (Ast.arr []).string u = (Ast.arr [.str []]).string u := by
  refine ⟨by rw [Ast.string, Ast.string], ?_, ?_⟩
  · rw [Ast.string, Ast.string]
    simp [Ast.stringList, Ast.string]
  · rw [Ast.string, Ast.string]
    simp [Ast.stringList, Ast.string]

end Joeson
