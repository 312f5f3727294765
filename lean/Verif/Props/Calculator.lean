import Verif.Proofs.Calculator4
import Verif.Props.Values2
/-!
# C59: the calculator of examples/calculator
-/

namespace Joeson
open RuleText Arith Calc

theorem calc_names (reB reI : Regex) : GoodNames (calcRules reB reI) := by
  refine goodNames_of rfl ?_ ?_
  · show (["Expr", "Term", "Factor", "AddOp", "MulOp", "_", "Integer"] : List String).Nodup
    decide
  · intro d hd
    have : d.1 ∈ (["Expr", "Term", "Factor", "AddOp", "MulOp", "_", "Integer"] : List String) := by
      have := List.mem_map_of_mem (f := (·.1)) hd
      exact this
    revert this
    generalize d.1 = x
    intro hx
    simp only [List.mem_cons, List.not_mem_nil, or_false] at hx
    rcases hx with rfl | rfl | rfl | rfl | rfl | rfl | rfl <;> decide

theorem calc_texts {rx : Bytes → Option Regex} {reB reI : Regex} (hB : rx (asc "[ \\t]") = some reB) (hI : rx (asc "^-?[0-9]+") = some reI) :
    AllLines (TextOk rx (calcRules reB reI)) (calcRules reB reI) := by
  refine textsOk_rx (by kernel_rfl) ?_
  simp only [calcRules, AllLines, GLine.All, Body.All, calcExpr, calcTerm, calcFactor, calcEither, calcTail, calcBlank, calcInteger,
    Expr.RxOk, Units.RxOk, Alts.RxOk, Deco.RxOk, Prim.RxOk, and_true, true_and]
  exact ⟨hB, hI⟩

/-- The texts are those of calculator_test.go:24-34. -/
example (reB reI : Regex) : calcExpr.text = asc "_ first:Term rest:( _ AddOp _ Term )* _" ∧ calcTerm.text = asc "first:Factor rest:( _ MulOp _ Factor )*" ∧
    calcFactor.text = asc "'(' Expr ')' | Integer" ∧ (calcEither 0x2B 0x2D).text = asc "'+' | '-'" ∧ (calcEither 0x2A 0x2F).text = asc "'*' | '/'" ∧
    (calcBlank reB).text = asc "[ \\t]*" ∧ (calcInteger reI).text = asc "/^-?[0-9]+/" :=
  ⟨by kernel_rfl, by kernel_rfl, by kernel_rfl, by kernel_rfl, by kernel_rfl, by kernel_rfl, by kernel_rfl⟩

/-- C59: the calculator calculates. The grammar of calculator_test.go, built with the library's compiler of rule texts, gives the text
of an expression the value of the expression: products before sums, both from left to right, parentheses first, any blanks
between. If there is no value, because an integer does not fit in 64 bits or something is divided by zero, `ParseString`
panics. Parentheses are nested at most 340 deep. -/
theorem C59_calculates (rx : Bytes → Option Regex) (reB reI : Regex) (hrxB : rx (asc "[ \\t]") = some reB) (hrxI : rx (asc "^-?[0-9]+") = some reI)
    (hB : FindsBlank reB) (hI : FindsInt reI) :
    ∃ lines m0, linesOf (calcRules reB reI) = .ok lines ∧ joesonMade = .ok m0 ∧ ∃ k0, ∀ k, k0 ≤ k →
      ∃ m, grammarFromLines (compileRule rx m0.g {} k) "calc" lines = .ok m ∧
        ∀ (H : Type) (u : UserString) (h : H) (i : Input), i.Ok → i.s.nest ≤ 340 → ∃ k1, ∀ k', k1 ≤ k' →
          match i.s.value with
          | some n => ∃ s, (parseString ((calcOps u).ops H) m.g {} [] k' h i.text).1 = .ok (.value (.int n), s)
          | none => ∃ e, (e = .user 0 ∨ e = .notANumber) ∧ (parseString ((calcOps u).ops H) m.g {} [] k' h i.text).1 = .panic e := by
  obtain ⟨lines, m0, hl, hm0, k0, hk0⟩ := C53_rule_text_values_partial rx {} rfl _ (calc_names reB reI) (calc_texts hrxB hrxI) "calc"
  refine ⟨lines, m0, hl, hm0, k0, fun k hk => ?_⟩
  obtain ⟨m, hm, hk1⟩ := hk0 k hk
  refine ⟨m, hm, fun H u h i hok hn => ?_⟩
  have hg := input_gets (u := u) (N := i.text.length) hB hI i hok 1024 (by omega)
  unfold Gets at hg
  cases hv : i.s.value with
  | some n =>
    rw [hv] at hg
    obtain ⟨k1, hk1⟩ := hk1 Ast H (calcOps u) (fun _ _ => rfl) {} rfl [] (by simp) h _ _ _ hg
    refine ⟨k1, fun k' hk' => ?_⟩
    rcases hk1 k' hk' with h | h
    · simpa [Gives] using h
    · exact absurd h.1 (by decide)
  | none =>
    rw [hv] at hg
    obtain ⟨e, he, hg⟩ := hg
    obtain ⟨k1, hk1⟩ := hk1 Ast H (calcOps u) (fun _ _ => rfl) {} rfl [] (by simp) h _ _ _ hg
    refine ⟨k1, fun k' hk' => ⟨e, he, ?_⟩⟩
    rcases hk1 k' hk' with h | h
    · exact h
    · exact absurd h.1 (by decide)

/-- C59: and it calculates nothing else. For any text with at most 340 opening parentheses there is a value only if the text is
that of an expression with that value. Otherwise there is a `ParseError` at the place where an expression at the beginning
of the text ends, or at the beginning; or nil if the text is empty; or one of the two panics. -/
theorem C59_only_expressions (rx : Bytes → Option Regex) (reB reI : Regex) (hrxB : rx (asc "[ \\t]") = some reB) (hrxI : rx (asc "^-?[0-9]+") = some reI)
    (hB : FindsBlank reB) (hI : FindsInt reI) :
    ∃ lines m0, linesOf (calcRules reB reI) = .ok lines ∧ joesonMade = .ok m0 ∧ ∃ k0, ∀ k, k0 ≤ k →
      ∃ m, grammarFromLines (compileRule rx m0.g {} k) "calc" lines = .ok m ∧
        ∀ (H : Type) (u : UserString) (h : H) (text : Bytes), text.count 0x28 ≤ 340 → ∃ k1, ∀ k', k1 ≤ k' →
          (∃ (i : Input) (n : Int) (s : _), i.Ok ∧ i.text = text ∧ i.s.value = some n ∧
            (parseString ((calcOps u).ops H) m.g {} [] k' h text).1 = .ok (.value (.int n), s)) ∨
          (∃ rep s, (parseString ((calcOps u).ops H) m.g {} [] k' h text).1 = .ok (.error rep, s) ∧ text ≠ [] ∧
            (s.pos = 0 ∨ s.pos < text.length ∧ ∃ i : Input, i.Ok ∧ i.s.value ≠ none ∧ i.text = text.take s.pos)) ∨
          (∃ s, (parseString ((calcOps u).ops H) m.g {} [] k' h text).1 = .ok (.nil, s) ∧ text = []) ∨
          ∃ e, (e = .user 0 ∨ e = .notANumber) ∧ (parseString ((calcOps u).ops H) m.g {} [] k' h text).1 = .panic e := by
  obtain ⟨lines, m0, hl, hm0, k0, hk0⟩ := C53_rule_text_values_partial rx {} rfl _ (calc_names reB reI) (calc_texts hrxB hrxI) "calc"
  refine ⟨lines, m0, hl, hm0, k0, fun k hk => ?_⟩
  obtain ⟨m, hm, hk1⟩ := hk0 k hk
  refine ⟨m, hm, fun H u h text hn => ?_⟩
  obtain ⟨r, hr, hf⟩ := input_any (u := u) (N := text.length) hB hI text 1024 (by omega)
  obtain ⟨k1, hk1⟩ := hk1 Ast H (calcOps u) (fun _ _ => rfl) {} rfl [] (by simp) h _ _ _ hr
  refine ⟨k1, fun k' hk' => ?_⟩
  rcases hk1 k' hk' with h | h
  · rcases hf with rfl | ⟨e, he, rfl⟩ | ⟨n, i, s', rfl, hok, hv, ht⟩
    · simp only [Gives] at h
      by_cases he : text = []
      · rw [if_pos he] at h
        obtain ⟨s, hs⟩ := h
        exact .inr (.inr (.inl ⟨s, hs, he⟩))
      · rw [if_neg he] at h
        obtain ⟨rep, s, hs, hp⟩ := h
        exact .inr (.inl ⟨rep, s, hs, he, .inl hp⟩)
    · exact .inr (.inr (.inr ⟨e, he, h⟩))
    · simp only [Gives] at h
      by_cases he : s' = []
      · rw [if_pos he] at h
        obtain ⟨s, hs⟩ := h
        exact .inl ⟨i, n, s, hok, by rw [ht, he, List.append_nil], hv, hs⟩
      · rw [if_neg he] at h
        obtain ⟨rep, s, hs, hp⟩ := h
        have hpos : 0 < s'.length := List.length_pos_iff.mpr he
        have h1 := congrArg List.length hp
        have h2 := congrArg List.length ht
        rw [List.length_drop] at h1
        rw [List.length_append] at h2
        refine .inr (.inl ⟨rep, s, hs, fun h0 => ?_, .inr ⟨by omega, i, hok, by simp [hv], ?_⟩⟩)
        · rw [h0, List.length_nil] at h2; omega
        · have : s.pos = i.text.length := by omega
          rw [this, ht, List.take_left']
          rfl
  · exact absurd h.1 (by decide)

namespace Sample

/-- `[ \t]`: the leftmost blank. -/
def blankRe : Regex where
  find s := (s.findIdx? fun c => decide (IsBlank c)).map fun i => (i, i + 1)
  bounds := by
    intro s a b h
    simp only [Option.map_eq_some_iff, Prod.mk.injEq] at h
    obtain ⟨i, hi, rfl, rfl⟩ := h
    obtain ⟨hlt, _⟩ := List.findIdx?_eq_some_iff_getElem.mp hi
    exact ⟨by omega, by omega⟩

/-- The digits in front. -/
def digitsOf (s : Bytes) : Bytes := s.takeWhile fun c => decide (IsDigit c)

/-- `^-?[0-9]+` -/
def intRe : Regex where
  find
    | 0x2D :: s => if digitsOf s = [] then none else some (0, (digitsOf s).length + 1)
    | s => if digitsOf s = [] then none else some (0, (digitsOf s).length)
  bounds := by
    have key : ∀ s, (digitsOf s).length ≤ s.length := fun s => (List.takeWhile_sublist _).length_le
    intro s a b h
    split at h
    · split at h
      · cases h
      · cases h
        have := key ‹_›
        simp only [List.length_cons]
        omega
    · split at h
      · cases h
      · cases h
        exact ⟨Nat.zero_le _, key _⟩

theorem blankRe_finds : FindsBlank blankRe := by
  refine ⟨fun c s h => ?_, fun s n h => ?_⟩
  · simp only [blankRe, List.findIdx?_cons]
    rw [if_pos (by simpa using h)]
    rfl
  · simp only [blankRe, Option.map_eq_some_iff, Prod.mk.injEq] at h
    obtain ⟨i, hi, rfl, rfl⟩ := h
    obtain ⟨hlt, h1, _⟩ := List.findIdx?_eq_some_iff_getElem.mp hi
    match s, hlt, h1 with
    | c :: s, _, h1 => exact ⟨c, s, rfl, by simpa using h1⟩

theorem digitsOf_append {ds s : Bytes} (hd : ∀ c ∈ ds, IsDigit c) (hs : NoDigit s) : digitsOf (ds ++ s) = ds := by
  unfold digitsOf
  induction ds with
  | nil =>
    cases s with
    | nil => rfl
    | cons c s => exact List.takeWhile_cons_of_neg (by simpa using hs c s rfl)
  | cons c ds ih =>
    rw [List.cons_append, List.takeWhile_cons_of_pos (by simpa using hd c (List.mem_cons_self ..)), ih fun c hc => hd c (List.mem_cons_of_mem _ hc)]

theorem digitsOf_split (s : Bytes) : (∀ c ∈ digitsOf s, IsDigit c) ∧ ∃ s', NoDigit s' ∧ s = digitsOf s ++ s' := by
  refine ⟨fun c hc => ?_, s.dropWhile fun c => decide (IsDigit c), fun c s' h => ?_, (List.takeWhile_append_dropWhile ..).symm⟩
  · simpa using List.all_eq_true.mp (List.all_takeWhile (p := fun c => decide (IsDigit c)) (l := s)) c hc
  · have := List.head?_dropWhile_not (fun c => decide (IsDigit c)) s
    rw [h] at this
    simpa using this

theorem intRe_finds : FindsInt intRe := by
  refine ⟨fun neg ds s hne hd hs => ?_, fun s n h => ?_⟩
  · cases neg with
    | true =>
      simp only [if_true, List.cons_append, List.nil_append, intRe]
      rw [digitsOf_append hd hs, if_neg hne]
      rfl
    | false =>
      match ds, hne, hd with
      | c :: ds, hne, hd =>
        have hc : c ≠ 0x2D := by
          rintro rfl
          exact absurd (hd _ (List.mem_cons_self ..)) (by decide)
        simp only [Bool.false_eq_true, if_false, List.nil_append, intRe]
        split
        · rename_i h
          injection h with h
          exact absurd h hc
        · rw [digitsOf_append hd hs, if_neg hne]
  · simp only [intRe] at h
    split at h
    · rename_i s
      obtain ⟨h1, s', h2, h3⟩ := digitsOf_split s
      split at h
      · cases h
      · rename_i hne
        exact ⟨true, digitsOf s, s', hne, h1, h2, by simp [← h3]⟩
    · obtain ⟨h1, s', h2, h3⟩ := digitsOf_split s
      split at h
      · cases h
      · rename_i hne
        exact ⟨false, digitsOf s, s', hne, h1, h2, by simp [← h3]⟩

end Sample

/-- The hypotheses of `C59_calculates` and `C59_only_expressions` can be met. -/
example : ∃ (rx : Bytes → Option Regex) (reB reI : Regex), rx (asc "[ \\t]") = some reB ∧ rx (asc "^-?[0-9]+") = some reI ∧ FindsBlank reB ∧ FindsInt reI :=
  ⟨fun b => if b = asc "[ \\t]" then some Sample.blankRe else some Sample.intRe, Sample.blankRe, Sample.intRe, if_pos rfl,
    if_neg (by decide +kernel), Sample.blankRe_finds, Sample.intRe_finds⟩

/-- C59: the text of an expression says what its value is: expressions with the same text have the same value. -/
theorem C59_unambiguous (i j : Input) (hi : i.Ok) (hj : j.Ok) (h : i.text = j.text) : i.s.value = j.s.value := by
  have h1 := input_gets (u := fun _ _ => []) (N := i.text.length) Sample.blankRe_finds Sample.intRe_finds i hi _ (Nat.le_refl _)
  have h2 := input_gets (u := fun _ _ => []) (N := j.text.length) Sample.blankRe_finds Sample.intRe_finds j hj _ (Nat.le_refl _)
  have huniq := fun r r' d d' => C53_value_unique (fun b => if b = asc "[ \\t]" then some Sample.blankRe else some Sample.intRe) _
    (calc_names Sample.blankRe Sample.intRe) (calc_texts (if_pos rfl) (if_neg (by decide +kernel))) (calcOps fun _ _ => []) (fun _ _ => rfl) i.text d d' r r'
  rw [← h] at h2
  unfold Gets at h1 h2
  cases hv : i.s.value <;> cases hw : j.s.value <;> rw [hv] at h1 <;> rw [hw] at h2
  · obtain ⟨e, _, h1⟩ := h1
    have := huniq _ _ _ _ h1 h2
    cases this
  · obtain ⟨e, _, h2⟩ := h2
    have := huniq _ _ _ _ h1 h2
    cases this
  · have := huniq _ _ _ _ h1 h2
    cases this
    rfl

theorem machine_fits {x : Int} (h : Arith.Fits x) : machine x = x := by
  unfold Arith.Fits at h
  unfold machine
  omega

theorem exactly_some {x n : Int} (h : exactly x = some n) : x = n ∧ Arith.Fits x := by
  unfold exactly at h
  split at h
  · cases h; exact ⟨rfl, ‹_›⟩
  · cases h

mutual
theorem factor_exact : ∀ (f : Factor) (n : Int), f.exact = some n → f.value = some n
  | .num neg ds, n, h => by
    rw [Factor.exact] at h
    rw [Factor.value, number]
    exact h
  | .paren _ s _, n, h => by
    rw [Factor.exact] at h
    rw [Factor.value]
    exact sum_exact s n h
theorem prod_exact : ∀ (p : Prod) (n : Int), p.exact = some n → p.value = some n
  | .one f, n, h => by
    rw [Prod.exact] at h
    rw [Prod.value]
    exact factor_exact f n h
  | .op p w o w' f, n, h => by
    rw [Prod.exact.eq_def] at h
    dsimp only at h
    cases hp : p.exact with
    | none => rw [hp] at h; simp at h
    | some a =>
      cases hf : f.exact with
      | none => rw [hp, hf] at h; simp at h
      | some b =>
        rw [hp, hf] at h
        rw [Prod.value, prod_exact p a hp, factor_exact f b hf]
        cases o with
        | times =>
          obtain ⟨rfl, hx⟩ := exactly_some h
          simp [MulOp.eval, machine_fits hx]
        | div =>
          simp only at h
          split at h
          · cases h
          · rename_i hb
            obtain ⟨rfl, hx⟩ := exactly_some h
            simp [MulOp.eval, machine_fits hx, hb]
theorem sum_exact : ∀ (s : Sum) (n : Int), s.exact = some n → s.value = some n
  | .one p, n, h => by
    rw [Sum.exact] at h
    rw [Sum.value]
    exact prod_exact p n h
  | .op s w o w' p, n, h => by
    rw [Sum.exact.eq_def] at h
    dsimp only at h
    cases hp : s.exact with
    | none => rw [hp] at h; simp at h
    | some a =>
      cases hf : p.exact with
      | none => rw [hp, hf] at h; simp at h
      | some b =>
        rw [hp, hf] at h
        rw [Sum.value, sum_exact s a hp, prod_exact p b hf]
        cases o with
        | plus =>
          obtain ⟨rfl, hx⟩ := exactly_some h
          simp [AddOp.eval, machine_fits hx]
        | minus =>
          obtain ⟨rfl, hx⟩ := exactly_some h
          simp [AddOp.eval, machine_fits hx]
end

/-- C59: if no intermediate result is too large, the value is the exact one. -/
theorem C59_exact (i : Input) (n : Int) (h : i.s.exact = some n) : i.s.value = some n := sum_exact i.s n h

namespace Sample

/-- An integer. -/
def calcInt (neg : Bool) (s : String) : Factor := .num neg (asc s)

/-- `241+513* -24 +((1934-192*2)/7)+1` (calculator_test.go:81) -/
def calcSample : Input where
  w := []
  s := .op (.op (.op (.one (.one (calcInt false "241"))) [] .plus [] (.op (.one (calcInt false "513")) [] .times [0x20] (calcInt true "24"))) [0x20] .plus []
    (.one (.paren [] (.one (.op (.one (.paren [] (.op (.one (.one (calcInt false "1934"))) [] .minus []
      (.op (.one (calcInt false "192")) [] .times [] (calcInt false "2"))) [])) [] .div [] (calcInt false "7"))) []))) [] .plus [] (.one (calcInt false "1"))
  w' := []

example : calcSample.text = asc "241+513* -24 +((1934-192*2)/7)+1" ∧ calcSample.s.exact = some (-11849) ∧ calcSample.s.value = some (-11849) ∧
    calcSample.s.nest = 2 := ⟨by kernel_rfl, by kernel_rfl, by kernel_rfl, by kernel_rfl⟩

instance decOkAll (p : UInt8 → Prop) [DecidablePred p] (l : Bytes) : Decidable (∀ c ∈ l, p c) := inferInstance

example : calcSample.Ok := by
  simp only [calcSample, Input.Ok, Sum.Ok, Prod.Ok, Factor.Ok, calcInt]
  decide +kernel

/-- `1/0` and an integer that does not fit have no value; `9223372036854775807+1` has one that is not exact. -/
example : (Sum.one (.op (.one (calcInt false "1")) [] .div [] (calcInt false "0"))).value = none ∧
    (calcInt false "9223372036854775808").value = none ∧ (calcInt true "9223372036854775808").value = some (-9223372036854775808) ∧
    (Sum.op (.one (.one (calcInt false "9223372036854775807"))) [] .plus [] (.one (calcInt false "1"))).value = some (-9223372036854775808) :=
  ⟨by kernel_rfl, by kernel_rfl, by kernel_rfl, by kernel_rfl⟩

/-- Matches of calculator_test.go:82,85,86: `60/6/5`, and the texts `90 (6090)` and `-(7)`, of which only `90 ` and nothing is matched. -/
example : Yields (calcOps fun _ _ => []) 6 (calcRules blankRe intRe) 20 (.lines (calcRules blankRe intRe)) (asc "60/6/5") (.ok (some (.int 2, []))) ∧
    Yields (calcOps fun _ _ => []) 9 (calcRules blankRe intRe) 20 (.lines (calcRules blankRe intRe)) (asc "90 (6090)") (.ok (some (.int 90, asc "(6090)"))) ∧
    Yields (calcOps fun _ _ => []) 4 (calcRules blankRe intRe) 20 (.lines (calcRules blankRe intRe)) (asc "-(7)") (.ok none) :=
  ⟨vrun_sound 60 _ _ _ _ (by kernel_rfl), vrun_sound 60 _ _ _ _ (by kernel_rfl), vrun_sound 60 _ _ _ _ (by kernel_rfl)⟩

end Sample
end Joeson
