import Verif.Model.Calculator
import Verif.Spec.Calculator
import Verif.Spec.Values
import Verif.Proofs.RuleText2
/-!
# The calculator: parsing one level
-/

namespace Joeson.Calc
open RuleText Arith

/-- What `[ \t]` finds at the beginning of a text: one blank. -/
def FindsBlank (re : Regex) : Prop :=
  (∀ c s, IsBlank c → re.find (c :: s) = some (0, 1)) ∧ ∀ s n, re.find s = some (0, n) → ∃ c s', s = c :: s' ∧ IsBlank c

/-- Does not begin with a digit. -/
def NoDigit (s : Bytes) : Prop := ∀ c s', s = c :: s' → ¬ IsDigit c

/-- What `^-?[0-9]+` finds: an optional sign and all the digits that follow. -/
def FindsInt (re : Regex) : Prop :=
  (∀ (neg : Bool) ds s, ds ≠ [] → (∀ c ∈ ds, IsDigit c) → NoDigit s →
    re.find ((if neg then [0x2D] else []) ++ ds ++ s) = some (0, ((if neg then [0x2D] else []) ++ ds).length)) ∧
  ∀ s n, re.find s = some (0, n) → ∃ (neg : Bool) (ds s' : Bytes), ds ≠ [] ∧ (∀ c ∈ ds, IsDigit c) ∧ NoDigit s' ∧
    s = (if neg then [0x2D] else []) ++ ds ++ s'

instance : DecidablePred IsBlank := fun c => inferInstanceAs (Decidable (_ ∨ _))
instance : DecidablePred IsDigit := fun c => inferInstanceAs (Decidable (_ ∧ _))

/-- Without the blanks in front. -/
def skip (s : Bytes) : Bytes := s.dropWhile fun c => decide (IsBlank c)

theorem skip_append {w : Bytes} (h : ∀ c ∈ w, IsBlank c) (s : Bytes) : skip (w ++ s) = skip s := by
  unfold skip
  induction w with
  | nil => rfl
  | cons c w ih =>
    rw [List.cons_append, List.dropWhile_cons, if_pos (by simpa using h c (List.mem_cons_self ..))]
    exact ih fun c hc => h c (List.mem_cons_of_mem _ hc)

theorem skip_split (s : Bytes) : ∃ w, (∀ c ∈ w, IsBlank c) ∧ s = w ++ skip s := by
  refine ⟨s.takeWhile fun c => decide (IsBlank c), fun c hc => by simpa using List.all_eq_true.mp (List.all_takeWhile (p := fun c => decide (IsBlank c)) (l := s)) c hc, ?_⟩
  exact (List.takeWhile_append_dropWhile ..).symm

theorem skip_id {s : Bytes} (h : ∀ c s', s = c :: s' → ¬ IsBlank c) : skip s = s := by
  cases s with
  | nil => rfl
  | cons c s => exact List.dropWhile_cons_of_neg (by simpa using h c s rfl)

theorem skip_length (s : Bytes) : (skip s).length ≤ s.length := by
  obtain ⟨w, _, h⟩ := skip_split s
  have := congrArg List.length h
  rw [List.length_append] at this
  omega

theorem skip_head {s : Bytes} {c : UInt8} {s' : Bytes} (h : skip s = c :: s') : ¬ IsBlank c := by
  have := List.head?_dropWhile_not (fun c => decide (IsBlank c)) s
  unfold skip at h
  rw [h] at this
  simpa using this

theorem nat_lt_256 (a b : UInt8) : a = b ↔ a.toNat = b.toNat := UInt8.toNat_inj.symm

/-! ## The grammar -/

/-- `_` -/
def blankVP : VP := .name "" "_" true
/-- `_ op _ operand` -/
def tailVP (op operand : String) : VP := .seq "" [blankVP, .name "" op false, blankVP, .name "" operand false]
/-- `rest:( _ op _ operand )*` -/
def restVP (op operand : String) : VP := .rep "rest" (tailVP op operand) none 0 none
/-- The rule `Expr`. -/
def exprVP : VP := .seq "" [blankVP, .name "first" "Term" false, restVP "AddOp" "Term", blankVP]
/-- The rule `Term`. -/
def termVP : VP := .seq "" [.name "first" "Factor" false, restVP "MulOp" "Factor"]
/-- The rule `Factor`. -/
def factorVP : VP := .alt "" [.seq "" [.lit "" [0x28], .name "" "Expr" false, .lit "" [0x29]], .name "" "Integer" false]
/-- The rules of operators. -/
def eitherVP (a b : UInt8) : VP := .alt "" [.lit "" [a], .lit "" [b]]

section
variable {u : UserString} {N : Nat} {reB reI : Regex}

/-- A rule of the calculator. -/
theorem named {d : Nat} {h : Bool} {lab nm : String} {q : Bool} {cb : Option Nat} {e : Expr} {p : VP} {s : Bytes} {r : VRes Ast}
    (hmem : (nm, cb, Body.text e) ∈ rulesOf (calcRules reB reI)) (hlab : h = true ∨ lab = "") (hp : e.vp = p) (hout : p.outLab = "")
    (hy : Yields (calcOps u) N (calcRules reB reI) d (.core false p) s r) :
    Yields (calcOps u) N (calcRules reB reI) (d + 1) (.part h (.name lab nm q)) s (called (calcOps u) N cb r) := by
  have hown : ∀ (x : VRes Ast) (h : Bool) (p : VP), h = true ∨ p.outLab = "" → own (calcOps u) h p x = x := by
    intro x h p hh
    match x with
    | .error e => rfl
    | .ok none => rfl
    | .ok (some (v, s')) => rcases hh with rfl | hh <;> simp [own, *]
  rw [← hown (called (calcOps u) N cb r) h (.name lab nm q) hlab]
  refine .part (.name hmem (.text ?_))
  rw [← hown r false e.vp (.inr (by rw [hp]; exact hout)), hp]
  exact .part hy

theorem bare {d : Nat} {h : Bool} {p : VP} {s : Bytes} {r : VRes Ast} (hp : h = true ∨ p.outLab = "")
    (hy : Yields (calcOps u) N (calcRules reB reI) d (.core h p) s r) : Yields (calcOps u) N (calcRules reB reI) d (.part h p) s r := by
  have : own (calcOps u) h p r = r := by
    match r with
    | .error e => rfl
    | .ok none => rfl
    | .ok (some (v, s')) => rcases hp with rfl | hp <;> simp [own, *]
  exact this ▸ .part hy

theorem expr_vp : calcExpr.vp = exprVP := by kernel_rfl
theorem term_vp : calcTerm.vp = termVP := by kernel_rfl
theorem factor_vp : calcFactor.vp = factorVP := by kernel_rfl
theorem add_vp : (calcEither 0x2B 0x2D).vp = eitherVP 0x2B 0x2D := by kernel_rfl
theorem mul_vp : (calcEither 0x2A 0x2F).vp = eitherVP 0x2A 0x2F := by kernel_rfl
theorem blank_vp (re : Regex) : (calcBlank re).vp = .rep "" (.re "" re) none 0 none := rfl
theorem integer_vp (re : Regex) : (calcInteger re).vp = .re "" re := rfl

/-! ## Blanks -/

theorem more_blanks (hB : FindsBlank reB) (d : Nat) : ∀ (s : Bytes) (vs : List Ast), ∃ vs',
    Yields (calcOps u) N (calcRules reB reI) d (.more (.re "" reB) none 0 none vs) s (.ok (some (.arr vs', skip s))) := by
  intro s
  induction s with
  | nil =>
    intro vs
    refine ⟨vs, ?_⟩
    refine .noMore (by simp [Room]) .sepNone (bare (.inr rfl) (.reMiss fun n hn => ?_))
    obtain ⟨c, s', h, _⟩ := hB.2 _ _ hn
    cases h
  | cons c s ih =>
    intro vs
    by_cases hc : IsBlank c
    · obtain ⟨vs', h⟩ := ih (vs ++ [.str [c]])
      refine ⟨vs', ?_⟩
      have hs : skip (c :: s) = skip s := skip_append (w := [c]) (by simpa using hc) s
      rw [hs]
      exact .more (by simp [Room]) .sepNone (bare (.inr rfl) (.re (n := 1) (hB.1 c s hc))) h
    · refine ⟨vs, ?_⟩
      rw [skip_id fun c' s' h => by cases h; exact hc]
      refine .noMore (by simp [Room]) .sepNone (bare (.inr rfl) (.reMiss fun n hn => ?_))
      obtain ⟨c', s', h, h'⟩ := hB.2 _ _ hn
      cases h
      exact hc h'

/-- `_` matches all the blanks there are. -/
theorem blanks (hB : FindsBlank reB) (d : Nat) (s : Bytes) : ∃ v,
    Yields (calcOps u) N (calcRules reB reI) (d + 1) (.part true blankVP) s (.ok (some (v, skip s))) := by
  have hmem : ("_", none, Body.text (calcBlank reB)) ∈ rulesOf (calcRules reB reI) := by
    simp [calcRules, rulesOf, GLine.rules, Body.rules]
  have key : ∃ v, Yields (calcOps u) N (calcRules reB reI) d (.core false (.rep "" (.re "" reB) none 0 none)) s (.ok (some (v, skip s))) := by
    cases s with
    | nil =>
      refine ⟨.arr [], .repMiss (mn := 0) (bare (.inr rfl) (.reMiss fun n hn => ?_))⟩
      obtain ⟨c, s', h, _⟩ := hB.2 _ _ hn
      cases h
    | cons c s =>
      by_cases hc : IsBlank c
      · obtain ⟨vs', h⟩ := more_blanks (u := u) (N := N) (reI := reI) hB d s [.str [c]]
        refine ⟨.arr vs', ?_⟩
        have hs : skip (c :: s) = skip s := skip_append (w := [c]) (by simpa using hc) s
        rw [hs]
        exact .rep (bare (.inr rfl) (.re (n := 1) (hB.1 c s hc))) h
      · refine ⟨.arr [], ?_⟩
        rw [skip_id fun c' s' h => by cases h; exact hc]
        refine .repMiss (mn := 0) (bare (.inr rfl) (.reMiss fun n hn => ?_))
        obtain ⟨c', s', h, h'⟩ := hB.2 _ _ hn
        cases h
        exact hc h'
  obtain ⟨v, h⟩ := key
  exact ⟨v, named hmem (.inl rfl) (blank_vp reB) rfl h⟩

/-! ## Levels -/

/-- The two levels: sums (`true`) and products. -/
def opName (lv : Bool) : String := if lv then "AddOp" else "MulOp"
/-- What is added or multiplied. -/
def operandName (lv : Bool) : String := if lv then "Term" else "Factor"
/-- The operators. -/
def IsOp (lv : Bool) (c : UInt8) : Prop := if lv then c = 0x2B ∨ c = 0x2D else c = 0x2A ∨ c = 0x2F

instance (lv : Bool) : DecidablePred (IsOp lv) := fun c => by unfold IsOp; split <;> infer_instance

theorem lit_hit (d : Nat) (h : Bool) (c : UInt8) (s : Bytes) :
    Yields (calcOps u) N (calcRules reB reI) d (.part h (.lit "" [c])) (c :: s) (.ok (some (.str [c], s))) :=
  bare (.inr rfl) (.lit (b := [c]))

theorem lit_miss (d : Nat) (h : Bool) (c : UInt8) (s : Bytes) (hs : ∀ s', s ≠ c :: s') :
    Yields (calcOps u) N (calcRules reB reI) d (.part h (.lit "" [c])) s (.ok none) :=
  bare (.inr rfl) (.litMiss hs)

theorem op_mem (lv : Bool) : ∃ e, (opName lv, none, Body.text e) ∈ rulesOf (calcRules reB reI) ∧
    e.vp = if lv then eitherVP 0x2B 0x2D else eitherVP 0x2A 0x2F := by
  cases lv
  · exact ⟨calcEither 0x2A 0x2F, by simp [calcRules, rulesOf, GLine.rules, Body.rules, opName], mul_vp⟩
  · exact ⟨calcEither 0x2B 0x2D, by simp [calcRules, rulesOf, GLine.rules, Body.rules, opName], add_vp⟩

theorem op_hit (lv : Bool) (d : Nat) {c : UInt8} (hc : IsOp lv c) (s : Bytes) :
    Yields (calcOps u) N (calcRules reB reI) (d + 1) (.part true (.name "" (opName lv) false)) (c :: s) (.ok (some (.str [c], s))) := by
  obtain ⟨e, hmem, hvp⟩ := op_mem (reB := reB) (reI := reI) lv
  have key : ∀ a b, c = a ∨ c = b → Yields (calcOps u) N (calcRules reB reI) d (.core false (eitherVP a b)) (c :: s) (.ok (some (.str [c], s))) := by
    intro a b h
    refine .alt ?_
    by_cases ha : c = a
    · subst ha; exact .altsDone (lit_hit ..) (by simp)
    · have hb : c = b := h.resolve_left ha
      subst hb
      exact .altsMiss (lit_miss _ _ _ _ fun s' h => ha (by injection h)) (.altsDone (lit_hit ..) (by simp))
  cases lv
  · exact named hmem (.inl rfl) hvp rfl (key _ _ hc)
  · exact named hmem (.inl rfl) hvp rfl (key _ _ hc)

theorem op_miss (lv : Bool) (d : Nat) {s : Bytes} (hs : ∀ c s', s = c :: s' → ¬ IsOp lv c) :
    Yields (calcOps u) N (calcRules reB reI) (d + 1) (.part true (.name "" (opName lv) false)) s (.ok none) := by
  obtain ⟨e, hmem, hvp⟩ := op_mem (reB := reB) (reI := reI) lv
  have key : ∀ a b, (∀ c s', s = c :: s' → ¬ (c = a ∨ c = b)) → Yields (calcOps u) N (calcRules reB reI) d (.core false (eitherVP a b)) s (.ok none) := by
    intro a b h
    exact .alt (.altsMiss (lit_miss _ _ _ _ fun s' h' => h _ _ h' (.inl rfl)) (.altsMiss (lit_miss _ _ _ _ fun s' h' => h _ _ h' (.inr rfl)) .altsEnd))
  cases lv
  · exact named hmem (.inl rfl) hvp rfl (key _ _ hs)
  · exact named hmem (.inl rfl) hvp rfl (key _ _ hs)

/-- A pair of the tail. -/
def pair (c : UInt8) (n : Int) : Ast := .arr [.str [c], .int n]

theorem item_miss (hB : FindsBlank reB) (lv : Bool) (d : Nat) {s : Bytes} (hs : ∀ c s', skip s = c :: s' → ¬ IsOp lv c) :
    Yields (calcOps u) N (calcRules reB reI) (d + 1) (.part false (tailVP (opName lv) (operandName lv))) s (.ok none) := by
  obtain ⟨v, h⟩ := blanks (u := u) (N := N) (reI := reI) hB d s
  exact bare (.inr rfl) (.seq (.itemsPut h rfl (.itemsMiss (op_miss lv d hs))))

/-- With an operator, it is up to the operand. -/
theorem item (hB : FindsBlank reB) (lv : Bool) (d : Nat) {s : Bytes} {c : UInt8} {s1 : Bytes} (hs : skip s = c :: s1) (hc : IsOp lv c)
    {r : VRes Ast} (hr : Yields (calcOps u) N (calcRules reB reI) (d + 1) (.part true (.name "" (operandName lv) false)) (skip s1) r) :
    Yields (calcOps u) N (calcRules reB reI) (d + 1) (.part false (tailVP (opName lv) (operandName lv))) s
      (match r with | .ok (some (v, s2)) => .ok (some (.arr [.str [c], v], s2)) | r => r) := by
  obtain ⟨v, h⟩ := blanks (u := u) (N := N) (reI := reI) hB d s
  obtain ⟨v', h'⟩ := blanks (u := u) (N := N) (reI := reI) hB d s1
  rw [hs] at h
  refine bare (.inr rfl) (.seq (.itemsPut h rfl (.itemsPut (op_hit lv d hc s1) rfl (.itemsPut h' rfl ?_))))
  match r, hr with
  | .error e, hr => exact .itemsPanic hr
  | .ok none, hr => exact .itemsMiss hr
  | .ok (some (v, s2)), hr => exact .itemsPut hr rfl (.itemsEnd rfl)

end
end Joeson.Calc
