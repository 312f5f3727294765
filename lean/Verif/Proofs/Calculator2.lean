import Verif.Proofs.Calculator
import Verif.Props.Native
/-!
# The calculator: the text of an expression is parsed and calculated
-/

namespace Joeson.Calc
open RuleText Arith

/-- Panics of the calculator: division by zero, and integers that do not fit. -/
def Bad (e : Panic) : Prop := e = .user 0 ∨ e = .notANumber

section
variable (u : UserString) (N : Nat) (reB reI : Regex)

/-- The value and the rest of the text; a panic if there is none. -/
def Gets (d : Nat) (j : VJob Ast) (s : Bytes) (val : Option Int) (s' : Bytes) : Prop :=
  match val with
  | some n => Yields (calcOps u) N (calcRules reB reI) d j s (.ok (some (.int n, s')))
  | none => ∃ e, Bad e ∧ Yields (calcOps u) N (calcRules reB reI) d j s (.error e)

/-- What may follow an operand. -/
def Follow (lv : Bool) (s : Bytes) : Prop :=
  NoDigit s ∧ (lv = true → ∀ c s', skip s = c :: s' → ¬ IsOp false c)

/-- What may follow a sum or product. -/
def Stop (lv : Bool) (s : Bytes) : Prop := Follow lv s ∧ ∀ c s', skip s = c :: s' → ¬ IsOp lv c

/-- The text of an operand with this value. -/
def Operand (lv : Bool) (d : Nat) (text : Bytes) (val : Option Int) : Prop :=
  (∃ c t, text = c :: t ∧ ¬ IsBlank c) ∧
  ∀ lab s, Follow lv s → Gets u N reB reI d (.part true (.name lab (operandName lv) false)) (text ++ s) val s

end

/-- An operator and an operand. -/
structure Item where
  w : Bytes
  c : UInt8
  w' : Bytes
  text : Bytes
  val : Option Int

/-- As text. -/
def Item.bytes (i : Item) : Bytes := i.w ++ [i.c] ++ i.w' ++ i.text

/-- As text. -/
def itemsText (l : List Item) : Bytes := l.flatMap Item.bytes

/-- The values. -/
def pairs : List Item → Option (List Ast)
  | [] => some []
  | i :: l => match i.val, pairs l with
    | some n, some l' => some (pair i.c n :: l')
    | _, _ => none

/-- The value of operands and operators, from left to right. -/
def levelVal : Option Int → Option (List Ast) → Option Int
  | some n, some l => match l.foldlM calcStep n with
    | .ok m => some m
    | .error _ => none
  | _, _ => none

section
variable {u : UserString} {N : Nat} {reB reI : Regex}

/-- An item of a level. -/
def Item.Good (u : UserString) (N : Nat) (reB reI : Regex) (lv : Bool) (d : Nat) (i : Item) : Prop :=
  (∀ c ∈ i.w, IsBlank c) ∧ (∀ c ∈ i.w', IsBlank c) ∧ IsOp lv i.c ∧ Operand u N reB reI lv d i.text i.val

theorem op_not_blank {lv : Bool} {c : UInt8} (h : IsOp lv c) : ¬ IsBlank c := by
  intro hb
  unfold IsBlank at hb
  unfold IsOp at h
  cases lv <;> simp only [Bool.false_eq_true, if_false, if_true] at h <;> rcases h with rfl | rfl <;> revert hb <;> decide

theorem op_not_digit {lv : Bool} {c : UInt8} (h : IsOp lv c) : ¬ IsDigit c := by
  intro hb
  unfold IsDigit at hb
  unfold IsOp at h
  cases lv <;> simp only [Bool.false_eq_true, if_false, if_true] at h <;> rcases h with rfl | rfl <;> revert hb <;> decide

theorem op_other {c : UInt8} (h : IsOp true c) : ¬ IsOp false c := by
  simp only [IsOp, Bool.false_eq_true, if_false, if_true] at h ⊢
  rcases h with rfl | rfl <;> decide

theorem blank_not_digit {c : UInt8} (h : IsBlank c) : ¬ IsDigit c := by
  intro hb
  unfold IsDigit at hb
  unfold IsBlank at h
  rcases h with rfl | rfl <;> revert hb <;> decide

theorem noDigit_blanks {w : Bytes} (hw : ∀ c ∈ w, IsBlank c) {s : Bytes} (hs : NoDigit s) : NoDigit (w ++ s) := by
  cases w with
  | nil => exact hs
  | cons c w =>
    intro c' s' h
    cases h
    exact blank_not_digit (hw _ (List.mem_cons_self ..))

theorem skip_op {w : Bytes} (hw : ∀ c ∈ w, IsBlank c) {lv : Bool} {c : UInt8} (hc : IsOp lv c) (s : Bytes) : skip (w ++ c :: s) = c :: s := by
  rw [skip_append hw, skip_id fun c' s' h => by cases h; exact op_not_blank hc]

theorem follow_item {lv : Bool} {w : Bytes} (hw : ∀ c ∈ w, IsBlank c) {c : UInt8} (hc : IsOp lv c) (s : Bytes) : Follow lv (w ++ c :: s) := by
  refine ⟨noDigit_blanks hw fun c' s' h => ?_, fun hlv c' s' h => ?_⟩
  · cases h; exact op_not_digit hc
  · rw [skip_op hw hc] at h
    cases h
    subst hlv
    exact op_other hc

theorem Item.bytes_eq (i : Item) (s : Bytes) : i.bytes ++ s = i.w ++ i.c :: (i.w' ++ (i.text ++ s)) := by
  simp [Item.bytes]

theorem follow_items {lv : Bool} {d : Nat} {items : List Item} (h : ∀ i ∈ items, i.Good u N reB reI lv d) {s : Bytes} (hs : Stop lv s) :
    Follow lv (itemsText items ++ s) := by
  cases items with
  | nil => exact hs.1
  | cons i l =>
    have hi := h i (List.mem_cons_self ..)
    have : itemsText (i :: l) ++ s = i.w ++ i.c :: (i.w' ++ (i.text ++ (itemsText l ++ s))) := by
      simp [itemsText, Item.bytes]
    rw [this]
    exact follow_item hi.1 hi.2.2.1 _

/-- One item, and what is left. -/
theorem item_gets (hB : FindsBlank reB) {lv : Bool} {d : Nat} {i : Item} (hi : i.Good u N reB reI lv (d + 1)) {s : Bytes} (hs : Follow lv s) :
    match i.val with
    | some n => Yields (calcOps u) N (calcRules reB reI) (d + 1) (.part false (tailVP (opName lv) (operandName lv))) (i.bytes ++ s)
        (.ok (some (pair i.c n, s)))
    | none => ∃ e, Bad e ∧ Yields (calcOps u) N (calcRules reB reI) (d + 1) (.part false (tailVP (opName lv) (operandName lv))) (i.bytes ++ s) (.error e) := by
  obtain ⟨hw, hw', hc, ⟨c0, t, htext, hc0⟩, hop⟩ := hi
  rw [i.bytes_eq]
  have hskip := skip_op hw hc (i.w' ++ (i.text ++ s))
  have hskip' : skip (i.w' ++ (i.text ++ s)) = i.text ++ s := by
    rw [skip_append hw', htext, List.cons_append, skip_id fun c' s' h => by cases h; exact hc0]
  have := hop "" s hs
  unfold Gets at this
  cases hv : i.val with
  | some n =>
    rw [hv] at this
    rw [← hskip'] at this
    exact item hB lv d hskip hc this
  | none =>
    rw [hv] at this
    obtain ⟨e, he, this⟩ := this
    rw [← hskip'] at this
    exact ⟨e, he, item hB lv d hskip hc this⟩

/-- The items, and what is left. -/
theorem more_items (hB : FindsBlank reB) {lv : Bool} {d : Nat} {s : Bytes} (hs : Stop lv s) : ∀ (items : List Item),
    (∀ i ∈ items, i.Good u N reB reI lv (d + 1)) → ∀ vs : List Ast,
    match pairs items with
    | some l => Yields (calcOps u) N (calcRules reB reI) (d + 1) (.more (tailVP (opName lv) (operandName lv)) none 0 none vs) (itemsText items ++ s)
        (.ok (some (.arr (vs ++ l), s)))
    | none => ∃ e, Bad e ∧ Yields (calcOps u) N (calcRules reB reI) (d + 1) (.more (tailVP (opName lv) (operandName lv)) none 0 none vs)
        (itemsText items ++ s) (.error e)
  | [], _, vs => by
    simp only [pairs, List.append_nil]
    exact .noMore (by simp [Room]) .sepNone (item_miss hB lv d hs.2)
  | i :: l, h, vs => by
    have hi := h i (List.mem_cons_self ..)
    have hl : ∀ i ∈ l, i.Good u N reB reI lv (d + 1) := fun i hm => h i (List.mem_cons_of_mem _ hm)
    have h1 := item_gets hB hi (follow_items hl hs)
    have h2 := fun vs => more_items hB hs l hl vs
    have htext : itemsText (i :: l) ++ s = i.bytes ++ (itemsText l ++ s) := by simp [itemsText]
    rw [htext, pairs]
    cases hv : i.val with
    | none =>
      rw [hv] at h1
      obtain ⟨e, he, h1⟩ := h1
      exact ⟨e, he, .morePanic (by simp [Room]) .sepNone h1⟩
    | some n =>
      rw [hv] at h1
      cases hp : pairs l with
      | none =>
        rw [hp] at h2
        obtain ⟨e, he, h3⟩ := h2 (vs ++ [pair i.c n])
        exact ⟨e, he, .more (by simp [Room]) .sepNone h1 h3⟩
      | some l' =>
        rw [hp] at h2
        have h3 := h2 (vs ++ [pair i.c n])
        dsimp only at h3
        rw [List.append_assoc] at h3
        exact .more (by simp [Room]) .sepNone h1 h3

/-- `rest:( _ op _ operand )*` -/
theorem rest_items (hB : FindsBlank reB) {lv : Bool} {d : Nat} {s : Bytes} (hs : Stop lv s) (items : List Item)
    (h : ∀ i ∈ items, i.Good u N reB reI lv (d + 1)) :
    match pairs items with
    | some l => Yields (calcOps u) N (calcRules reB reI) (d + 1) (.part true (restVP (opName lv) (operandName lv))) (itemsText items ++ s)
        (.ok (some (.arr l, s)))
    | none => ∃ e, Bad e ∧ Yields (calcOps u) N (calcRules reB reI) (d + 1) (.part true (restVP (opName lv) (operandName lv)))
        (itemsText items ++ s) (.error e) := by
  match items, h with
  | [], _ => exact bare (.inl rfl) (.repMiss (mn := 0) (item_miss hB lv d hs.2))
  | i :: l, h =>
    have hi := h i (List.mem_cons_self ..)
    have hl : ∀ i ∈ l, i.Good u N reB reI lv (d + 1) := fun i hm => h i (List.mem_cons_of_mem _ hm)
    have h1 := item_gets hB hi (follow_items hl hs)
    have htext : itemsText (i :: l) ++ s = i.bytes ++ (itemsText l ++ s) := by simp [itemsText]
    rw [htext, pairs]
    cases hv : i.val with
    | none =>
      rw [hv] at h1
      obtain ⟨e, he, h1⟩ := h1
      exact ⟨e, he, bare (.inl rfl) (.repPanic h1)⟩
    | some n =>
      rw [hv] at h1
      have h2 := more_items hB hs l hl [pair i.c n]
      cases hp : pairs l with
      | none =>
        rw [hp] at h2
        obtain ⟨e, he, h3⟩ := h2
        exact ⟨e, he, bare (.inl rfl) (.rep h1 h3)⟩
      | some l' =>
        rw [hp] at h2
        exact bare (.inl rfl) (.rep h1 h2)

/-- The operations panic only when dividing by zero. -/
theorem fold_bad {lv : Bool} : ∀ {items : List Item} {l : List Ast} {n : Int} {e : Panic}, (∀ i ∈ items, IsOp lv i.c) → pairs items = some l →
    l.foldlM calcStep n = .error e → e = .user 0
  | [], l, n, e, _, hp, hf => by cases hp; cases hf
  | i :: items, l, n, e, h, hp, hf => by
    rw [pairs] at hp
    match hv : i.val, hp' : pairs items with
    | none, _ => rw [hv] at hp; cases hp
    | some m, none => rw [hv, hp'] at hp; cases hp
    | some m, some l' =>
      rw [hv, hp'] at hp
      cases hp
      rw [List.foldlM_cons] at hf
      have hstep : calcStep n (pair i.c m) = calcOp [i.c] n m := rfl
      rw [hstep] at hf
      cases ho : calcOp [i.c] n m with
      | ok x =>
        rw [ho] at hf
        exact fold_bad (fun i hi => h i (List.mem_cons_of_mem _ hi)) hp' hf
      | error e' =>
        rw [ho] at hf
        have : e' = e := by simpa [bind, Except.bind] using hf
        subst this
        have hc := h i (List.mem_cons_self ..)
        unfold calcOp at ho
        have h1 : i.c = 0x2B ∨ i.c = 0x2D ∨ i.c = 0x2A ∨ i.c = 0x2F := by
          unfold IsOp at hc
          cases lv <;> simp only [Bool.false_eq_true, if_false, if_true] at hc <;> tauto
        rcases h1 with h1 | h1 | h1 | h1 <;> rw [h1] at ho <;> simp at ho
        split at ho <;> simp at ho
        exact ho.symm

/-- The callback `xx`. -/
theorem called_xx {n : Int} {l : List Ast} {s : Bytes} : called (calcOps u) N (some 0) (.ok (some (.map [("first", .int n), ("rest", .arr l)], s))) =
    match l.foldlM calcStep n with
    | .ok m => .ok (some (.int m, s))
    | .error e => .error e := by
  have h1 : (calcOps u).cb 0 (.map [("first", .int n), ("rest", .arr l)]) (N - s.length) = ((l.foldlM calcStep n).map Ast.int).map some := rfl
  simp only [called, h1]
  cases l.foldlM calcStep n <;> rfl

/-- A product. -/
theorem term_gets (hB : FindsBlank reB) {d : Nat} {t : Bytes} {v : Option Int} (ht : Operand u N reB reI false (d + 1) t v) {items : List Item}
    (h : ∀ i ∈ items, i.Good u N reB reI false (d + 1)) :
    Operand u N reB reI true (d + 2) (t ++ itemsText items) (levelVal v (pairs items)) := by
  obtain ⟨⟨c, t', rfl, hc⟩, ht⟩ := ht
  refine ⟨⟨c, t' ++ itemsText items, rfl, hc⟩, fun lab s hs => ?_⟩
  have hstop : Stop false s := ⟨⟨hs.1, fun h => by cases h⟩, hs.2 rfl⟩
  have hmem : ("Term", some 0, Body.text calcTerm) ∈ rulesOf (calcRules reB reI) := by
    simp [calcRules, rulesOf, GLine.rules, Body.rules]
  have h1 := ht "first" _ (follow_items h hstop)
  have h2 := rest_items hB hstop items h
  have hassoc : (c :: t') ++ itemsText items ++ s = (c :: t') ++ (itemsText items ++ s) := List.append_assoc ..
  rw [hassoc]
  unfold Gets at h1
  cases v with
  | none =>
    obtain ⟨e, he, h1⟩ := h1
    exact ⟨e, he, named hmem (.inl rfl) term_vp rfl (r := .error e) (.seq (.itemsPanic h1))⟩
  | some n =>
    cases hp : pairs items with
    | none =>
      rw [hp] at h2
      obtain ⟨e, he, h2⟩ := h2
      exact ⟨e, he, named hmem (.inl rfl) term_vp rfl (r := .error e) (.seq (.itemsPut h1 rfl (.itemsPanic h2)))⟩
    | some l =>
      rw [hp] at h2
      have h3 := named (h := true) (lab := lab) (q := false) hmem (.inl rfl) term_vp rfl
        (r := .ok (some (.map [("first", .int n), ("rest", .arr l)], s))) (.seq (.itemsPut h1 rfl (.itemsPut h2 rfl (.itemsEnd rfl))))
      have h4 := h3
      rw [called_xx] at h4
      simp only [levelVal]
      cases hf : l.foldlM calcStep n with
      | ok m =>
        rw [hf] at h4
        exact h4
      | error e =>
        rw [hf] at h4
        exact ⟨e, .inl (fold_bad (fun i hi => (h i hi).2.2.1) hp hf), h4⟩

/-- What ends an expression: nothing that continues it. -/
def End (s : Bytes) : Prop := ∀ c s', s = c :: s' → ¬ IsBlank c ∧ ¬ IsDigit c ∧ ¬ IsOp true c ∧ ¬ IsOp false c

theorem End.stop {s : Bytes} (h : End s) {w : Bytes} (hw : ∀ c ∈ w, IsBlank c) : Stop true (w ++ s) ∧ skip (w ++ s) = s := by
  have h1 : skip (w ++ s) = s := by rw [skip_append hw, skip_id fun c s' e => (h c s' e).1]
  refine ⟨⟨⟨noDigit_blanks hw fun c s' e => (h c s' e).2.1, fun _ c s' e => ?_⟩, fun c s' e => ?_⟩, h1⟩
  · rw [h1] at e; exact (h c s' e).2.2.2
  · rw [h1] at e; exact (h c s' e).2.2.1

/-- The rule `Expr`, with its callback. -/
theorem expr_gets (hB : FindsBlank reB) {d : Nat} {t : Bytes} {v : Option Int} (ht : Operand u N reB reI true (d + 1) t v) {items : List Item}
    (h : ∀ i ∈ items, i.Good u N reB reI true (d + 1)) {w w' : Bytes} (hw : ∀ c ∈ w, IsBlank c) (hw' : ∀ c ∈ w', IsBlank c) {s : Bytes} (hs : End s) :
    ∃ r, Yields (calcOps u) N (calcRules reB reI) (d + 1) (.core false exprVP) (w ++ (t ++ (itemsText items ++ (w' ++ s)))) r ∧
      match levelVal v (pairs items) with
      | some n => called (calcOps u) N (some 0) r = .ok (some (.int n, s))
      | none => ∃ e, Bad e ∧ called (calcOps u) N (some 0) r = .error e := by
  obtain ⟨⟨c, t', rfl, hc⟩, ht⟩ := ht
  obtain ⟨hstop, hskip⟩ := hs.stop hw'
  obtain ⟨v0, h0⟩ := blanks (u := u) (N := N) (reI := reI) hB d (w ++ ((c :: t') ++ (itemsText items ++ (w' ++ s))))
  rw [skip_append hw, List.cons_append, skip_id fun c' s' h => by cases h; exact hc, ← List.cons_append] at h0
  obtain ⟨v3, h3⟩ := blanks (u := u) (N := N) (reI := reI) hB d (w' ++ s)
  rw [hskip] at h3
  have h1 := ht "first" _ (follow_items h hstop)
  have h2 := rest_items hB hstop items h
  unfold Gets at h1
  cases v with
  | none =>
    obtain ⟨e, he, h1⟩ := h1
    exact ⟨_, .seq (.itemsPut h0 rfl (.itemsPanic h1)), e, he, rfl⟩
  | some n =>
    cases hp : pairs items with
    | none =>
      rw [hp] at h2
      obtain ⟨e, he, h2⟩ := h2
      exact ⟨_, .seq (.itemsPut h0 rfl (.itemsPut h1 rfl (.itemsPanic h2))), e, he, rfl⟩
    | some l =>
      rw [hp] at h2
      refine ⟨_, .seq (.itemsPut h0 rfl (.itemsPut h1 rfl (.itemsPut h2 rfl (.itemsPut h3 rfl (.itemsEnd rfl))))), ?_⟩
      simp only [levelVal]
      have hxx := called_xx (u := u) (N := N) (n := n) (l := l) (s := s)
      cases hf : l.foldlM calcStep n with
      | ok m =>
        rw [hf] at hxx
        exact hxx
      | error e =>
        rw [hf] at hxx
        exact ⟨e, .inl (fold_bad (fun i hi => (h i hi).2.2.1) hp hf), hxx⟩

/-! ## Integers -/

theorem atoi_number (neg : Bool) (ds : Bytes) (hne : ds ≠ []) (hd : ∀ c ∈ ds, IsDigit c) :
    atoi ((if neg then [0x2D] else []) ++ ds) = number neg ds := by
  have h1 : ∀ neg, atoiSigned neg ds = number neg ds := by
    intro neg
    have h2 : atoiDigits 0 ds = some (Arith.decimal ds) := RuleText.atoiDigits_eq ds hd 0
    unfold atoiSigned number
    rw [if_neg hne, h2]
    dsimp only
    generalize (if neg then -(Arith.decimal ds : Int) else Arith.decimal ds) = x
    by_cases h : minInt ≤ x ∧ x ≤ maxInt
    · rw [if_pos h, if_pos (by unfold Fits; unfold minInt maxInt at h; omega)]
    · rw [if_neg h, if_neg (by unfold Fits; unfold minInt maxInt at h; omega)]
  cases neg with
  | true => simp only [if_true, List.cons_append, List.nil_append, atoi, h1]
  | false =>
    match ds, hne, hd, h1 with
    | c :: ds, _, hd, h1 =>
      have hc := hd c (List.mem_cons_self ..)
      have h2 : c ≠ 0x2D := by rintro rfl; revert hc; decide
      have h3 : c ≠ 0x2B := by rintro rfl; revert hc; decide
      simp only [Bool.false_eq_true, if_false, List.nil_append, atoi, h2, h3, h1]

/-- The rule `Integer`. -/
theorem integer_gets (hI : FindsInt reI) (d : Nat) (neg : Bool) {ds : Bytes} (hne : ds ≠ []) (hd : ∀ c ∈ ds, IsDigit c) {s : Bytes} (hs : NoDigit s) (h : Bool) :
    Gets u N reB reI (d + 1) (.part h (.name "" "Integer" false)) ((if neg then [0x2D] else []) ++ ds ++ s) (number neg ds) s := by
  have hmem : ("Integer", some 1, Body.text (calcInteger reI)) ∈ rulesOf (calcRules reB reI) := by
    simp [calcRules, rulesOf, GLine.rules, Body.rules]
  have h1 := named (u := u) (N := N) (d := d) (h := h) (lab := "") (q := false) hmem (.inr rfl) (integer_vp reI) rfl (.re (hI.1 neg ds s hne hd hs))
  rw [List.take_left', List.drop_left'] at h1 <;> try rfl
  have h2 : (calcOps u).cb 1 (.str ((if neg then [0x2D] else []) ++ ds)) (N - s.length) =
      (match number neg ds with | some n => .ok (some (.int n)) | none => .error .notANumber) := by
    show (nativeIntFrom u (.str ((if neg then [0x2D] else []) ++ ds))).map some = _
    simp only [nativeIntFrom, atoi_number neg ds hne hd]
    cases number neg ds <;> rfl
  have h3 : called (calcOps u) N (some 1) (.ok (some ((calcOps u).str ((if neg then [0x2D] else []) ++ ds), s))) =
      (match number neg ds with | some n => .ok (some (.int n, s)) | none => .error .notANumber) := by
    have h4 : (calcOps u).cb 1 ((calcOps u).str ((if neg then [0x2D] else []) ++ ds)) (N - s.length) = _ := h2
    simp only [called, h4]
    cases number neg ds <;> rfl
  rw [h3] at h1
  unfold Gets
  cases hn : number neg ds with
  | some n => rw [hn] at h1; exact h1
  | none => rw [hn] at h1; exact ⟨_, .inr rfl, h1⟩

end
end Joeson.Calc
