import Verif.Spec.Precedence2
import Verif.Model.Precedence2
import Verif.Proofs.Precedence
import Verif.Proofs.Calculator2
import Verif.Proofs.Deriv
/-! # examples/precedence: two levels of precedence -/

namespace Joeson
open RuleText Sample Arith Calc

section
variable {V : Type} {P : PureOps V} {N : Nat} {L : List GLine}

/-- Rules may be nested deeper. -/
theorem yields_up {d : Nat} {j : VJob V} {s : Bytes} {r : VRes V} (h : Yields P N L d j s r) : ∀ k, Yields P N L (d + k) j s r := by
  intro k
  induction h with
  | part _ ih => exact .part ih
  | lit => exact .lit
  | litMiss h => exact .litMiss h
  | re h => exact .re h
  | reMiss h => exact .reMiss h
  | name h _ ih => exact .name h ih
  | alt _ ih => exact .alt ih
  | altsEnd => exact .altsEnd
  | altsDone _ h ih => exact .altsDone ih h
  | altsMiss _ _ ih ih' => exact .altsMiss ih ih'
  | seq _ ih => exact .seq ih
  | itemsEnd h => exact .itemsEnd h
  | itemsMiss _ ih => exact .itemsMiss ih
  | itemsPanic _ ih => exact .itemsPanic ih
  | itemsPut _ h _ ih ih' => exact .itemsPut ih h ih'
  | itemsBad _ h ih => exact .itemsBad ih h
  | optDone _ h ih => exact .optDone ih h
  | optMiss _ ih => exact .optMiss ih
  | notHit _ ih => exact .notHit ih
  | notMiss _ ih => exact .notMiss ih
  | notPanic _ ih => exact .notPanic ih
  | lookHit _ ih => exact .lookHit ih
  | lookMiss _ ih => exact .lookMiss ih
  | lookPanic _ ih => exact .lookPanic ih
  | repMiss _ ih => exact .repMiss ih
  | repPanic _ ih => exact .repPanic ih
  | rep _ _ ih ih' => exact .rep ih ih'
  | sepNone => exact .sepNone
  | sepSome _ ih => exact .sepSome ih
  | full h => exact .full h
  | noSep h _ ih => exact .noSep h ih
  | sepPanic h _ ih => exact .sepPanic h ih
  | noMore h _ _ ih ih' => exact .noMore h ih ih'
  | morePanic h _ _ ih ih' => exact .morePanic h ih ih'
  | more h _ _ _ ih ih' ih'' => exact .more h ih ih' ih''
  | text _ ih => rw [Nat.add_right_comm]; exact .text ih
  | rank _ ih => rw [Nat.add_right_comm]; exact .rank ih
  | linesEnd => exact .linesEnd
  | incl _ ih => exact .incl ih
  | altDone _ h ih => exact .altDone ih h
  | altMiss _ _ ih ih' => exact .altMiss ih ih'

theorem yields_upTo {d d' : Nat} {j : VJob V} {s : Bytes} {r : VRes V} (h : Yields P N L d j s r) (hd : d ≤ d') : Yields P N L d' j s r := by
  obtain ⟨k, rfl⟩ := Nat.exists_eq_add_of_le hd
  exact yields_up h k

end

namespace Moss

/-- Without the blanks in front, if there may be any. -/
def skipG (gap : Bool) (s : Bytes) : Bytes := if gap then skip s else s

/-- `op operand`, or `_ op _ operand` -/
def tailVP (gap : Bool) (op operand : String) : VP :=
  if gap then .seq "" [.name "" "_" true, .name "" op false, .name "" "_" true, .name "" operand false]
  else .seq "" [.name "" op false, .name "" operand false]

/-- A level. -/
def levelVP (gap : Bool) (op operand : String) : VP := .seq "" [.name "" operand false, .rep "" (tailVP gap op operand) none 0 none]

theorem sum_vp (gap : Bool) : (sumE gap).vp = levelVP gap "AddOp" "Term" := by cases gap <;> kernel_rfl
theorem prod_vp (gap : Bool) : (prodE gap).vp = levelVP gap "MulOp" "Factor" := by cases gap <;> kernel_rfl
theorem factor_vp : factorE.vp = .alt "" [.seq "" [.lit "" [0x28], .name "" "Expr" false, .lit "" [0x29]], .name "" "Glyph" false] := by kernel_rfl
theorem mul_vp : mulOpE.vp = .alt "" [.lit "" [0x2A], .lit "" [0x2F]] := by kernel_rfl

/-- An outcome; `none`: a panic of a type assertion. -/
def res (val : Option Ast) (s : Bytes) : VRes Ast :=
  match val with
  | some v => .ok (some (v, s))
  | none => .error .badType

/-- What a grammar needs, but for the rule `Expr`. -/
structure Needs (L : List GLine) (reG reB : Regex) (gap strict : Bool) : Prop where
  G : FindsGlyph reG
  B : gap = true → FindsBlank reB
  rG : ("Glyph", none, Body.text (glyphE reG)) ∈ rulesOf L
  rA : ("AddOp", none, Body.text addOpE) ∈ rulesOf L
  rM : ("MulOp", none, Body.text mulOpE) ∈ rulesOf L
  rB : gap = true → ("_", none, Body.text (blankE reB)) ∈ rulesOf L
  rT : ("Term", some 0, Body.text (prodE gap)) ∈ rulesOf L
  rF : ("Factor", if strict then some 0 else none, Body.text factorE) ∈ rulesOf L

/-- The rule `Expr` is a sum and `growMoss`. `k`: how deep the rules are from its name to the sum. -/
def ExprOk (u : UserString) (N : Nat) (L : List GLine) (gap : Bool) (k : Nat) : Prop :=
  ∀ d s r h, Yields (mossOps u) N L d (.part false (levelVP gap "AddOp" "Term")) s r → r ≠ .ok none →
    Yields (mossOps u) N L (d + k) (.part h (.name "" "Expr" false)) s (called (mossOps u) N (some 0) r)

/-- What may follow an operand. -/
def Follow (gap lv : Bool) (s : Bytes) : Prop := lv = true → ∀ c s', skipG gap s = c :: s' → ¬ IsOp false c

/-- What may follow a sum or product. -/
def Stop (gap lv : Bool) (s : Bytes) : Prop := Follow gap lv s ∧ ∀ c s', skipG gap s = c :: s' → ¬ IsOp lv c

/-- An operator and an operand. -/
structure Item where
  w : Bytes
  c : UInt8
  w' : Bytes
  text : Bytes
  val : Option Ast

/-- As text. -/
def Item.bytes (i : Item) : Bytes := i.w ++ [i.c] ++ i.w' ++ i.text

/-- As text. -/
def itemsText (l : List Item) : Bytes := l.flatMap Item.bytes

/-- The values. -/
def pairs : List Item → Option (List (UInt8 × Ast))
  | [] => some []
  | i :: l => match i.val, pairs l with
    | some v, some l' => some ((i.c, v) :: l')
    | _, _ => none

/-- As an array. -/
def pair (x : UInt8 × Ast) : Ast := .arr [.str [x.1], x.2]

/-- The operations, from left to right. -/
def levelVal : Option Ast → Option (List (UInt8 × Ast)) → Option Ast
  | some v, some l => some (l.foldl (fun m o => binaryexpr m [o.1] o.2) v)
  | _, _ => none

section
variable {u : UserString} {N : Nat} {L : List GLine} {reG reB : Regex} {gap strict : Bool} {k : Nat}

/-- The text of an operand with this value. -/
def Operand (u : UserString) (N : Nat) (L : List GLine) (gap lv : Bool) (d : Nat) (text : Bytes) (val : Option Ast) : Prop :=
  (∃ c t, text = c :: t ∧ ¬ IsBlank c) ∧
  ∀ s, Follow gap lv s → Yields (mossOps u) N L d (.part true (.name "" (operandName lv) false)) (text ++ s) (res val s)

/-- An item of a level. -/
def Item.Good (u : UserString) (N : Nat) (L : List GLine) (gap lv : Bool) (d : Nat) (i : Item) : Prop :=
  Gap gap i.w ∧ Gap gap i.w' ∧ IsOp lv i.c ∧ Operand u N L gap lv d i.text i.val

theorem Operand.up {lv : Bool} {d d' : Nat} {t : Bytes} {v : Option Ast} (h : Operand u N L gap lv d t v) (hd : d ≤ d') : Operand u N L gap lv d' t v :=
  ⟨h.1, fun s hs => yields_upTo (h.2 s hs) hd⟩

theorem Item.Good.up {lv : Bool} {d d' : Nat} {i : Item} (h : i.Good u N L gap lv d) (hd : d ≤ d') : i.Good u N L gap lv d' :=
  ⟨h.1, h.2.1, h.2.2.1, h.2.2.2.up hd⟩

theorem skipG_append {w : Bytes} (hw : Gap gap w) (s : Bytes) : skipG gap (w ++ s) = skipG gap s := by
  cases gap with
  | true => exact skip_append hw.1 s
  | false => rw [hw.2 rfl]; rfl

theorem skipG_id {s : Bytes} (h : ∀ c s', s = c :: s' → ¬ IsBlank c) : skipG gap s = s := by
  cases gap with
  | true => exact skip_id h
  | false => rfl

theorem skipG_op {w : Bytes} (hw : Gap gap w) {lv : Bool} {c : UInt8} (hc : IsOp lv c) (s : Bytes) : skipG gap (w ++ c :: s) = c :: s := by
  rw [skipG_append hw, skipG_id fun c' s' h => by cases h; exact op_not_blank hc]

theorem follow_items {lv : Bool} {d : Nat} {items : List Item} (h : ∀ i ∈ items, i.Good u N L gap lv d) {s : Bytes} (hs : Stop gap lv s) :
    Follow gap lv (itemsText items ++ s) := by
  cases items with
  | nil => exact hs.1
  | cons i l =>
    have hi := h i (List.mem_cons_self ..)
    have : itemsText (i :: l) ++ s = i.w ++ i.c :: (i.w' ++ (i.text ++ (itemsText l ++ s))) := by
      simp [itemsText, Item.bytes]
    rw [this]
    intro hlv c' s' h'
    rw [skipG_op hi.1 hi.2.2.1] at h'
    cases h'
    subst hlv
    exact op_other hi.2.2.1

/-! ## Blanks and operators -/

theorem blanks (n : Needs L reG reB true strict) (d : Nat) (s : Bytes) : ∃ v,
    Yields (mossOps u) N L (d + 1) (.part true (.name "" "_" true)) s (.ok (some (v, skip s))) := by
  obtain ⟨w, hw, hs⟩ := skip_split s
  have hB : FindsOne IsBlank reB := n.B rfl
  have hn : NoneOf IsBlank (skip s) := fun c s' h => skip_head h
  have h1 := Yields.repCls (P := mossOps u) (N := N) (L := L) (d := d) hB (h := false) (lab := "") (.inr rfl) hw hn
  rw [← hs] at h1
  exact ⟨_, Yields.call (.inl rfl) (n.rB rfl) (by have h2 := Yields.rtext (cb := none) (e := blankE reB) rfl h1; exact h2)⟩

theorem op_mem (n : Needs L reG reB gap strict) (lv : Bool) : ∃ e a b, (opName lv, none, Body.text e) ∈ rulesOf L ∧
    e.vp = .alt "" [.lit "" [a], .lit "" [b]] ∧ ∀ c, IsOp lv c ↔ c = a ∨ c = b := by
  cases lv
  · exact ⟨mulOpE, _, _, n.rM, mul_vp, fun c => by simp [IsOp]⟩
  · exact ⟨addOpE, _, _, n.rA, addOpE_vp, fun c => by simp [IsOp]⟩

theorem op_hit (n : Needs L reG reB gap strict) (lv : Bool) (d : Nat) {c : UInt8} (hc : IsOp lv c) (s : Bytes) :
    Yields (mossOps u) N L (d + 1) (.part true (.name "" (opName lv) false)) (c :: s) (.ok (some (.str [c], s))) := by
  obtain ⟨e, a, b, hm, hvp, hop⟩ := op_mem n lv
  refine Yields.call (.inl rfl) hm (Yields.rtext (cb := none) (r := .ok (some (Ast.str [c], s))) hvp (Yields.bare (.inr rfl) (.alt ?_)))
  by_cases ha : c = a
  · subst ha
    exact .altsDone (Yields.plit (b := [c])) (by simp)
  · have hb : c = b := ((hop c).1 hc).resolve_left ha
    subst hb
    exact .altsMiss (Yields.plitMiss (b := [a]) fun s' h => ha (by injection h)) (.altsDone (Yields.plit (b := [c])) (by simp))

theorem op_miss (n : Needs L reG reB gap strict) (lv : Bool) (d : Nat) {s : Bytes} (hs : ∀ c s', s = c :: s' → ¬ IsOp lv c) :
    Yields (mossOps u) N L (d + 1) (.part true (.name "" (opName lv) false)) s (.ok none) := by
  obtain ⟨e, a, b, hm, hvp, hop⟩ := op_mem n lv
  refine Yields.call (.inl rfl) hm (Yields.rtext (cb := none) (r := .ok none) hvp (Yields.bare (.inr rfl) (.alt ?_)))
  exact .altsMiss (Yields.plitMiss (b := [a]) fun s' h => hs _ _ h ((hop _).2 (.inl rfl)))
    (.altsMiss (Yields.plitMiss (b := [b]) fun s' h => hs _ _ h ((hop _).2 (.inr rfl))) .altsEnd)

/-! ## Levels -/

theorem item_miss (n : Needs L reG reB gap strict) (lv : Bool) (d : Nat) {s : Bytes} (hs : ∀ c s', skipG gap s = c :: s' → ¬ IsOp lv c) :
    Yields (mossOps u) N L (d + 1) (.part false (tailVP gap (opName lv) (operandName lv))) s (.ok none) := by
  cases gap with
  | true =>
    obtain ⟨v, h⟩ := blanks (u := u) (N := N) n d s
    exact Yields.bare (.inr rfl) (.seq (.itemsPut h rfl (.itemsMiss (op_miss n lv d hs))))
  | false => exact Yields.bare (.inr rfl) (.seq (.itemsMiss (op_miss n lv d hs)))

theorem item_gets (n : Needs L reG reB gap strict) {lv : Bool} {d : Nat} {i : Item} (hi : i.Good u N L gap lv (d + 1)) {s : Bytes} (hs : Follow gap lv s) :
    Yields (mossOps u) N L (d + 1) (.part false (tailVP gap (opName lv) (operandName lv))) (i.bytes ++ s)
      (res (i.val.map fun v => pair (i.c, v)) s) := by
  obtain ⟨hw, hw', hc, ⟨c0, t, htext, hc0⟩, hop⟩ := hi
  have hb : i.bytes ++ s = i.w ++ i.c :: (i.w' ++ (i.text ++ s)) := by simp [Item.bytes]
  have h1 := hop s hs
  have h2 := op_hit (u := u) (N := N) n lv d hc (i.w' ++ (i.text ++ s))
  rw [hb]
  cases gap with
  | true =>
    obtain ⟨v, hv⟩ := blanks (u := u) (N := N) n d (i.w ++ i.c :: (i.w' ++ (i.text ++ s)))
    have e1 : skip (i.w ++ i.c :: (i.w' ++ (i.text ++ s))) = _ := skipG_op hw hc _
    rw [e1] at hv
    obtain ⟨v', hv'⟩ := blanks (u := u) (N := N) n d (i.w' ++ (i.text ++ s))
    have e2 : skip (i.w' ++ (i.text ++ s)) = i.text ++ s := by
      rw [skip_append hw'.1, htext, List.cons_append, skip_id fun c' s' h => by cases h; exact hc0]
    rw [e2] at hv'
    refine Yields.bare (.inr rfl) (.seq (.itemsPut hv rfl (.itemsPut h2 rfl (.itemsPut hv' rfl ?_))))
    cases hval : i.val with
    | none => rw [hval] at h1; exact .itemsPanic h1
    | some v => rw [hval] at h1; exact .itemsPut h1 rfl (.itemsEnd rfl)
  | false =>
    have e1 := hw.2 rfl
    have e2 := hw'.2 rfl
    rw [e2] at h2
    rw [e1, e2]
    refine Yields.bare (.inr rfl) (.seq (.itemsPut h2 rfl ?_))
    cases hval : i.val with
    | none => rw [hval] at h1; exact .itemsPanic h1
    | some v => rw [hval] at h1; exact .itemsPut h1 rfl (.itemsEnd rfl)

theorem more_items (n : Needs L reG reB gap strict) {lv : Bool} {d : Nat} {s : Bytes} (hs : Stop gap lv s) : ∀ (items : List Item),
    (∀ i ∈ items, i.Good u N L gap lv (d + 1)) → ∀ vs : List Ast,
    Yields (mossOps u) N L (d + 1) (.more (tailVP gap (opName lv) (operandName lv)) none 0 none vs) (itemsText items ++ s)
      (res ((pairs items).map fun l => .arr (vs ++ l.map pair)) s)
  | [], _, vs => by
    simp only [pairs, Option.map, List.map_nil, List.append_nil]
    exact .noMore Room.none .sepNone (item_miss n lv d hs.2)
  | i :: l, h, vs => by
    have hi := h i (List.mem_cons_self ..)
    have hl : ∀ i ∈ l, i.Good u N L gap lv (d + 1) := fun i hm => h i (List.mem_cons_of_mem _ hm)
    have h1 := item_gets n hi (follow_items hl hs)
    have htext : itemsText (i :: l) ++ s = i.bytes ++ (itemsText l ++ s) := by simp [itemsText]
    rw [htext, pairs]
    cases hv : i.val with
    | none => rw [hv] at h1; exact .morePanic Room.none .sepNone h1
    | some v =>
      rw [hv] at h1
      have h2 := more_items n hs l hl (vs ++ [pair (i.c, v)])
      refine .more Room.none .sepNone h1 ?_
      cases hp : pairs l with
      | none => rw [hp] at h2; exact h2
      | some l' => rw [hp] at h2; simpa [res] using h2

theorem rest_items (n : Needs L reG reB gap strict) {lv : Bool} {d : Nat} {s : Bytes} (hs : Stop gap lv s) (items : List Item)
    (h : ∀ i ∈ items, i.Good u N L gap lv (d + 1)) (hh : Bool) :
    Yields (mossOps u) N L (d + 1) (.part hh (.rep "" (tailVP gap (opName lv) (operandName lv)) none 0 none)) (itemsText items ++ s)
      (res ((pairs items).map fun l => .arr (l.map pair)) s) := by
  refine Yields.bare (.inr rfl) ?_
  match items, h with
  | [], _ => exact .repMiss (mn := 0) (item_miss n lv d hs.2)
  | i :: l, h =>
    have hi := h i (List.mem_cons_self ..)
    have hl : ∀ i ∈ l, i.Good u N L gap lv (d + 1) := fun i hm => h i (List.mem_cons_of_mem _ hm)
    have h1 := item_gets n hi (follow_items hl hs)
    have htext : itemsText (i :: l) ++ s = i.bytes ++ (itemsText l ++ s) := by simp [itemsText]
    rw [htext, pairs]
    cases hv : i.val with
    | none => rw [hv] at h1; exact .repPanic h1
    | some v =>
      rw [hv] at h1
      have h2 := more_items n hs l hl [pair (i.c, v)]
      refine .rep h1 ?_
      cases hp : pairs l with
      | none => rw [hp] at h2; exact h2
      | some l' => rw [hp] at h2; simpa [res] using h2

/-! ## The callback -/

theorem collect_pairs (l : List (UInt8 × Ast)) : collectOps u (l.map pair) = .ok (l.map fun x => ([x.1], x.2)) := by
  induction l with
  | nil => rfl
  | cons x l ih =>
    rw [List.map_cons, collectOps, ih]
    rfl

theorem grow_level (v : Ast) (l : List (UInt8 × Ast)) :
    growMoss u (.arr [v, .arr (l.map pair)]) = .ok (l.foldl (fun m o => binaryexpr m [o.1] o.2) v) := by
  have h : growMoss u (.arr [v, .arr (l.map pair)]) = (do
    let operations ← collectOps u (l.map pair)
    return operations.foldl (fun moss o => binaryexpr moss o.1 o.2) v) := rfl
  rw [h, collect_pairs]
  show Except.ok _ = _
  rw [List.foldl_map]

theorem called_moss (v : Ast) (s : Bytes) : called (mossOps u) N (some 0) (.ok (some (v, s))) = (growMoss u v).map fun v => some (v, s) := by
  have h1 : (mossOps u).cb 0 v (N - s.length) = (growMoss u v).map some := rfl
  simp only [called, h1]
  cases growMoss u v <;> rfl

theorem level_form (gap lv : Bool) : formOf [.name "" (operandName lv) false, .rep "" (tailVP gap (opName lv) (operandName lv)) none 0 none] = .array := by
  cases gap <;> cases lv <;> decide

theorem tail_raw (gap lv : Bool) : (tailVP gap (opName lv) (operandName lv)).raw = true := by
  cases gap <;> rfl

/-- A level, before the callback. -/
theorem level_gets (n : Needs L reG reB gap strict) {lv : Bool} {d : Nat} {t : Bytes} {v : Option Ast} (ht : Operand u N L gap lv (d + 1) t v)
    {items : List Item} (h : ∀ i ∈ items, i.Good u N L gap lv (d + 1)) {s : Bytes} (hs : Stop gap lv s) :
    ∃ r, Yields (mossOps u) N L (d + 1) (.part false (levelVP gap (opName lv) (operandName lv))) (t ++ itemsText items ++ s) r ∧ r ≠ .ok none ∧
      called (mossOps u) N (some 0) r = res (levelVal v (pairs items)) s := by
  have h1 := ht.2 _ (follow_items h hs)
  have h2 := rest_items n hs items h true
  rw [List.append_assoc]
  have hf := level_form gap lv
  have hk := tail_raw gap lv
  cases v with
  | none => exact ⟨_, Yields.bare (.inr rfl) (.seq (.itemsPanic h1)), by simp, rfl⟩
  | some v =>
    cases hp : pairs items with
    | none =>
      rw [hp] at h2
      exact ⟨_, Yields.bare (.inr rfl) (.seq (by rw [hf]; exact .itemsPut h1 rfl (.itemsPanic h2))), by simp, rfl⟩
    | some l =>
      rw [hp] at h2
      refine ⟨.ok (some (.arr [v, .arr (l.map pair)], s)), Yields.bare (.inr rfl) (.seq (by
        rw [hf]
        have hg : gather (mossOps u) .array ([] ++ [(.name "" (operandName lv) false, v)] ++ [(.rep "" (tailVP gap (opName lv) (operandName lv)) none 0 none, .arr (l.map pair))]) =
            .ok (.arr [v, .arr (l.map pair)]) := by
          simp only [gather, kept, List.nil_append, List.singleton_append, List.filter_cons, hk, VP.keeps, Bool.not_false, if_true, List.filter_nil, List.map]
          rfl
        exact .itemsPut h1 rfl (.itemsPut h2 hg (.itemsEnd hg)))), by simp, ?_⟩
      rw [called_moss, grow_level]
      rfl

/-- A product is an operand of a sum. -/
theorem term_gets (n : Needs L reG reB gap strict) {d : Nat} {t : Bytes} {v : Option Ast} (ht : Operand u N L gap false (d + 1) t v)
    {items : List Item} (h : ∀ i ∈ items, i.Good u N L gap false (d + 1)) :
    Operand u N L gap true (d + 2) (t ++ itemsText items) (levelVal v (pairs items)) := by
  obtain ⟨c, t', hc, hb⟩ := ht.1
  refine ⟨⟨c, t' ++ itemsText items, by rw [hc]; rfl, hb⟩, fun s hs => ?_⟩
  obtain ⟨r, hr, _, hr'⟩ := level_gets n ht h (s := s) ⟨fun h => (by cases h), hs rfl⟩
  rw [← hr']
  exact Yields.call (.inl rfl) n.rT (Yields.rtext (prod_vp gap) hr)

/-! ## Trees -/

theorem pairs_append : ∀ l l' : List Item, pairs (l ++ l') = match pairs l, pairs l' with
    | some a, some b => some (a ++ b)
    | _, _ => none
  | [], l' => by simp only [List.nil_append, pairs]; cases pairs l' <;> rfl
  | i :: l, l' => by
    simp only [List.cons_append, pairs, pairs_append l l']
    cases i.val <;> cases pairs l <;> cases pairs l' <;> rfl

theorem levelVal_append (v : Option Ast) (l : List Item) (i : Item) : levelVal v (pairs (l ++ [i])) =
    match levelVal v (pairs l), i.val with
    | some a, some b => some (binaryexpr a [i.c] b)
    | _, _ => none := by
  rw [pairs_append]
  cases v with
  | none => rfl
  | some n =>
    cases pairs l with
    | none => rfl
    | some l' =>
      cases hv : i.val with
      | none => simp [pairs, hv, levelVal]
      | some m => simp [pairs, hv, levelVal]

/-- The value, or a panic. -/
def valOf (strict bad : Bool) (v : Ast) : Option Ast := if strict && bad then none else some v

theorem valOf_op (strict b b' : Bool) (v v' : Ast) (o : UInt8) : (match valOf strict b v, valOf strict b' v' with
    | some a, some b => some (binaryexpr a [o] b)
    | _, _ => none) = valOf strict (b || b') (binaryexpr v [o] v') := by
  cases strict <;> cases b <;> cases b' <;> rfl

mutual
theorem shapeF (f : MFactor) : if f.bare then ∃ b, f.tree = .str b else ∃ l, f.tree = .user 0 l := by
  match f with
  | .glyph a => exact ⟨[a], rfl⟩
  | .paren s => exact shapeS s
theorem shapeP (p : MProd) : if p.bare then ∃ b, p.tree = .str b else ∃ l, p.tree = .user 0 l := by
  match p with
  | .one f => exact shapeF f
  | .op .. => exact ⟨_, rfl⟩
theorem shapeS (s : MSum) : if s.bare then ∃ b, s.tree = .str b else ∃ l, s.tree = .user 0 l := by
  match s with
  | .one p => exact shapeP p
  | .op .. => exact ⟨_, rfl⟩
end

theorem flatF (f : MFactor) (h : f.nest = 0) : f.parenOp = false := by
  match f, h with
  | .glyph _, _ => rfl
  | .paren _, h => simp [MFactor.nest] at h

theorem flatP : ∀ (p : MProd), p.nest = 0 → p.parenOp = false
  | .one f, h => flatF f h
  | .op p _ _ _ f, h => by
    simp only [MProd.nest, Nat.max_eq_zero_iff] at h
    rw [MProd.parenOp, flatP p h.1, flatF f h.2]
    rfl

theorem addOp_isOp (o : AddOp) : IsOp true o.char := by cases o <;> simp [IsOp, AddOp.char]
theorem mulOp_isOp (o : MulOp) : IsOp false o.char := by cases o <;> simp [IsOp, MulOp.char]

theorem glyph_not_blank {a : UInt8} (ha : IsGlyph a) : ¬ IsBlank a := by
  intro h
  unfold IsBlank at h
  unfold IsGlyph at ha
  rcases h with rfl | rfl <;> revert ha <;> decide

theorem glyph_not_paren {a : UInt8} (ha : IsGlyph a) : a ≠ 0x28 := by
  rintro rfl
  unfold IsGlyph at ha
  revert ha
  decide

/-- How deep the rules of a factor are nested. -/
def deep (k nest : Nat) : Nat := 2 + nest * (k + 2)

theorem deep_mono {k a b : Nat} (h : a ≤ b) : deep k a ≤ deep k b := by
  have := Nat.mul_le_mul_right (k + 2) h
  unfold deep
  omega

theorem factor_glyph (n : Needs L reG reB gap strict) {a : UInt8} (ha : IsGlyph a) : Operand u N L gap false 2 [a] (some (.str [a])) := by
  refine ⟨⟨a, [], rfl, glyph_not_blank ha⟩, fun s _ => ?_⟩
  have h1 : Yields (mossOps u) N L 1 (.part false (.name "" "Glyph" false)) (a :: s) (.ok (some (.str [a], s))) :=
    Yields.call (.inr rfl) n.rG (Yields.rtext (cb := none) (r := .ok (some (Ast.str [a], s))) (p := .re "" reG) rfl (Yields.bare (.inr rfl) (.re (n := 1) (n.G.1 a s ha))))
  have h2 : Yields (mossOps u) N L 1 (.part false (.alt "" [.seq "" [.lit "" [0x28], .name "" "Expr" false, .lit "" [0x29]], .name "" "Glyph" false])) (a :: s)
      (.ok (some (.str [a], s))) :=
    Yields.bare (.inr rfl) (.alt (.altsMiss (Yields.bare (.inr rfl) (.seq (.itemsMiss (Yields.plitMiss (b := [0x28])
      fun s' h => glyph_not_paren ha (by injection h))))) (.altsDone h1 (by simp))))
  have h3 := Yields.call (h := true) (lab := "") (q := false) (.inl rfl) n.rF (Yields.rtext factor_vp h2)
  have h4 : called (mossOps u) N (if strict = true then some 0 else none) (.ok (some (.str [a], s))) = res (some (.str [a])) s := by
    cases strict
    · rfl
    · rw [if_pos rfl, called_moss]; rfl
  rw [h4] at h3
  exact h3

/-- Nothing or a closing parenthesis. -/
theorem stop_end {s : Bytes} (h : s = [] ∨ ∃ s', s = 0x29 :: s') : Stop gap true s := by
  have h1 : skipG gap s = s := by
    refine skipG_id fun c s' hc => ?_
    rcases h with rfl | ⟨_, rfl⟩ <;> cases hc
    decide
  refine ⟨fun _ c s' hc => ?_, fun c s' hc => ?_⟩ <;> rw [h1] at hc <;> rcases h with rfl | ⟨_, rfl⟩ <;> cases hc <;> decide

theorem term_ok (n : Needs L reG reB gap strict) {p : MProd} (h : ∃ t v items, p.text = t ++ itemsText items ∧ Operand u N L gap false (deep k p.nest) t v ∧
    (∀ i ∈ items, i.Good u N L gap false (deep k p.nest)) ∧ levelVal v (pairs items) = valOf strict p.parenOp p.tree) :
    Operand u N L gap true (deep k p.nest + 1) p.text (valOf strict p.parenOp p.tree) := by
  obtain ⟨t, v, items, htext, ht, hitems, hval⟩ := h
  rw [htext, ← hval]
  have : deep k p.nest = (p.nest * (k + 2) + 1) + 1 := by unfold deep; omega
  rw [this] at ht hitems ⊢
  exact term_gets n ht hitems

mutual
theorem factor_ok (n : Needs L reG reB gap strict) (f : MFactor) (hE : f.nest ≠ 0 → ExprOk u N L gap k) (hf : f.Ok gap) :
    Operand u N L gap false (deep k f.nest) f.text (valOf strict f.parenOp f.tree) := by
  match f, hE, hf with
  | .glyph a, _, ha =>
    have h : valOf strict (MFactor.glyph a).parenOp (MFactor.glyph a).tree = some (.str [a]) := by cases strict <;> rfl
    rw [h]
    have h2 : deep k (MFactor.glyph a).nest = 2 := by simp [deep, MFactor.nest]
    rw [h2]
    exact factor_glyph n ha
  | .paren s, hE, hs =>
    have hE := hE (Nat.succ_ne_zero _)
    obtain ⟨t, v, items, htext, ht, hitems, hval⟩ := sum_ok n s (fun _ => hE) hs
    refine ⟨⟨0x28, s.text ++ [0x29], rfl, by decide⟩, fun s' _ => ?_⟩
    obtain ⟨r, hr, hne, hr'⟩ := level_gets n (d := deep k s.nest) ht hitems (s := 0x29 :: s') (stop_end (.inr ⟨_, rfl⟩))
    have h1 := hE _ _ _ true hr hne
    rw [hr', hval, ← htext] at h1
    have hassoc : (MFactor.paren s).text ++ s' = [0x28] ++ (s.text ++ 0x29 :: s') := by simp [MFactor.text]
    rw [hassoc]
    have hdeep : deep k (MFactor.paren s).nest = deep k s.nest + 1 + k + 1 := by
      simp only [MFactor.nest, deep, Nat.add_mul, Nat.one_mul]
      omega
    rw [hdeep]
    have h2 : Yields (mossOps u) N L (deep k s.nest + 1 + k) (.part false (.alt "" [.seq "" [.lit "" [0x28], .name "" "Expr" false, .lit "" [0x29]], .name "" "Glyph" false]))
        ([0x28] ++ (s.text ++ 0x29 :: s')) (res (valOf strict s.parenOp s.tree) s') := by
      refine Yields.bare (.inr rfl) (.alt (.altsDone (Yields.bare (.inr rfl) (.seq (.itemsPut Yields.plit rfl ?_))) ?_))
      · cases hv : valOf strict s.parenOp s.tree with
        | none => rw [hv] at h1; exact .itemsPanic h1
        | some v => rw [hv] at h1; exact .itemsPut h1 rfl (.itemsPut (Yields.plit (b := [0x29])) rfl (.itemsEnd rfl))
      · cases valOf strict s.parenOp s.tree <;> simp [res]
    have h3 := Yields.call (h := true) (lab := "") (q := false) (.inl rfl) n.rF (Yields.rtext factor_vp h2)
    have h4 : called (mossOps u) N (if strict = true then some 0 else none) (res (valOf strict s.parenOp s.tree) s') =
        res (valOf strict (MFactor.paren s).parenOp (MFactor.paren s).tree) s' := by
      have hsh := shapeS s
      cases strict with
      | false => rfl
      | true =>
        rw [if_pos rfl]
        simp only [MFactor.parenOp, MFactor.tree]
        cases hp : s.parenOp with
        | true => simp [valOf, res, called]
        | false =>
          cases hb : s.bare with
          | true =>
            rw [hb] at hsh
            obtain ⟨b, hb'⟩ := hsh
            rw [hb']
            show called (mossOps u) N (some 0) (.ok (some (.str b, s'))) = _
            rw [called_moss]
            rfl
          | false =>
            rw [hb] at hsh
            obtain ⟨l, hl⟩ := hsh
            rw [hl]
            show called (mossOps u) N (some 0) (.ok (some (.user 0 l, s'))) = _
            rw [called_moss]
            rfl
    rw [h4] at h3
    exact h3

theorem prod_ok (n : Needs L reG reB gap strict) (p : MProd) (hE : p.nest ≠ 0 → ExprOk u N L gap k) (hp : p.Ok gap) :
    ∃ t v items, p.text = t ++ itemsText items ∧ Operand u N L gap false (deep k p.nest) t v ∧
      (∀ i ∈ items, i.Good u N L gap false (deep k p.nest)) ∧ levelVal v (pairs items) = valOf strict p.parenOp p.tree := by
  match p, hE, hp with
  | .one f, hE, hf =>
    refine ⟨f.text, _, [], by simp [MProd.text, itemsText], factor_ok n f hE hf, (by simp), ?_⟩
    simp only [pairs, MProd.parenOp, MProd.tree]
    cases valOf strict f.parenOp f.tree <;> rfl
  | .op p w o w' f, hE, ⟨hp, hw, hw', hf⟩ =>
    have hE1 : p.nest ≠ 0 → ExprOk u N L gap k := fun h => hE fun h0 => h (Nat.le_zero.1 (h0 ▸ Nat.le_max_left ..))
    have hE2 : f.nest ≠ 0 → ExprOk u N L gap k := fun h => hE fun h0 => h (Nat.le_zero.1 (h0 ▸ Nat.le_max_right ..))
    obtain ⟨t, v, items, htext, ht, hitems, hval⟩ := prod_ok n p hE1 hp
    have h1 := factor_ok n f hE2 hf
    have m1 : deep k p.nest ≤ deep k (MProd.op p w o w' f).nest := deep_mono (Nat.le_max_left ..)
    have m2 : deep k f.nest ≤ deep k (MProd.op p w o w' f).nest := deep_mono (Nat.le_max_right ..)
    refine ⟨t, v, items ++ [⟨w, o.char, w', f.text, valOf strict f.parenOp f.tree⟩], ?_, ht.up m1, fun i hi => ?_, ?_⟩
    · simp [MProd.text, htext, itemsText, Item.bytes]
    · rcases List.mem_append.1 hi with hi | hi
      · exact (hitems i hi).up m1
      · rw [List.mem_singleton.1 hi]
        exact ⟨hw, hw', mulOp_isOp o, h1.up m2⟩
    · rw [levelVal_append, hval]
      exact valOf_op ..

theorem sum_ok (n : Needs L reG reB gap strict) (s : MSum) (hE : s.nest ≠ 0 → ExprOk u N L gap k) (hs : s.Ok gap) :
    ∃ t v items, s.text = t ++ itemsText items ∧ Operand u N L gap true (deep k s.nest + 1) t v ∧
      (∀ i ∈ items, i.Good u N L gap true (deep k s.nest + 1)) ∧ levelVal v (pairs items) = valOf strict s.parenOp s.tree := by
  match s, hE, hs with
  | .one p, hE, hp =>
    refine ⟨p.text, _, [], by simp [MSum.text, itemsText], term_ok n (prod_ok n p hE hp), (by simp), ?_⟩
    simp only [pairs, MSum.parenOp, MSum.tree]
    cases valOf strict p.parenOp p.tree <;> rfl
  | .op s w o w' p, hE, ⟨hs, hw, hw', hp⟩ =>
    have hE1 : s.nest ≠ 0 → ExprOk u N L gap k := fun h => hE fun h0 => h (Nat.le_zero.1 (h0 ▸ Nat.le_max_left ..))
    have hE2 : p.nest ≠ 0 → ExprOk u N L gap k := fun h => hE fun h0 => h (Nat.le_zero.1 (h0 ▸ Nat.le_max_right ..))
    obtain ⟨t, v, items, htext, ht, hitems, hval⟩ := sum_ok n s hE1 hs
    have h1 := term_ok n (prod_ok n p hE2 hp)
    have m1 : deep k s.nest + 1 ≤ deep k (MSum.op s w o w' p).nest + 1 := Nat.succ_le_succ (deep_mono (Nat.le_max_left ..))
    have m2 : deep k p.nest + 1 ≤ deep k (MSum.op s w o w' p).nest + 1 := Nat.succ_le_succ (deep_mono (Nat.le_max_right ..))
    refine ⟨t, v, items ++ [⟨w, o.char, w', p.text, valOf strict p.parenOp p.tree⟩], ?_, ht.up m1, fun i hi => ?_, ?_⟩
    · simp [MSum.text, htext, itemsText, Item.bytes]
    · rcases List.mem_append.1 hi with hi | hi
      · exact (hitems i hi).up m1
      · rw [List.mem_singleton.1 hi]
        exact ⟨hw, hw', addOp_isOp o, h1.up m2⟩
    · rw [levelVal_append, hval]
      exact valOf_op ..
end

/-- A sum. -/
theorem expr_ok (n : Needs L reG reB gap strict) (hE : ExprOk u N L gap k) (e : MSum) (he : e.Ok gap) {s : Bytes} (hs : s = [] ∨ ∃ s', s = 0x29 :: s') :
    ∃ r, Yields (mossOps u) N L (deep k e.nest + 1) (.part false (levelVP gap "AddOp" "Term")) (e.text ++ s) r ∧ r ≠ .ok none ∧
      called (mossOps u) N (some 0) r = res (valOf strict e.parenOp e.tree) s := by
  obtain ⟨t, v, items, htext, ht, hitems, hval⟩ := sum_ok n e (fun _ => hE) he
  rw [htext, ← hval]
  exact level_gets n (d := deep k e.nest) ht hitems (stop_end hs)

theorem called_some (c : Nat) (v : Ast) (s : Bytes) : called (mossOps u) N (some c) (.ok (some (v, s))) ≠ .ok none := by
  have h1 : (mossOps u).cb c v (N - s.length) = (growMoss u v).map some := rfl
  simp only [called, h1]
  cases growMoss u v <;> simp [Except.map]

theorem called_ne {r : VRes Ast} (h : r ≠ .ok none) : called (mossOps u) N (some 0) r ≠ .ok none := by
  match r, h with
  | .error e, _ => simp [called]
  | .ok none, h => exact absurd rfl h
  | .ok (some (v, s)), _ => exact called_some 0 v s

/-! ## The sum in the grammars -/

theorem two_rule (reG : Regex) : ExprOk u N (twoLevels reG) false 1 := by
  intro d s r h hy _
  exact Yields.call (.inr rfl) (by simp [twoLevels, rulesOf, GLine.rules, Body.rules]) (Yields.rtext (cb := some 0) (sum_vp false) hy)

/-- The rule `Expr` and its body. -/
theorem deep_rule {ls : List GLine} {d : Nat} {s : Bytes} {r : VRes Ast} (hy : Yields (mossOps u) N L d (.part false (levelVP true "AddOp" "Term")) s r)
    (hr : r ≠ .ok none) : Yields (mossOps u) N L (d + 2) (.rule none (.rank (.alt "" (some 0) (.text (sumE true)) :: ls))) s (called (mossOps u) N (some 0) r) := by
  have h1 := Yields.rank (cb := none) (Yields.altDone (nm := "") (ls := ls) (Yields.rtext (cb := some 0) (sum_vp true) hy) (called_ne hr))
  rw [called_none] at h1
  exact h1

theorem deep_expr (reG reB : Regex) : ExprOk u N (deepLines reG reB) true 2 := by
  intro d s r h hy hr
  exact Yields.call (.inr rfl) (by simp [deepLines, rulesOf, GLine.rules, Body.rules]; rfl) (deep_rule hy hr)

/-- The rule `BinaryExpr`. -/
theorem binary_rule {e : Expr} {p : VP} (hp : e.vp = p) {ls : List GLine} {d : Nat} {s : Bytes} {r : VRes Ast}
    (hy : Yields (mossOps u) N L d (.part false p) s r) (hr : r ≠ .ok none) :
    Yields (mossOps u) N L (d + 2) (.rule (some 0) (.rank (.alt "" none (.text e) :: ls))) s (called (mossOps u) N (some 0) r) := by
  have h1 := Yields.rtext (cb := none) hp hy
  rw [called_none] at h1
  exact Yields.rank (Yields.altDone (nm := "") h1 hr)

/-- The rule `Expr` and its body. -/
theorem real_rule {e : Expr} {p : VP} (hp : e.vp = p) {ls ls' : List GLine} {d : Nat} {s : Bytes} {r : VRes Ast}
    (hy : Yields (mossOps u) N L d (.part false p) s r) (hr : r ≠ .ok none) :
    Yields (mossOps u) N L (d + 3) (.rule none (.rank (.alt "BinaryExpr" (some 0) (.rank (.alt "" none (.text e) :: ls)) :: ls'))) s
      (called (mossOps u) N (some 0) r) := by
  have h1 := Yields.rank (cb := none) (Yields.altDone (nm := "BinaryExpr") (ls := ls') (binary_rule hp (ls := ls) hy hr) (called_ne hr))
  rw [called_none] at h1
  exact h1

theorem real_expr (reG reB : Regex) : ExprOk u N (realLines reG reB) true 3 := by
  intro d s r h hy hr
  exact Yields.call (.inr rfl) (show _ ∈ rulesOf (realLines reG reB) from .head _) (real_rule (sum_vp true) hy hr)

theorem two_needs {reG : Regex} (hG : FindsGlyph reG) (reB : Regex) : Needs (twoLevels reG) reG reB false false := by
  refine ⟨hG, (fun h => by cases h), ?_, ?_, ?_, (fun h => by cases h), ?_, ?_⟩ <;> simp [twoLevels, rulesOf, GLine.rules, Body.rules]

theorem deep_needs {reG reB : Regex} (hG : FindsGlyph reG) (hB : FindsBlank reB) : Needs (deepLines reG reB) reG reB true true := by
  refine ⟨hG, fun _ => hB, ?_, ?_, ?_, fun _ => ?_, ?_, ?_⟩ <;> simp [deepLines, rulesOf, GLine.rules, Body.rules]

theorem real_needs {reG reB : Regex} (hG : FindsGlyph reG) (hB : FindsBlank reB) : Needs (realLines reG reB) reG reB true true := by
  refine ⟨hG, fun _ => hB, ?_, ?_, ?_, fun _ => ?_, ?_, ?_⟩ <;> simp [realLines, rulesOf, GLine.rules, Body.rules]

theorem wrong_needs {reG reB : Regex} (hG : FindsGlyph reG) (hB : FindsBlank reB) : Needs (wrongLines reG reB) reG reB true true := by
  refine ⟨hG, fun _ => hB, ?_, ?_, ?_, fun _ => ?_, ?_, ?_⟩ <;> simp [wrongLines, rulesOf, GLine.rules, Body.rules]

theorem two_lines {reG : Regex} (hG : FindsGlyph reG) (e : MSum) (he : e.Ok false) :
    Yields (mossOps u) N (twoLevels reG) (deep 1 e.nest + 3) (.lines (twoLevels reG)) e.text (.ok (some (e.tree, []))) := by
  obtain ⟨r, hy, hr, hc⟩ := expr_ok (u := u) (N := N) (two_needs hG reG) (two_rule reG) e he (.inl rfl)
  have h1 := two_rule reG _ _ _ false hy hr
  rw [hc, List.append_nil] at h1
  have h2 := Yields.rtext (cb := none) (e := refExprE) (by kernel_rfl) h1
  rw [called_none] at h2
  exact .altDone h2 (by simp)

theorem deep_lines {reG reB : Regex} (hG : FindsGlyph reG) (hB : FindsBlank reB) (e : MSum) (he : e.Ok true) :
    Yields (mossOps u) N (deepLines reG reB) (deep 2 e.nest + 3) (.lines (deepLines reG reB)) e.text (res (valOf true e.parenOp e.tree) []) := by
  obtain ⟨r, hy, hr, hc⟩ := expr_ok (u := u) (N := N) (deep_needs hG hB) (deep_expr reG reB) e he (.inl rfl)
  rw [← hc]
  rw [List.append_nil] at hy
  exact .altDone (deep_rule hy hr) (called_ne hr)

theorem real_lines {reG reB : Regex} (hG : FindsGlyph reG) (hB : FindsBlank reB) (e : MSum) (he : e.Ok true) :
    Yields (mossOps u) N (realLines reG reB) (deep 3 e.nest + 4) (.lines (realLines reG reB)) e.text (res (valOf true e.parenOp e.tree) []) := by
  obtain ⟨r, hy, hr, hc⟩ := expr_ok (u := u) (N := N) (real_needs hG hB) (real_expr reG reB) e he (.inl rfl)
  rw [← hc]
  rw [List.append_nil] at hy
  exact .altDone (real_rule (sum_vp true) hy hr) (called_ne hr)

/-! ## Unary operators -/

theorem unaryOp_vp : unaryOpE.vp = .alt "" [.lit "" [0x21], .lit "" [0x5E], .lit "" [0x2D]] := by kernel_rfl
theorem unary_vp : unaryE.vp = .seq "" [.name "" "unary_op" false, .name "" "Glyph" false] := by kernel_rfl

theorem factor_miss (n : Needs L reG reB gap strict) {s : Bytes} (hs : ∀ c s', s = c :: s' → c ≠ 0x28 ∧ ¬ IsGlyph c) (h : Bool) :
    Yields (mossOps u) N L 2 (.part h (.name "" "Factor" false)) s (.ok none) := by
  have h1 : Yields (mossOps u) N L 1 (.part false (.name "" "Glyph" false)) s (.ok none) := by
    refine Yields.call (.inr rfl) n.rG (Yields.rtext (cb := none) (r := .ok none) (p := .re "" reG) rfl (Yields.bare (.inr rfl) (.reMiss fun m hm => ?_)))
    obtain ⟨c, s', e, hc⟩ := n.G.2 _ _ hm
    exact (hs _ _ e).2 hc
  exact Yields.call (.inr rfl) n.rF (Yields.rtext (r := .ok none) factor_vp (Yields.bare (.inr rfl) (.alt (.altsMiss
    (Yields.bare (.inr rfl) (.seq (.itemsMiss (Yields.plitMiss (b := [0x28]) fun s' e => (hs _ _ e).1 rfl)))) (.altsMiss h1 .altsEnd)))))

theorem term_miss (n : Needs L reG reB gap strict) {s : Bytes} (hs : ∀ c s', s = c :: s' → c ≠ 0x28 ∧ ¬ IsGlyph c) (h : Bool) :
    Yields (mossOps u) N L 3 (.part h (.name "" "Term" false)) s (.ok none) :=
  Yields.call (.inr rfl) n.rT (Yields.rtext (r := .ok none) (prod_vp gap) (Yields.bare (.inr rfl) (.seq (.itemsMiss (factor_miss n hs true)))))

theorem unary_expr {reG reB : Regex} (hG : FindsGlyph reG) (hB : FindsBlank reB) {c a : UInt8} (hc : IsUnary c) (ha : IsGlyph a) (s : Bytes) :
    Yields (mossOps u) N (realLines reG reB) 6 (.lines (realLines reG reB)) (c :: a :: s) (.ok (some (.arr [.str [c], .str [a]], s))) ∧
    ∀ h, Yields (mossOps u) N (realLines reG reB) 6 (.part h (.name "" "Expr" false)) (c :: a :: s) (.ok (some (.arr [.str [c], .str [a]], s))) := by
  have n := real_needs hG hB
  have hs : ∀ c' s', c :: a :: s = c' :: s' → c' ≠ 0x28 ∧ ¬ IsGlyph c' := by
    rintro _ _ ⟨⟩
    unfold IsUnary at hc
    unfold IsGlyph
    rcases hc with rfl | rfl | rfl <;> decide
  have h1 : Yields (mossOps u) N (realLines reG reB) 3 (.part false (sumE true).vp) (c :: a :: s) (.ok none) := by
    rw [sum_vp]
    exact Yields.bare (.inr rfl) (.seq (.itemsMiss (term_miss n hs true)))
  have h2 : Yields (mossOps u) N (realLines reG reB) 1 (.part true (.name "" "unary_op" false)) (c :: a :: s) (.ok (some (.str [c], a :: s))) := by
    refine Yields.call (.inl rfl) (cb := none) (b := .text unaryOpE) (by simp [realLines, rulesOf, GLine.rules, Body.rules])
      (Yields.rtext (r := .ok (some (Ast.str [c], a :: s))) unaryOp_vp (Yields.bare (.inr rfl) (.alt ?_)))
    rcases hc with rfl | rfl | rfl
    · exact .altsDone (Yields.plit (b := [0x21])) (by simp)
    · exact .altsMiss (Yields.plitMiss (b := [0x21]) (by simp)) (.altsDone (Yields.plit (b := [0x5E])) (by simp))
    · exact .altsMiss (Yields.plitMiss (b := [0x21]) (by simp)) (.altsMiss (Yields.plitMiss (b := [0x5E]) (by simp)) (.altsDone (Yields.plit (b := [0x2D])) (by simp)))
  have h3 : Yields (mossOps u) N (realLines reG reB) 1 (.part true (.name "" "Glyph" false)) (a :: s) (.ok (some (.str [a], s))) :=
    Yields.call (.inr rfl) n.rG (Yields.rtext (cb := none) (r := .ok (some (Ast.str [a], s))) (p := .re "" reG) rfl (Yields.bare (.inr rfl) (.re (n := 1) (n.G.1 a s ha))))
  have h4 : Yields (mossOps u) N (realLines reG reB) 2 (.rule none (.text unaryE)) (c :: a :: s) (.ok (some (.arr [.str [c], .str [a]], s))) :=
    Yields.rtext (cb := none) (r := .ok (some (Ast.arr [.str [c], .str [a]], s))) unary_vp
      (Yields.bare (.inr rfl) (.seq (.itemsPut h2 rfl (.itemsPut h3 rfl (.itemsEnd rfl)))))
  have h5 : Yields (mossOps u) N (realLines reG reB) 5 (.rule (some 0) (.rank [
       .alt "" none (.text (sumE true)),
       .incl "Term" (some 0) (.text (prodE true)),
       .incl "Factor" (some 0) (.text factorE),
       .incl "AddOp" none (.text addOpE),
       .incl "MulOp" none (.text mulOpE)])) (c :: a :: s) (.ok none) :=
    Yields.rank (r := .ok none) (Yields.altMiss (Yields.rtext (cb := none) (r := .ok none) rfl h1) (.incl (.incl (.incl (.incl .linesEnd)))))
  have h6 := Yields.rank (cb := none) (Yields.altMiss (nm := "BinaryExpr") h5 (Yields.altDone (nm := "UnaryExpr") (ls := [.incl "unary_op" none (.text unaryOpE),
     .incl "Glyph" none (.text (glyphE reG)), .incl "_" none (.text (blankE reB))]) (yields_up h4 3) (by simp)))
  rw [called_none] at h6
  exact ⟨.altDone h6 (by simp), fun h => Yields.call (.inr rfl) (by simp [realLines, rulesOf, GLine.rules, Body.rules]) h6⟩

/-- In parentheses, a unary operation makes `growMoss` panic. -/
theorem unary_paren {reG reB : Regex} (hG : FindsGlyph reG) (hB : FindsBlank reB) {c a : UInt8} (hc : IsUnary c) (ha : IsGlyph a) (s : Bytes) :
    Yields (mossOps u) N (realLines reG reB) 11 (.lines (realLines reG reB)) (0x28 :: c :: a :: 0x29 :: s) (.error .badType) := by
  have n := real_needs hG hB
  have h1 := (unary_expr (u := u) (N := N) hG hB hc ha (0x29 :: s)).2 true
  have h2 : Yields (mossOps u) N (realLines reG reB) 6 (.part false (.alt "" [.seq "" [.lit "" [0x28], .name "" "Expr" false, .lit "" [0x29]], .name "" "Glyph" false]))
      (0x28 :: c :: a :: 0x29 :: s) (.ok (some (.arr [.str [c], .str [a]], s))) :=
    Yields.bare (.inr rfl) (.alt (.altsDone (Yields.bare (.inr rfl) (.seq (.itemsPut (Yields.plit (b := [0x28])) rfl (.itemsPut h1 rfl
      (.itemsPut (Yields.plit (b := [0x29])) rfl (.itemsEnd rfl)))))) (by simp)))
  have h3 : Yields (mossOps u) N (realLines reG reB) 7 (.part true (.name "" "Factor" false)) (0x28 :: c :: a :: 0x29 :: s) (.error .badType) :=
    Yields.call (.inl rfl) n.rF (Yields.rtext factor_vp h2)
  have h4 : Yields (mossOps u) N (realLines reG reB) 8 (.part true (.name "" "Term" false)) (0x28 :: c :: a :: 0x29 :: s) (.error .badType) :=
    Yields.call (.inl rfl) n.rT (Yields.rtext (r := .error .badType) (prod_vp true) (Yields.bare (.inr rfl) (.seq (.itemsPanic h3))))
  exact .altDone (real_rule (r := .error .badType) (sum_vp true) (Yields.bare (.inr rfl) (.seq (.itemsPanic h4))) (by simp)) (by simp [called])

/-! ## Indirect right recursion -/

/-- `Term ( _ AddOp _ Expr )*` -/
def wrongVP : VP := .seq "" [.name "" "Term" false, .rep "" (tailVP true "AddOp" "Expr") none 0 none]

theorem wrong_vp : wrongE.vp = wrongVP := by kernel_rfl

theorem wrong_chain {reG reB : Regex} (hG : FindsGlyph reG) (hB : FindsBlank reB) : ∀ (l : List MLink) (p : MProd), p.Ok true → p.nest = 0 → (∀ x ∈ l, x.Ok) →
    ∃ v : Ast, Yields (mossOps u) N (wrongLines reG reB) (3 + l.length * 3) (.part false wrongVP) (p.text ++ linksText l) (.ok (some (v, []))) ∧
      growMoss u v = .ok (rightSum p l) := by
  have n := wrong_needs hG hB
  have stop : Stop true true [] := stop_end (.inl rfl)
  have term : ∀ p : MProd, p.Ok true → p.nest = 0 → Operand u N (wrongLines reG reB) true true 3 p.text (some p.tree) := by
    intro p hp h0
    have h1 := term_ok n (prod_ok (u := u) (N := N) (k := 0) n p (fun h => absurd h0 h) hp)
    rw [h0] at h1
    rw [show valOf true p.parenOp p.tree = some p.tree by rw [flatP p h0]; rfl] at h1
    exact h1
  have miss : ∀ d, Yields (mossOps u) N (wrongLines reG reB) (d + 1) (.part false (tailVP true "AddOp" "Expr")) [] (.ok none) := by
    intro d
    obtain ⟨v, h⟩ := blanks (u := u) (N := N) n d []
    exact Yields.bare (.inr rfl) (.seq (.itemsPut h rfl (.itemsMiss (op_miss n true d stop.2))))
  intro l
  induction l with
  | nil =>
    intro p hp h0 _
    have h1 := (term p hp h0).2 [] stop.1
    refine ⟨.arr [p.tree, .arr []], Yields.bare (.inr rfl) (.seq (.itemsPut h1 rfl (.itemsPut (Yields.bare (.inr rfl) (.repMiss (mn := 0) (miss 2))) rfl (.itemsEnd rfl)))), rfl⟩
  | cons x l ih =>
    intro p hp h0 hl
    obtain ⟨hw, hw', hx, hx0⟩ := hl x (List.mem_cons_self ..)
    obtain ⟨v, hv, hg⟩ := ih x.p hx hx0 fun y hy => hl y (List.mem_cons_of_mem _ hy)
    have hE : Yields (mossOps u) N (wrongLines reG reB) (3 + l.length * 3 + 3) (.part true (.name "" "Expr" false)) (x.p.text ++ linksText l)
        (.ok (some (rightSum x.p l, []))) := by
      have h1 := Yields.call (h := true) (lab := "") (q := false) (nm := "Expr") (.inl rfl) (show _ ∈ rulesOf (wrongLines reG reB) from .head _)
        (real_rule (u := u) (N := N) (L := wrongLines reG reB) wrong_vp hv (by simp))
      rw [called_moss, hg] at h1
      exact h1
    have hlen : 3 + (x :: l).length * 3 = 3 + l.length * 3 + 3 := by simp only [List.length_cons]; omega
    rw [hlen]
    have htext : p.text ++ linksText (x :: l) = p.text ++ (x.w ++ x.op.char :: (x.w' ++ (x.p.text ++ linksText l))) := by
      simp [linksText, MLink.text]
    rw [htext]
    obtain ⟨c0, t, hc0, hb0⟩ := (term x.p hx hx0).1
    have e1 : skip (x.w ++ x.op.char :: (x.w' ++ (x.p.text ++ linksText l))) = _ := skipG_op hw (addOp_isOp x.op) _
    have e2 : skip (x.w' ++ (x.p.text ++ linksText l)) = x.p.text ++ linksText l := by
      rw [skip_append hw'.1, hc0, List.cons_append, skip_id fun c' s' h => by cases h; exact hb0]
    have h1 := (term p hp h0).2 (x.w ++ x.op.char :: (x.w' ++ (x.p.text ++ linksText l))) (fun _ c s' h => by
      have e3 : skipG true (x.w ++ x.op.char :: (x.w' ++ (x.p.text ++ linksText l))) = _ := e1
      rw [e3] at h
      cases h
      exact op_other (addOp_isOp x.op))
    obtain ⟨v1, hv1⟩ := blanks (u := u) (N := N) n (3 + l.length * 3 + 2) (x.w ++ x.op.char :: (x.w' ++ (x.p.text ++ linksText l)))
    obtain ⟨v2, hv2⟩ := blanks (u := u) (N := N) n (3 + l.length * 3 + 2) (x.w' ++ (x.p.text ++ linksText l))
    rw [e1] at hv1
    rw [e2] at hv2
    have h2 := op_hit (u := u) (N := N) n true (3 + l.length * 3 + 2) (addOp_isOp x.op) (x.w' ++ (x.p.text ++ linksText l))
    have h3 : Yields (mossOps u) N (wrongLines reG reB) (3 + l.length * 3 + 3) (.part false (tailVP true "AddOp" "Expr"))
        (x.w ++ x.op.char :: (x.w' ++ (x.p.text ++ linksText l))) (.ok (some (pair (x.op.char, rightSum x.p l), []))) :=
      Yields.bare (.inr rfl) (.seq (.itemsPut hv1 rfl (.itemsPut h2 rfl (.itemsPut hv2 rfl (.itemsPut hE rfl (.itemsEnd rfl))))))
    have h4 : Yields (mossOps u) N (wrongLines reG reB) (3 + l.length * 3 + 3) (.part true (.rep "" (tailVP true "AddOp" "Expr") none 0 none))
        (x.w ++ x.op.char :: (x.w' ++ (x.p.text ++ linksText l))) (.ok (some (.arr [pair (x.op.char, rightSum x.p l)], []))) :=
      Yields.bare (.inr rfl) (.rep h3 (.noMore Room.none .sepNone (miss _)))
    exact ⟨.arr [p.tree, .arr [pair (x.op.char, rightSum x.p l)]], Yields.bare (.inr rfl) (.seq (.itemsPut (yields_upTo h1 (by omega)) rfl
      (.itemsPut h4 rfl (.itemsEnd rfl)))), rfl⟩

theorem wrong_lines {reG reB : Regex} (hG : FindsGlyph reG) (hB : FindsBlank reB) (l : List MLink) (p : MProd) (hp : p.Ok true) (h0 : p.nest = 0) (hl : ∀ x ∈ l, x.Ok) :
    Yields (mossOps u) N (wrongLines reG reB) (3 + l.length * 3 + 3) (.lines (wrongLines reG reB)) (p.text ++ linksText l) (.ok (some (rightSum p l, []))) := by
  obtain ⟨v, hv, hg⟩ := wrong_chain (u := u) (N := N) hG hB l p hp h0 hl
  have h1 := real_rule (L := wrongLines reG reB) (ls := [.incl "Term" (some 0) (.text (prodE true)),
       .incl "Factor" (some 0) (.text factorE),
       .incl "AddOp" none (.text addOpE),
       .incl "MulOp" none (.text mulOpE)]) (ls' := [.alt "UnaryExpr" none (.text unaryE),
     .incl "unary_op" none (.text unaryOpE),
     .incl "Glyph" none (.text (glyphE reG)),
     .incl "_" none (.text (blankE reB))]) wrong_vp hv (by simp)
  rw [called_moss, hg] at h1
  exact .altDone h1 (by simp [Except.map])

end
end Moss
end Joeson
