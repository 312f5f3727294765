import Verif.Proofs.Calculator2
/-!
# The calculator: trees
-/

namespace Joeson.Calc
open RuleText Arith

theorem wrap64_eq (x : Int) : wrap64 x = machine x := by
  unfold wrap64 machine Int.bmod
  dsimp only
  have h : ((2 ^ 64 : Nat) : Int) = 18446744073709551616 := by norm_num
  rw [h]
  split <;> omega

/-- A panic is no value. -/
def valued : Except Panic Int → Option Int
  | .ok n => some n
  | .error _ => none

theorem mul_eval (o : MulOp) (a b : Int) : valued (calcOp [o.char] a b) = o.eval a b := by
  cases o
  · simp [calcOp, MulOp.char, MulOp.eval, valued, wrap64_eq]
  · simp only [calcOp, MulOp.char, MulOp.eval]
    by_cases h : b = 0 <;> simp [h, valued, wrap64_eq]

theorem add_eval (o : AddOp) (a b : Int) : valued (calcOp [o.char] a b) = some (o.eval a b) := by
  cases o <;> simp [calcOp, AddOp.char, AddOp.eval, valued, wrap64_eq]

/-- The first factor. -/
def Prod.first : Prod → Factor
  | .one f => f
  | .op p _ _ _ _ => Prod.first p
/-- The others. -/
def Prod.items : Prod → List Item
  | .one _ => []
  | .op p w o w' f => Prod.items p ++ [⟨w, o.char, w', f.text, f.value⟩]
/-- The first product. -/
def Sum.first : Sum → Prod
  | .one p => p
  | .op s _ _ _ _ => Sum.first s
/-- The others. -/
def Sum.items : Sum → List Item
  | .one _ => []
  | .op s w o w' p => Sum.items s ++ [⟨w, o.char, w', p.text, p.value⟩]

theorem prod_text : ∀ p : Prod, p.text = (Prod.first p).text ++ itemsText (Prod.items p)
  | .one f => by simp [Prod.text, Prod.first, Prod.items, itemsText]
  | .op p w o w' f => by
    rw [Prod.text, prod_text p]
    simp [Prod.first, Prod.items, itemsText, Item.bytes]

theorem sum_text : ∀ s : Sum, s.text = (Sum.first s).text ++ itemsText (Sum.items s)
  | .one f => by simp [Sum.text, Sum.first, Sum.items, itemsText]
  | .op p w o w' f => by
    rw [Sum.text, sum_text p]
    simp [Sum.first, Sum.items, itemsText, Item.bytes]

theorem pairs_append : ∀ l l' : List Item, pairs (l ++ l') = match pairs l, pairs l' with
    | some a, some b => some (a ++ b)
    | _, _ => none
  | [], l' => by simp only [List.nil_append, pairs]; cases pairs l' <;> rfl
  | i :: l, l' => by
    simp only [List.cons_append, pairs, pairs_append l l']
    cases i.val <;> cases pairs l <;> cases pairs l' <;> rfl

theorem levelVal_none (x : Option (List Ast)) : levelVal none x = none := by unfold levelVal; rfl
theorem levelVal_none' (v : Option Int) : levelVal v none = none := by cases v <;> rfl

theorem levelVal_append (v : Option Int) (l : List Item) (i : Item) : levelVal v (pairs (l ++ [i])) =
    match levelVal v (pairs l), i.val with
    | some a, some b => valued (calcOp [i.c] a b)
    | _, _ => none := by
  rw [pairs_append]
  cases v with
  | none => simp only [levelVal_none]
  | some n =>
    cases hp : pairs l with
    | none => simp only [levelVal_none']
    | some l' =>
      cases hv : i.val with
      | none =>
        simp only [pairs, hv]
        rw [levelVal_none']
        cases levelVal (some n) (some l') <;> rfl
      | some m =>
        simp only [pairs, hv, levelVal, List.foldlM_append]
        cases l'.foldlM calcStep n with
        | error e => rfl
        | ok x =>
          show (match ([pair i.c m].foldlM calcStep x) with | .ok m => some m | .error _ => none) = _
          have : [pair i.c m].foldlM calcStep x = calcOp [i.c] x m := by
            rw [List.foldlM_cons]
            have h1 : calcStep x (pair i.c m) = calcOp [i.c] x m := rfl
            rw [h1]
            cases calcOp [i.c] x m <;> rfl
          rw [this]
          show _ = valued (calcOp [i.c] x m)
          cases calcOp [i.c] x m <;> rfl

theorem prod_value : ∀ p : Prod, p.value = levelVal (Prod.first p).value (pairs (Prod.items p))
  | .one f => by
    rw [Prod.value, Prod.first, Prod.items, pairs]
    cases f.value <;> rfl
  | .op p w o w' f => by
    rw [Prod.value, Prod.first, Prod.items, levelVal_append, ← prod_value p]
    cases p.value with
    | none => rfl
    | some a =>
      cases f.value with
      | none => rfl
      | some b => exact (mul_eval o a b).symm

theorem sum_value : ∀ p : Sum, p.value = levelVal (Sum.first p).value (pairs (Sum.items p))
  | .one f => by
    rw [Sum.value, Sum.first, Sum.items, pairs]
    cases f.value <;> rfl
  | .op p w o w' f => by
    rw [Sum.value, Sum.first, Sum.items, levelVal_append, ← sum_value p]
    cases p.value with
    | none => rfl
    | some a =>
      cases f.value with
      | none => rfl
      | some b => exact (add_eval o a b).symm

section
variable {u : UserString} {N : Nat} {reB reI : Regex}

theorem factor_mem : ("Factor", none, Body.text calcFactor) ∈ rulesOf (calcRules reB reI) := by
  simp [calcRules, rulesOf, GLine.rules, Body.rules]

theorem expr_mem : ("Expr", some 0, Body.text calcExpr) ∈ rulesOf (calcRules reB reI) := by
  simp [calcRules, rulesOf, GLine.rules, Body.rules]

theorem factor_num (hI : FindsInt reI) (d : Nat) (neg : Bool) {ds : Bytes} (hne : ds ≠ []) (hd : ∀ c ∈ ds, IsDigit c) :
    Operand u N reB reI false (d + 2) (Factor.num neg ds).text (Factor.num neg ds).value := by
  have hhead : ∃ c t, (if neg then [0x2D] else []) ++ ds = c :: t ∧ ¬ IsBlank c ∧ c ≠ 0x28 := by
    match ds, hne with
    | c :: t, _ =>
      cases neg with
      | true => exact ⟨0x2D, c :: t, rfl, by decide, by decide⟩
      | false =>
        have := hd c (List.mem_cons_self ..)
        refine ⟨c, t, rfl, fun hb => blank_not_digit hb this, ?_⟩
        rintro rfl
        revert this
        decide
  obtain ⟨c, t, he, hb, hp⟩ := hhead
  simp only [Factor.text, Factor.value]
  refine ⟨⟨c, t, he, hb⟩, fun lab s hs => ?_⟩
  have hmiss : Yields (calcOps u) N (calcRules reB reI) (d + 1) (.part false (.seq "" [.lit "" [0x28], .name "" "Expr" false, .lit "" [0x29]]))
      ((if neg then [0x2D] else []) ++ ds ++ s) (.ok none) := by
    refine bare (.inr rfl) (.seq (.itemsMiss (lit_miss _ _ _ _ fun s' h => ?_)))
    rw [he] at h
    injection h with h
    exact hp h
  have h1 := integer_gets (u := u) (N := N) (reB := reB) hI d neg hne hd hs.1 false
  unfold Gets at h1 ⊢
  cases hn : number neg ds with
  | some n =>
    rw [hn] at h1
    exact named factor_mem (.inl rfl) factor_vp rfl (r := .ok (some (.int n, s))) (.alt (.altsMiss hmiss (.altsDone h1 (by simp))))
  | none =>
    rw [hn] at h1
    obtain ⟨e, he, h1⟩ := h1
    exact ⟨e, he, named factor_mem (.inl rfl) factor_vp rfl (r := .error e) (.alt (.altsMiss hmiss (.altsDone h1 (by simp))))⟩

theorem end_paren (s : Bytes) : End (0x29 :: s) := by
  intro c s' h
  cases h
  exact ⟨by decide, by decide, by decide, by decide⟩

theorem end_nil : End [] := by
  intro c s' h
  cases h

theorem operand_cast {lv : Bool} {d : Nat} {t t' : Bytes} {v v' : Option Int} (h : Operand u N reB reI lv d t v) (ht : t = t') (hv : v = v') :
    Operand u N reB reI lv d t' v' := by rw [← ht, ← hv]; exact h

mutual
theorem factor_good (hB : FindsBlank reB) (hI : FindsInt reI) : ∀ f : Factor, f.Ok → ∀ d, 3 * f.nest + 2 ≤ d → Operand u N reB reI false d f.text f.value
  | .num neg ds, hok, d, hd => by
    obtain ⟨k, rfl⟩ : ∃ k, d = k + 2 := ⟨d - 2, by omega⟩
    rw [Factor.Ok] at hok
    exact factor_num hI k neg hok.1 hok.2
  | .paren w s w', hok, d, hd => by
    rw [Factor.Ok] at hok
    rw [Factor.nest] at hd
    obtain ⟨k, rfl⟩ : ∃ k, d = k + 3 := ⟨d - 3, by omega⟩
    obtain ⟨hfirst, hitems⟩ := sum_good hB hI s hok.2.1 (k + 1) (by omega)
    refine ⟨⟨0x28, w ++ s.text ++ w' ++ [0x29], by simp [Factor.text], by decide⟩, fun lab rest hrest => ?_⟩
    obtain ⟨r, hr, hval⟩ := expr_gets hB hfirst hitems hok.1 hok.2.2 (end_paren rest)
    have htext : (Factor.paren w s w').text ++ rest = 0x28 :: (w ++ ((Sum.first s).text ++ (itemsText (Sum.items s) ++ (w' ++ 0x29 :: rest)))) := by
      rw [Factor.text, sum_text s]; simp
    rw [htext, Factor.value, sum_value s]
    have he := named (h := true) (lab := "") (q := false) expr_mem (.inl rfl) expr_vp rfl hr
    unfold Gets
    cases hv : levelVal (Sum.first s).value (pairs (Sum.items s)) with
    | some n =>
      rw [hv] at hval
      rw [hval] at he
      refine named factor_mem (.inl rfl) factor_vp rfl (r := .ok (some (.int n, rest))) (.alt (.altsDone (bare (.inr rfl) (.seq ?_)) (by simp)))
      exact .itemsPut (lit_hit ..) rfl (.itemsPut he rfl (.itemsPut (lit_hit ..) rfl (.itemsEnd rfl)))
    | none =>
      rw [hv] at hval
      obtain ⟨e, hb, hval⟩ := hval
      rw [hval] at he
      refine ⟨e, hb, named factor_mem (.inl rfl) factor_vp rfl (r := .error e) (.alt (.altsDone (bare (.inr rfl) (.seq ?_)) (by simp)))⟩
      exact .itemsPut (lit_hit ..) rfl (.itemsPanic he)
theorem prod_good (hB : FindsBlank reB) (hI : FindsInt reI) : ∀ p : Prod, p.Ok → ∀ d, 3 * p.nest + 2 ≤ d →
    Operand u N reB reI false d (Prod.first p).text (Prod.first p).value ∧ ∀ i ∈ Prod.items p, i.Good u N reB reI false d
  | .one f, hok, d, hd => by
    rw [Prod.Ok] at hok
    rw [Prod.nest] at hd
    exact ⟨factor_good hB hI f hok d hd, by intro i hi; cases hi⟩
  | .op p w o w' f, hok, d, hd => by
    rw [Prod.Ok] at hok
    rw [Prod.nest] at hd
    obtain ⟨h1, h2⟩ := prod_good hB hI p hok.1 d (by omega)
    refine ⟨h1, fun i hi => ?_⟩
    rw [Prod.items, List.mem_append, List.mem_singleton] at hi
    rcases hi with hi | rfl
    · exact h2 i hi
    · exact ⟨hok.2.1, hok.2.2.1, (by cases o <;> decide : IsOp false o.char), factor_good hB hI f hok.2.2.2 d (by omega)⟩
theorem sum_good (hB : FindsBlank reB) (hI : FindsInt reI) : ∀ s : Sum, s.Ok → ∀ d, 3 * s.nest + 3 ≤ d →
    Operand u N reB reI true d (Sum.first s).text (Sum.first s).value ∧ ∀ i ∈ Sum.items s, i.Good u N reB reI true d
  | .one p, hok, d, hd => by
    rw [Sum.Ok] at hok
    rw [Sum.nest] at hd
    obtain ⟨k, rfl⟩ : ∃ k, d = k + 2 := ⟨d - 2, by omega⟩
    obtain ⟨h1, h2⟩ := prod_good hB hI p hok (k + 1) (by omega)
    exact ⟨operand_cast (term_gets hB h1 h2) (prod_text p).symm (prod_value p).symm, by intro i hi; cases hi⟩
  | .op s w o w' p, hok, d, hd => by
    rw [Sum.Ok] at hok
    rw [Sum.nest] at hd
    obtain ⟨h1, h2⟩ := sum_good hB hI s hok.1 d (by omega)
    refine ⟨h1, fun i hi => ?_⟩
    rw [Sum.items, List.mem_append, List.mem_singleton] at hi
    rcases hi with hi | rfl
    · exact h2 i hi
    · obtain ⟨k, rfl⟩ : ∃ k, d = k + 2 := ⟨d - 2, by omega⟩
      obtain ⟨h3, h4⟩ := prod_good hB hI p hok.2.2.2 (k + 1) (by omega)
      exact ⟨hok.2.1, hok.2.2.1, (by cases o <;> decide : IsOp true o.char), operand_cast (term_gets hB h3 h4) (prod_text p).symm (prod_value p).symm⟩
end

/-- The text of an expression, given to the grammar. -/
theorem input_gets (hB : FindsBlank reB) (hI : FindsInt reI) (i : Input) (hok : i.Ok) (d : Nat) (hd : 3 * i.s.nest + 4 ≤ d) :
    Gets u N reB reI d (.lines (calcRules reB reI)) i.text i.s.value [] := by
  obtain ⟨k, rfl⟩ : ∃ k, d = k + 2 := ⟨d - 2, by omega⟩
  obtain ⟨hfirst, hitems⟩ := sum_good (u := u) (N := N) hB hI i.s hok.2.1 (k + 1) (by omega)
  obtain ⟨r, hr, hval⟩ := expr_gets hB hfirst hitems hok.1 hok.2.2 end_nil
  have htext : i.text = i.w ++ ((Sum.first i.s).text ++ (itemsText (Sum.items i.s) ++ (i.w' ++ []))) := by
    rw [Input.text, sum_text i.s]; simp
  rw [htext, sum_value i.s]
  have he : Yields (calcOps u) N (calcRules reB reI) (k + 2) (.rule (some 0) (.text calcExpr))
      (i.w ++ ((Sum.first i.s).text ++ (itemsText (Sum.items i.s) ++ (i.w' ++ [])))) (called (calcOps u) N (some 0) r) :=
    .text (by rw [expr_vp]; exact bare (.inr rfl) hr)
  unfold Gets
  cases hv : levelVal (Sum.first i.s).value (pairs (Sum.items i.s)) with
  | some n =>
    rw [hv] at hval
    rw [hval] at he
    exact .altDone he (by simp)
  | none =>
    rw [hv] at hval
    obtain ⟨e, hb, hval⟩ := hval
    rw [hval] at he
    exact ⟨e, hb, .altDone he (by simp)⟩

end
end Joeson.Calc
