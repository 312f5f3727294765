import Verif.Proofs.Calculator3
/-!
# The calculator: any text

What is calculated has been the text of an expression, and the panics are those expected.
-/

namespace Joeson.Calc
open RuleText Arith

/-- The text of an operand with this value. -/
def Tree : Bool → Bytes → Int → Prop
  | false, t, n => ∃ f : Factor, f.Ok ∧ f.text = t ∧ f.value = some n
  | true, t, n => ∃ p : Prod, p.Ok ∧ p.text = t ∧ p.value = some n

/-- The text of a sum or product with this value. -/
def Level : Bool → Bytes → Int → Prop
  | false, t, n => ∃ p : Prod, p.Ok ∧ p.text = t ∧ p.value = some n
  | true, t, n => ∃ s : Sum, s.Ok ∧ s.text = t ∧ s.value = some n

theorem level_one : ∀ {lv : Bool} {t : Bytes} {n : Int}, Tree lv t n → Level lv t n
  | false, _, _, ⟨f, hok, ht, hv⟩ => ⟨.one f, by rwa [Prod.Ok], by rwa [Prod.text], by rwa [Prod.value]⟩
  | true, _, _, ⟨f, hok, ht, hv⟩ => ⟨.one f, by rwa [Sum.Ok], by rwa [Sum.text], by rwa [Sum.value]⟩

theorem level_op {lv : Bool} {t : Bytes} {a : Int} (h : Level lv t a) {w w' : Bytes} (hw : ∀ c ∈ w, IsBlank c) (hw' : ∀ c ∈ w', IsBlank c)
    {c : UInt8} (hc : IsOp lv c) {t' : Bytes} {b : Int} (h' : Tree lv t' b) {m : Int} (hm : calcOp [c] a b = .ok m) :
    Level lv (t ++ (w ++ [c] ++ w' ++ t')) m := by
  cases lv with
  | false =>
    obtain ⟨p, hok, rfl, hv⟩ := h
    obtain ⟨f, hok', rfl, hv'⟩ := h'
    obtain ⟨o, rfl⟩ : ∃ o : MulOp, c = o.char := by
      rcases hc with rfl | rfl
      · exact ⟨.times, rfl⟩
      · exact ⟨.div, rfl⟩
    refine ⟨.op p w o w' f, by rw [Prod.Ok]; exact ⟨hok, hw, hw', hok'⟩, by simp [Prod.text], ?_⟩
    have := mul_eval o a b
    rw [hm] at this
    simp only [Prod.value, hv, hv']
    exact this.symm
  | true =>
    obtain ⟨p, hok, rfl, hv⟩ := h
    obtain ⟨f, hok', rfl, hv'⟩ := h'
    obtain ⟨o, rfl⟩ : ∃ o : AddOp, c = o.char := by
      rcases hc with rfl | rfl
      · exact ⟨.plus, rfl⟩
      · exact ⟨.minus, rfl⟩
    refine ⟨.op p w o w' f, by rw [Sum.Ok]; exact ⟨hok, hw, hw', hok'⟩, by simp [Sum.text], ?_⟩
    have := add_eval o a b
    rw [hm] at this
    simp only [Sum.value, hv, hv']
    exact this.symm

/-- An item whose operand has a tree. -/
def Item.Tree (lv : Bool) (i : Item) : Prop :=
  (∀ c ∈ i.w, IsBlank c) ∧ (∀ c ∈ i.w', IsBlank c) ∧ IsOp lv i.c ∧ ∃ n, i.val = some n ∧ Calc.Tree lv i.text n

theorem level_items {lv : Bool} : ∀ {items : List Item} {l : List Ast} {t : Bytes} {a n : Int}, (∀ i ∈ items, i.Tree lv) → pairs items = some l →
    Level lv t a → l.foldlM calcStep a = .ok n → Level lv (t ++ itemsText items) n
  | [], l, t, a, n, _, hp, ht, hf => by
    cases hp
    cases hf
    simpa [itemsText] using ht
  | i :: items, l, t, a, n, h, hp, ht, hf => by
    obtain ⟨hw, hw', hc, m, hv, hm⟩ := h i (List.mem_cons_self ..)
    rw [pairs, hv] at hp
    cases hp' : pairs items with
    | none => rw [hp'] at hp; cases hp
    | some l' =>
      rw [hp'] at hp
      cases hp
      rw [List.foldlM_cons] at hf
      have hstep : calcStep a (pair i.c m) = calcOp [i.c] a m := rfl
      rw [hstep] at hf
      cases ho : calcOp [i.c] a m with
      | error e => rw [ho] at hf; cases hf
      | ok x =>
        rw [ho] at hf
        have := level_items (fun i hi => h i (List.mem_cons_of_mem _ hi)) hp' (level_op ht hw hw' hc hm ho) hf
        simpa [itemsText, Item.bytes] using this

section
variable {u : UserString} {N : Nat} {reB reI : Regex}

/-- An operand matches, or not, or there is a panic that is expected. -/
def Fine (lv : Bool) (s : Bytes) (r : VRes Ast) : Prop :=
  r = .ok none ∨ (∃ e, Bad e ∧ r = .error e) ∨ ∃ n t s', r = .ok (some (.int n, s')) ∧ s = t ++ s' ∧ Tree lv t n

/-- That is so, at this place. -/
def Decided (u : UserString) (N : Nat) (reB reI : Regex) (lv : Bool) (d : Nat) (s : Bytes) : Prop :=
  ∀ lab, ∃ r, Yields (calcOps u) N (calcRules reB reI) d (.part true (.name lab (operandName lv) false)) s r ∧ Fine lv s r

theorem suffix_skip (s : Bytes) : skip s <:+ s := List.dropWhile_suffix _

/-- One item. -/
theorem item_any (hB : FindsBlank reB) {lv : Bool} {d : Nat} {s : Bytes} (hall : ∀ s', s' <:+ s → Decided u N reB reI lv (d + 1) s') :
    ∃ r, Yields (calcOps u) N (calcRules reB reI) (d + 1) (.part false (tailVP (opName lv) (operandName lv))) s r ∧
      (r = .ok none ∨ (∃ e, Bad e ∧ r = .error e) ∨
        ∃ i : Item, ∃ n s', r = .ok (some (pair i.c n, s')) ∧ i.val = some n ∧ i.Tree lv ∧ s = i.bytes ++ s') := by
  by_cases h : ∃ c s1, skip s = c :: s1 ∧ IsOp lv c
  · obtain ⟨c, s1, hskip, hc⟩ := h
    obtain ⟨w, hw, hs⟩ := skip_split s
    obtain ⟨w', hw', hs1⟩ := skip_split s1
    have hsuf : skip s1 <:+ s := ((suffix_skip s1).trans (List.suffix_cons c s1)).trans (hskip ▸ suffix_skip s)
    obtain ⟨r, hr, hfine⟩ := hall _ hsuf ""
    have hit := item hB lv d hskip hc hr
    rcases hfine with rfl | ⟨e, hb, rfl⟩ | ⟨n, t, s', rfl, ht, htree⟩
    · exact ⟨_, hit, .inl rfl⟩
    · exact ⟨_, hit, .inr (.inl ⟨e, hb, rfl⟩)⟩
    · refine ⟨_, hit, .inr (.inr ⟨⟨w, c, w', t, some n⟩, n, s', rfl, rfl, ⟨hw, hw', hc, n, rfl, htree⟩, ?_⟩)⟩
      rw [Item.bytes_eq, ← ht, ← hs1, ← hskip]
      exact hs
  · exact ⟨_, item_miss hB lv d fun c s' hs hc => h ⟨c, s', hs, hc⟩, .inl rfl⟩

/-- What the items are. -/
def Rest (lv : Bool) (vs : List Ast) (s : Bytes) (r : VRes Ast) : Prop :=
  (∃ e, Bad e ∧ r = .error e) ∨ ∃ items l s', r = .ok (some (.arr (vs ++ l), s')) ∧ pairs items = some l ∧ (∀ i ∈ items, i.Tree lv) ∧
    s = itemsText items ++ s'

theorem rest_cons {lv : Bool} {vs : List Ast} {i : Item} {n : Int} (hv : i.val = some n) (hi : i.Tree lv) {s : Bytes} {r : VRes Ast}
    (h : Rest lv (vs ++ [pair i.c n]) s r) : Rest lv vs (i.bytes ++ s) r := by
  rcases h with h | ⟨items, l, s', rfl, hp, ht, rfl⟩
  · exact .inl h
  · refine .inr ⟨i :: items, pair i.c n :: l, s', by simp, by simp [pairs, hv, hp], fun j hj => ?_, by simp [itemsText]⟩
    rcases List.mem_cons.mp hj with rfl | hj
    · exact hi
    · exact ht j hj

theorem more_any (hB : FindsBlank reB) {lv : Bool} {d : Nat} : ∀ (k : Nat) {s : Bytes}, s.length ≤ k →
    (∀ s', s' <:+ s → Decided u N reB reI lv (d + 1) s') → ∀ vs : List Ast,
    ∃ r, Yields (calcOps u) N (calcRules reB reI) (d + 1) (.more (tailVP (opName lv) (operandName lv)) none 0 none vs) s r ∧ Rest lv vs s r := by
  intro k
  induction k with
  | zero =>
    intro s hlen hall vs
    obtain rfl : s = [] := List.length_eq_zero_iff.mp (by omega)
    have h := item_miss (u := u) (N := N) (reI := reI) hB lv d (s := []) (fun c s' h => by cases h)
    exact ⟨_, .noMore (by simp [Room]) .sepNone h, .inr ⟨[], [], [], by simp [vstop, calcOps], rfl, by simp, rfl⟩⟩
  | succ k ih =>
    intro s hlen hall vs
    obtain ⟨r, hr, h⟩ := item_any hB hall
    rcases h with rfl | ⟨e, hb, rfl⟩ | ⟨i, n, s', rfl, hv, hi, rfl⟩
    · exact ⟨_, .noMore (by simp [Room]) .sepNone hr, .inr ⟨[], [], s, by simp [vstop, calcOps], rfl, by simp, rfl⟩⟩
    · exact ⟨_, .morePanic (by simp [Room]) .sepNone hr, .inl ⟨e, hb, rfl⟩⟩
    · have hlt : s'.length ≤ k := by
        simp only [Item.bytes, List.length_append, List.length_cons, List.length_nil] at hlen
        omega
      obtain ⟨r, h1, h2⟩ := ih hlt (fun s'' hs => hall s'' (hs.trans (List.suffix_append ..))) (vs ++ [pair i.c n])
      exact ⟨r, .more (by simp [Room]) .sepNone hr h1, rest_cons hv hi h2⟩

theorem rest_any (hB : FindsBlank reB) {lv : Bool} {d : Nat} {s : Bytes} (hall : ∀ s', s' <:+ s → Decided u N reB reI lv (d + 1) s') :
    ∃ r, Yields (calcOps u) N (calcRules reB reI) (d + 1) (.part true (restVP (opName lv) (operandName lv))) s r ∧ Rest lv [] s r := by
  obtain ⟨r, hr, h⟩ := item_any hB hall
  rcases h with rfl | ⟨e, hb, rfl⟩ | ⟨i, n, s', rfl, hv, hi, rfl⟩
  · exact ⟨_, bare (.inl rfl) (.repMiss (mn := 0) hr), .inr ⟨[], [], s, rfl, rfl, by simp, rfl⟩⟩
  · exact ⟨_, bare (.inl rfl) (.repPanic hr), .inl ⟨e, hb, rfl⟩⟩
  · obtain ⟨r, h1, h2⟩ := more_any hB _ (Nat.le_refl _) (fun s'' hs => hall s'' (hs.trans (List.suffix_append ..))) [pair i.c n]
    exact ⟨r, bare (.inl rfl) (.rep hr h1), rest_cons hv hi h2⟩

/-- The callback, after an operand and items. -/
theorem xx_any {lv : Bool} {n : Int} {t : Bytes} (ht : Tree lv t n) {items : List Item} {l : List Ast} (hp : pairs items = some l)
    (hi : ∀ i ∈ items, i.Tree lv) (s : Bytes) :
    (∃ e, Bad e ∧ called (calcOps u) N (some 0) (.ok (some (.map [("first", .int n), ("rest", .arr l)], s))) = .error e) ∨
    ∃ m, called (calcOps u) N (some 0) (.ok (some (.map [("first", .int n), ("rest", .arr l)], s))) = .ok (some (.int m, s)) ∧
      Level lv (t ++ itemsText items) m := by
  rw [called_xx]
  cases hf : l.foldlM calcStep n with
  | ok m => exact .inr ⟨m, rfl, level_items hi hp (level_one ht) hf⟩
  | error e => exact .inl ⟨e, .inl (fold_bad (fun i h => (hi i h).2.2.1) hp hf), rfl⟩

theorem term_any (hB : FindsBlank reB) {d : Nat} {s : Bytes} (hall : ∀ s', s' <:+ s → Decided u N reB reI false (d + 1) s') :
    Decided u N reB reI true (d + 2) s := by
  intro lab
  have hmem : ("Term", some 0, Body.text calcTerm) ∈ rulesOf (calcRules reB reI) := by
    simp [calcRules, rulesOf, GLine.rules, Body.rules]
  obtain ⟨r, hr, h⟩ := hall s (List.suffix_refl s) "first"
  rcases h with rfl | ⟨e, hb, rfl⟩ | ⟨n, t, s', rfl, rfl, ht⟩
  · exact ⟨_, named hmem (.inl rfl) term_vp rfl (r := .ok none) (.seq (.itemsMiss hr)), .inl rfl⟩
  · exact ⟨_, named hmem (.inl rfl) term_vp rfl (r := .error e) (.seq (.itemsPanic hr)), .inr (.inl ⟨e, hb, rfl⟩)⟩
  · obtain ⟨r, hr', h⟩ := rest_any hB (s := s') (fun s'' hs => hall s'' (hs.trans (List.suffix_append ..)))
    rcases h with ⟨e, hb, rfl⟩ | ⟨items, l, s'', rfl, hp, hi, rfl⟩
    · exact ⟨_, named hmem (.inl rfl) term_vp rfl (r := .error e) (.seq (.itemsPut hr rfl (.itemsPanic hr'))), .inr (.inl ⟨e, hb, rfl⟩)⟩
    · refine ⟨_, named hmem (.inl rfl) term_vp rfl (r := .ok (some (.map [("first", .int n), ("rest", .arr l)], s'')))
        (.seq (.itemsPut hr rfl (.itemsPut hr' rfl (.itemsEnd rfl)))), ?_⟩
      rcases xx_any (u := u) (N := N) ht hp hi s'' with ⟨e, hb, h⟩ | ⟨m, h, hl⟩
      · rw [h]; exact .inr (.inl ⟨e, hb, rfl⟩)
      · rw [h]; exact .inr (.inr ⟨m, t ++ itemsText items, s'', rfl, by simp, hl⟩)

/-- The rule `Expr`. -/
def FineExpr (s : Bytes) (r : VRes Ast) : Prop :=
  r = .ok none ∨ (∃ e, Bad e ∧ r = .error e) ∨ ∃ n, ∃ i : Input, ∃ s', r = .ok (some (.int n, s')) ∧ i.Ok ∧ i.s.value = some n ∧ s = i.text ++ s'

theorem expr_any (hB : FindsBlank reB) {d : Nat} {s : Bytes} (hall : ∀ s', s' <:+ s → Decided u N reB reI true (d + 1) s') :
    ∃ r, Yields (calcOps u) N (calcRules reB reI) (d + 1) (.core false exprVP) s r ∧ FineExpr s (called (calcOps u) N (some 0) r) := by
  obtain ⟨v0, h0⟩ := blanks (u := u) (N := N) (reI := reI) hB d s
  obtain ⟨w, hw, hs⟩ := skip_split s
  have hsuf := suffix_skip s
  generalize skip s = s1 at h0 hs hsuf
  obtain ⟨r, hr, h⟩ := hall s1 hsuf "first"
  rcases h with rfl | ⟨e, hb, rfl⟩ | ⟨n, t, s', rfl, rfl, ht⟩
  · exact ⟨_, .seq (.itemsPut h0 rfl (.itemsMiss hr)), .inl rfl⟩
  · exact ⟨_, .seq (.itemsPut h0 rfl (.itemsPanic hr)), .inr (.inl ⟨e, hb, rfl⟩)⟩
  · obtain ⟨r, hr', h⟩ := rest_any hB (s := s') (fun s'' hs' => hall s'' ((hs'.trans (List.suffix_append ..)).trans hsuf))
    rcases h with ⟨e, hb, rfl⟩ | ⟨items, l, s'', rfl, hp, hi, rfl⟩
    · exact ⟨_, .seq (.itemsPut h0 rfl (.itemsPut hr rfl (.itemsPanic hr'))), .inr (.inl ⟨e, hb, rfl⟩)⟩
    · obtain ⟨v3, h3⟩ := blanks (u := u) (N := N) (reI := reI) hB d s''
      obtain ⟨w', hw', hs''⟩ := skip_split s''
      refine ⟨_, .seq (.itemsPut h0 rfl (.itemsPut hr rfl (.itemsPut hr' rfl (.itemsPut h3 rfl (.itemsEnd rfl))))), ?_⟩
      rcases xx_any (u := u) (N := N) ht hp hi (skip s'') with ⟨e, hb, h⟩ | ⟨m, h, x, hok, htext, hv⟩
      · exact .inr (.inl ⟨e, hb, h⟩)
      · refine .inr (.inr ⟨m, ⟨w, x, w'⟩, skip s'', h, ⟨hw, hok, hw'⟩, hv, ?_⟩)
        rw [hs]
        conv_lhs => rw [hs'']
        simp [Input.text, htext]

theorem integer_any (hI : FindsInt reI) (d : Nat) (s : Bytes) :
    ∃ r, Yields (calcOps u) N (calcRules reB reI) (d + 1) (.part false (.name "" "Integer" false)) s r ∧ Fine false s r := by
  by_cases h : ∃ n, reI.find s = some (0, n)
  · obtain ⟨n, hn⟩ := h
    obtain ⟨neg, ds, s', hne, hd, hs', rfl⟩ := hI.2 s n hn
    have h1 := integer_gets (u := u) (N := N) (reB := reB) hI d neg hne hd hs' false
    unfold Gets at h1
    cases hv : number neg ds with
    | some m =>
      rw [hv] at h1
      exact ⟨_, h1, .inr (.inr ⟨m, _, s', rfl, rfl, .num neg ds, by rw [Factor.Ok]; exact ⟨hne, hd⟩, by rw [Factor.text], by rw [Factor.value, hv]⟩)⟩
    | none =>
      rw [hv] at h1
      obtain ⟨e, hb, h1⟩ := h1
      exact ⟨_, h1, .inr (.inl ⟨e, hb, rfl⟩)⟩
  · have hmem : ("Integer", some 1, Body.text (calcInteger reI)) ∈ rulesOf (calcRules reB reI) := by
      simp [calcRules, rulesOf, GLine.rules, Body.rules]
    exact ⟨_, named hmem (.inr rfl) (integer_vp reI) rfl (r := .ok none) (.reMiss fun n hn => h ⟨n, hn⟩), .inl rfl⟩

/-- `Integer`, when there is no expression in parentheses. -/
theorem factor_integer (hI : FindsInt reI) {d : Nat} {s : Bytes} {lab : String}
    (hmiss : Yields (calcOps u) N (calcRules reB reI) (d + 1) (.part false (.seq "" [.lit "" [0x28], .name "" "Expr" false, .lit "" [0x29]])) s (.ok none)) :
    ∃ r, Yields (calcOps u) N (calcRules reB reI) (d + 2) (.part true (.name lab "Factor" false)) s r ∧ Fine false s r := by
  obtain ⟨r, hr, hf⟩ := integer_any (u := u) (N := N) (reB := reB) hI d s
  have key : Yields (calcOps u) N (calcRules reB reI) (d + 1) (.core false factorVP) s r := by
    refine .alt (.altsMiss hmiss ?_)
    by_cases h : r = .ok none
    · subst h; exact .altsMiss hr .altsEnd
    · exact .altsDone hr h
  refine ⟨_, named factor_mem (.inl rfl) factor_vp rfl key, ?_⟩
  have : called (calcOps u) N none r = r := by
    match r with
    | .error e => rfl
    | .ok none => rfl
    | .ok (some (v, s')) => rfl
  rwa [this]

theorem factor_any (hB : FindsBlank reB) (hI : FindsInt reI) : ∀ (k : Nat) {s : Bytes}, s.length ≤ k → ∀ d, 3 * s.count 0x28 + 2 ≤ d →
    Decided u N reB reI false d s := by
  intro k
  induction k with
  | zero =>
    intro s hlen d hd lab
    obtain rfl : s = [] := List.length_eq_zero_iff.mp (by omega)
    obtain ⟨e, rfl⟩ : ∃ e, d = e + 2 := ⟨d - 2, by omega⟩
    exact factor_integer hI (bare (.inr rfl) (.seq (.itemsMiss (lit_miss _ _ _ _ (by simp)))))
  | succ k ih =>
    intro s hlen d hd lab
    obtain ⟨e, rfl⟩ : ∃ e, d = e + 2 := ⟨d - 2, by omega⟩
    by_cases h : ∃ s1, s = 0x28 :: s1
    · obtain ⟨s1, rfl⟩ := h
      rw [List.count_cons_self] at hd
      obtain ⟨d1, rfl⟩ : ∃ d1, e = d1 + 3 := ⟨e - 3, by omega⟩
      have hF : ∀ s', s' <:+ s1 → Decided u N reB reI false (d1 + 2) s' := by
        intro s' hs'
        have h1 := hs'.length_le
        have h2 := hs'.sublist.count_le (0x28 : UInt8)
        rw [List.length_cons] at hlen
        exact ih (by omega) _ (by omega)
      have hT : ∀ s', s' <:+ s1 → Decided u N reB reI true (d1 + 3) s' := fun s' hs' => term_any hB fun s'' hs'' => hF s'' (hs''.trans hs')
      obtain ⟨r, hr, hf⟩ := expr_any hB hT
      have he := named (h := true) (lab := "") (q := false) expr_mem (.inl rfl) expr_vp rfl hr
      rcases hf with hf | ⟨x, hb, hf⟩ | ⟨n, i, s', hf, hok, hv, hs⟩
      · rw [hf] at he
        exact factor_integer hI (bare (.inr rfl) (.seq (.itemsPut (lit_hit ..) rfl (.itemsMiss he))))
      · rw [hf] at he
        refine ⟨_, named factor_mem (.inl rfl) factor_vp rfl (r := .error x) (.alt (.altsDone (bare (.inr rfl) (.seq ?_)) (by simp))), .inr (.inl ⟨x, hb, rfl⟩)⟩
        exact .itemsPut (lit_hit ..) rfl (.itemsPanic he)
      · rw [hf] at he
        by_cases hc : ∃ s2, s' = 0x29 :: s2
        · obtain ⟨s2, rfl⟩ := hc
          refine ⟨_, named factor_mem (.inl rfl) factor_vp rfl (r := .ok (some (.int n, s2))) (.alt (.altsDone (bare (.inr rfl) (.seq ?_)) (by simp))), ?_⟩
          · exact .itemsPut (lit_hit ..) rfl (.itemsPut he rfl (.itemsPut (lit_hit ..) rfl (.itemsEnd rfl)))
          · refine .inr (.inr ⟨n, _, s2, rfl, ?_, .paren i.w i.s i.w', by rw [Factor.Ok]; exact hok, rfl, by rw [Factor.value, hv]⟩)
            simp [Factor.text, hs, Input.text]
        · exact factor_integer hI (bare (.inr rfl) (.seq (.itemsPut (lit_hit ..) rfl (.itemsPut he rfl (.itemsMiss
            (lit_miss _ _ _ _ fun s2 h2 => hc ⟨s2, h2⟩))))))
    · exact factor_integer hI (bare (.inr rfl) (.seq (.itemsMiss (lit_miss _ _ _ _ fun s' hs' => h ⟨s', hs'⟩))))

/-- Any text, given to the grammar. -/
theorem input_any (hB : FindsBlank reB) (hI : FindsInt reI) (s : Bytes) (d : Nat) (hd : 3 * s.count 0x28 + 4 ≤ d) :
    ∃ r, Yields (calcOps u) N (calcRules reB reI) d (.lines (calcRules reB reI)) s r ∧ FineExpr s r := by
  obtain ⟨k, rfl⟩ : ∃ k, d = k + 4 := ⟨d - 4, by omega⟩
  have hF : ∀ s', s' <:+ s → Decided u N reB reI false (k + 2) s' := by
    intro s' hs'
    have h2 := hs'.sublist.count_le (0x28 : UInt8)
    exact factor_any hB hI _ (Nat.le_refl _) _ (by omega)
  have hT : ∀ s', s' <:+ s → Decided u N reB reI true (k + 3) s' := fun s' hs' => term_any hB fun s'' hs'' => hF s'' (hs''.trans hs')
  obtain ⟨r, hr, hf⟩ := expr_any hB hT
  have he : Yields (calcOps u) N (calcRules reB reI) (k + 4) (.rule (some 0) (.text calcExpr)) s (called (calcOps u) N (some 0) r) :=
    .text (by rw [expr_vp]; exact bare (.inr rfl) hr)
  refine ⟨_, ?_, hf⟩
  by_cases hn : called (calcOps u) N (some 0) r = .ok none
  · rw [hn] at he ⊢
    exact .altMiss he (.incl (.incl (.incl (.incl (.incl (.incl .linesEnd))))))
  · exact .altDone he hn

end
end Joeson.Calc
