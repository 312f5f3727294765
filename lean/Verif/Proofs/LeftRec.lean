import Verif.Proofs.Peg
import Verif.Spec.LeftRec
/-! # `lpeg` does not depend on the bounds, and more seeds give more answers -/

namespace Joeson
variable {V H : Type}

/-- More is known. -/
def Seed.le (x y : Seed V) : Prop := x = .unknown ∨ x = y

theorem Seed.le_refl (x : Seed V) : x.le x := Or.inr rfl
theorem Seed.unknown_le (x : Seed V) : Seed.le .unknown x := Or.inl rfl

/-- More is known about the same rule. -/
def Ctx.le : Ctx V → Ctx V → Prop
  | none, none => True
  | some (i, x), some (j, y) => i = j ∧ x.le y
  | _, _ => False

theorem Ctx.le_refl : ∀ c : Ctx V, Ctx.le c c
  | none => trivial
  | some (_, x) => ⟨rfl, x.le_refl⟩

/-- As `ok`-or-`oof` outcome of a call. -/
theorem lrSeed_mono {c c' : Ctx V} (h : Ctx.le c c') (q id p : Nat) :
    (lrSeed c q id p = none ∧ lrSeed c' q id p = none) ∨
      ∃ x y, lrSeed c q id p = some x ∧ lrSeed c' q id p = some y ∧ x.le y := by
  match c, c', h with
  | none, none, _ => exact Or.inl ⟨rfl, rfl⟩
  | some (i, x), some (j, y), ⟨hi, hxy⟩ =>
    subst hi
    unfold lrSeed
    dsimp only
    by_cases hc : i = id ∧ q = p
    · simp only [if_pos hc]; exact Or.inr ⟨x, y, rfl, rfl, hxy⟩
    · simp only [if_neg hc]; exact Or.inl ⟨trivial, trivial⟩

theorem growSeed_mono {run run' : Option (V × Nat) → Out (Option (V × Nat))} (h : ∀ x, Out.le (run x) (run' x)) :
    ∀ k k', k ≤ k' → ∀ v e, Out.le (growSeed run k v e) (growSeed run' k' v e)
  | 0, _, _, _, _ => Out.le_oof _
  | k + 1, 0, hk, _, _ => absurd hk (by omega)
  | k + 1, k' + 1, hk, v, e => by
    rw [growSeed, growSeed]
    refine Out.le_bind (h _) fun x => ?_
    match x with
    | none => exact Out.le_refl _
    | some (v', e') => exact Out.le_ite (Out.le_refl _) (growSeed_mono h k k' (by omega) v' e')

theorem ruleBody_mono (E : PegEnv V) {ev ev' : Node → Nat → Out (Option (V × Nat))}
    (h : ∀ n p, Out.le (ev n p) (ev' n p)) {k k' : Nat} (hk : k ≤ k') (body : Node) (p : Nat) :
    Out.le (ruleBody E ev k body p) (ruleBody E ev' k' body p) :=
  Out.le_bind (pegKind_mono E h hk body p) fun _ => Out.le_refl _

theorem ruleGrow_mono {run run' : Seed V → Out (Option (V × Nat))} (h : ∀ x, Out.le (run x) (run' x)) {k k' : Nat}
    (hk : k ≤ k') : Out.le (ruleGrow run k) (ruleGrow run' k') := by
  unfold ruleGrow
  refine Out.le_bind (h _) fun x => ?_
  match x with
  | none => exact Out.le_refl _
  | some (v', e') => exact growSeed_mono (fun x => h _) k k' hk v' e'

theorem lpeg_rule_succ (E : PegEnv V) (k d : Nat) (c : Ctx V) (q p : Nat) {id : Nat} {body : Node}
    (hb : E.g.rules[id]? = some body) : lpeg E (k + 1) (d + 1) c (.rule id) q p =
      match lrSeed c q id p with
      | some .unknown => .oof
      | some (.known x) => .ok x
      | none =>
        if body.info.skipCache then ruleBody E (fun n p' => lpeg E k d none n p p') k body p
        else ruleGrow (fun x => ruleBody E (fun n p' => lpeg E k d (some (id, x)) n p p') k body p) k := by
  conv => lhs; unfold lpeg
  rw [hb]
  rfl

theorem lpeg_rule_zero (E : PegEnv V) (k : Nat) (c : Ctx V) (q p : Nat) {id : Nat} {body : Node}
    (hb : E.g.rules[id]? = some body) : lpeg E (k + 1) 0 c (.rule id) q p = .oof := by
  unfold lpeg
  rw [hb]

theorem lpeg_rule_none (E : PegEnv V) (k d : Nat) (c : Ctx V) (q p : Nat) {id : Nat}
    (hb : E.g.rules[id]? = none) : lpeg E (k + 1) d c (.rule id) q p = .panic .indexOutOfRange := by
  unfold lpeg
  rw [hb]

theorem lpeg_node (E : PegEnv V) (k d : Nat) (c : Ctx V) {n : Node} (q p : Nat) (hn : ∀ id, n ≠ .rule id) :
    lpeg E (k + 1) d c n q p =
      if n.info.ownLabel || n.info.cb.isSome then
        (pegKind E (fun n p' => lpeg E k d c n q p') k n p >>= pegFinish E n.info q)
      else pegKind E (fun n p' => lpeg E k d c n q p') k n p := by
  cases n <;> first | rfl | exact absurd rfl (hn _)

theorem lpeg_mono (E : PegEnv V) : ∀ k k' d d' c c', k ≤ k' → d ≤ d' → Ctx.le c c' → ∀ n q p,
    Out.le (lpeg E k d c n q p) (lpeg E k' d' c' n q p)
  | 0, _, _, _, _, _, _, _, _, _, _, _ => Out.le_oof _
  | k + 1, 0, _, _, _, _, hk, _, _, _, _, _ => absurd hk (by omega)
  | k + 1, k' + 1, d, d', c, c', hk, hd, hc, n, q, p => by
    by_cases hr : ∃ id, n = .rule id
    · obtain ⟨id, rfl⟩ := hr
      cases hb : E.g.rules[id]? with
      | none => rw [lpeg_rule_none E k d c q p hb, lpeg_rule_none E k' d' c' q p hb]; exact Out.le_refl _
      | some body =>
        cases d with
        | zero => rw [lpeg_rule_zero E k c q p hb]; exact Out.le_oof _
        | succ d =>
          cases d' with
          | zero => omega
          | succ d' =>
            rw [lpeg_rule_succ E k d c q p hb, lpeg_rule_succ E k' d' c' q p hb]
            rcases lrSeed_mono hc q id p with ⟨h1, h2⟩ | ⟨x, y, h1, h2, h3⟩
            · rw [h1, h2]
              dsimp only
              refine Out.le_ite ?_ ?_
              · exact ruleBody_mono E (fun n p' => lpeg_mono E k k' d d' none none (by omega) (by omega) trivial n p p')
                  (by omega) body p
              · refine ruleGrow_mono (fun x => ?_) (by omega)
                exact ruleBody_mono E (fun n p' => lpeg_mono E k k' d d' (some (id, x)) (some (id, x)) (by omega)
                  (by omega) ⟨rfl, x.le_refl⟩ n p p') (by omega) body p
            · rw [h1, h2]
              rcases h3 with rfl | rfl
              · exact Out.le_oof _
              · cases x with
                | unknown => exact Out.le_oof _
                | known x => exact Out.le_refl _
    · have hn : ∀ id, n ≠ .rule id := fun id h => hr ⟨id, h⟩
      rw [lpeg_node E k d c q p hn, lpeg_node E k' d' c' q p hn]
      refine Out.le_ite (Out.le_bind ?_ fun x => Out.le_refl _) ?_ <;>
        exact pegKind_mono E (fun n p' => lpeg_mono E k k' d d' c c' (by omega) hd hc n q p') (by omega) _ p

/-- A call that is not left recursive does not depend on the context. -/
theorem lpeg_rule_ctx (E : PegEnv V) (k d : Nat) {c c' : Ctx V} {id q q' p : Nat} (h : lrSeed c q id p = none)
    (h' : lrSeed c' q' id p = none) : lpeg E k d c (.rule id) q p = lpeg E k d c' (.rule id) q' p := by
  cases k with
  | zero => rfl
  | succ k =>
    cases hb : E.g.rules[id]? with
    | none => rw [lpeg_rule_none E k d c q p hb, lpeg_rule_none E k d c' q' p hb]
    | some body =>
      cases d with
      | zero => rw [lpeg_rule_zero E k c q p hb, lpeg_rule_zero E k c' q' p hb]
      | succ d => rw [lpeg_rule_succ E k d c q p hb, lpeg_rule_succ E k d c' q' p hb, h, h']

/-- Two answers agree. -/
theorem lpeg_unique (E : PegEnv V) {k k' d d' : Nat} {c : Ctx V} {n : Node} {q p : Nat}
    (h : lpeg E k d c n q p ≠ .oof) (h' : lpeg E k' d' c n q p ≠ .oof) :
    lpeg E k d c n q p = lpeg E k' d' c n q p := by
  have h1 := Out.le_eq (lpeg_mono E k (max k k') d (max d d') c c (by omega) (by omega) (Ctx.le_refl _) n q p) h
  have h2 := Out.le_eq (lpeg_mono E k' (max k k') d' (max d d') c c (by omega) (by omega) (Ctx.le_refl _) n q p) h'
  rw [← h1, ← h2]

/-- Where `peg` has an answer, `lpeg` has the same, with more fuel for the runs that try to grow. -/
theorem peg_le_lpeg (E : PegEnv V) : ∀ k d (c : Ctx V) n q p,
    (∀ id p', lrSeed c q id p' ≠ none → peg E k d (.rule id) 0 p' = .oof) →
    Out.le (peg E k d n q p) (lpeg E (k + 1) d c n q p)
  | 0, _, _, _, _, _, _ => Out.le_oof _
  | k + 1, d, c, n, q, p, hc => by
    have weak : ∀ id p', lrSeed c q id p' ≠ none → peg E k d (.rule id) 0 p' = .oof := fun id p' h => by
      rcases peg_mono E k (k + 1) d d (by omega) (by omega) (.rule id) 0 p' with h' | h'
      · exact h'
      · rw [h']; exact hc id p' h
    by_cases hr : ∃ id, n = .rule id
    · obtain ⟨id, rfl⟩ := hr
      by_cases hoof : peg E (k + 1) d (.rule id) q p = .oof
      · rw [hoof]; exact Out.le_oof _
      cases hb : E.g.rules[id]? with
      | none =>
        rw [lpeg_rule_none E (k + 1) d c q p hb]
        unfold peg
        rw [hb]
        exact Out.le_refl _
      | some body =>
        have hpeg0 : peg E (k + 1) 0 (.rule id) q p = .oof := by
          unfold peg
          rw [hb]
        have hs : lrSeed c q id p = none := by
          cases hs : lrSeed c q id p with
          | none => rfl
          | some x =>
            refine absurd (hc id p (by rw [hs]; simp)) ?_
            rw [peg_rule E _ _ _ 0 q]; exact hoof
        have hleast : ∀ m, m ≤ d → peg E (k + 1) m (.rule id) q p ≠ .oof → ∃ d1, d1 < d ∧
            peg E (k + 1) d1 (.rule id) q p = .oof ∧ peg E (k + 1) (d1 + 1) (.rule id) q p ≠ .oof := by
          intro m
          induction m with
          | zero => intro _ h; exact absurd hpeg0 h
          | succ m ih =>
            intro hm h
            by_cases h' : peg E (k + 1) m (.rule id) q p = .oof
            · exact ⟨m, by omega, h', h⟩
            · exact ih (by omega) h'
        obtain ⟨d1, hd1, ho1, ho2⟩ := hleast d (Nat.le_refl _) hoof
        obtain ⟨d, rfl⟩ : ∃ d', d = d' + 1 := ⟨d - 1, by omega⟩
        have hbody : peg E (k + 1) (d1 + 1) (.rule id) q p = ruleBody E (fun n p' => peg E k d1 n p p') k body p := by
          conv => lhs; unfold peg
          rw [hb]
          rfl
        rw [peg_unique E hoof ho2, lpeg_rule_succ E (k + 1) d c q p hb, hs]
        rw [hbody] at ho2 ⊢
        have key : ∀ c' : Ctx V, (∀ id' p', lrSeed c' p id' p' ≠ none → id' = id ∧ p' = p) →
            ruleBody E (fun n p' => lpeg E (k + 1) d c' n p p') (k + 1) body p =
              ruleBody E (fun n p' => peg E k d1 n p p') k body p := by
          intro c' hc'
          refine Out.le_eq (ruleBody_mono E (fun n p' => ?_) (by omega) body p) ho2
          have h1 := peg_le_lpeg E k d1 c' n p p' (fun id' p' h => by
            obtain ⟨rfl, rfl⟩ := hc' id' p' h
            rcases peg_mono E k (k + 1) d1 d1 (by omega) (by omega) (.rule id') 0 p' with h' | h'
            · exact h'
            · rw [h', peg_rule E _ _ _ 0 q]; exact ho1)
          have h2 := lpeg_mono E (k + 1) (k + 1) d1 d c' c' (by omega) (by omega) (Ctx.le_refl _) n p p'
          exact Out.le_trans h1 h2
        dsimp only
        split
        · rw [key none (fun id' p' h => absurd rfl h)]
          exact Out.le_refl _
        · have hk : ∀ x : Seed V, ruleBody E (fun n p' => lpeg E (k + 1) d (some (id, x)) n p p') (k + 1) body p =
              ruleBody E (fun n p' => peg E k d1 n p p') k body p := fun x => key _ fun id' p' h => by
            unfold lrSeed at h
            dsimp only at h
            split at h
            · rename_i hh; exact ⟨hh.1.symm, hh.2.symm⟩
            · exact absurd rfl h
          unfold ruleGrow
          simp only [hk]
          cases hx : ruleBody E (fun n p' => peg E k d1 n p p') k body p with
          | oof => exact absurd hx ho2
          | panic e => exact Out.le_refl _
          | ok x =>
            match x with
            | none => exact Out.le_refl _
            | some (v, e) =>
              rw [Out.bind_ok]
              dsimp only
              rw [growSeed, Out.bind_ok]
              dsimp only
              rw [if_pos (Nat.le_refl _)]
              exact Out.le_refl _
    · have hn : ∀ id, n ≠ .rule id := fun id h => hr ⟨id, h⟩
      have hp : peg E (k + 1) d n q p = if n.info.ownLabel || n.info.cb.isSome then
          (pegKind E (fun n p' => peg E k d n q p') k n p >>= pegFinish E n.info q)
          else pegKind E (fun n p' => peg E k d n q p') k n p := by
        cases n <;> first | rfl | exact absurd rfl (hn _)
      rw [hp, lpeg_node E (k + 1) d c q p hn]
      refine Out.le_ite (Out.le_bind ?_ fun x => Out.le_refl _) ?_ <;>
        exact pegKind_mono E (fun n p' => peg_le_lpeg E k d c n q p' weak) (by omega) _ p

end Joeson
