import Verif.Proofs.LeftRec
import Verif.Spec.LeftRank
/-! # `gpeg` does not depend on the bounds, more seeds give more answers, and it extends `lpeg` -/

namespace Joeson
variable {V H : Type}

section
variable (pv : Nat → Bool)

theorem gpeg_rule_succ (E : PegEnv V) (k d : Nat) (c : Ctx V) (q p : Nat) {id : Nat} {body : Node}
    (hb : E.g.rules[id]? = some body) : gpeg pv E (k + 1) (d + 1) c (.rule id) q p =
      if pv id then if q = p then ruleBody E (fun n p' => gpeg pv E k d c n p p') k body p else .oof
      else match lrSeed c q id p with
      | some .unknown => .oof
      | some (.known x) => .ok x
      | none =>
        if body.info.skipCache then ruleBody E (fun n p' => gpeg pv E k d none n p p') k body p
        else ruleGrow (fun x => ruleBody E (fun n p' => gpeg pv E k d (some (id, x)) n p p') k body p) k := by
  conv => lhs; unfold gpeg
  rw [hb]
  rfl

theorem gpeg_priv (E : PegEnv V) (k d : Nat) (c : Ctx V) (p : Nat) {id : Nat} {body : Node}
    (hb : E.g.rules[id]? = some body) (hpv : pv id = true) : gpeg pv E (k + 1) (d + 1) c (.rule id) p p =
      ruleBody E (fun n p' => gpeg pv E k d c n p p') k body p := by
  rw [gpeg_rule_succ pv E k d c p p hb, if_pos hpv, if_pos rfl]

theorem gpeg_priv_ne (E : PegEnv V) (k d : Nat) (c : Ctx V) {q p : Nat} (hne : q ≠ p) {id : Nat} {body : Node}
    (hb : E.g.rules[id]? = some body) (hpv : pv id = true) : gpeg pv E k d c (.rule id) q p = .oof := by
  cases k with
  | zero => rfl
  | succ k =>
    cases d with
    | zero => unfold gpeg; rw [hb]
    | succ d => rw [gpeg_rule_succ pv E k d c q p hb, if_pos hpv, if_neg hne]

theorem gpeg_pub (E : PegEnv V) (k d : Nat) (c : Ctx V) (q p : Nat) {id : Nat} {body : Node}
    (hb : E.g.rules[id]? = some body) (hpv : pv id = false) : gpeg pv E (k + 1) (d + 1) c (.rule id) q p =
      match lrSeed c q id p with
      | some .unknown => .oof
      | some (.known x) => .ok x
      | none =>
        if body.info.skipCache then ruleBody E (fun n p' => gpeg pv E k d none n p p') k body p
        else ruleGrow (fun x => ruleBody E (fun n p' => gpeg pv E k d (some (id, x)) n p p') k body p) k := by
  rw [gpeg_rule_succ pv E k d c q p hb, hpv]
  rfl

theorem gpeg_rule_zero (E : PegEnv V) (k : Nat) (c : Ctx V) (q p : Nat) {id : Nat} {body : Node}
    (hb : E.g.rules[id]? = some body) : gpeg pv E (k + 1) 0 c (.rule id) q p = .oof := by
  unfold gpeg
  rw [hb]

theorem gpeg_rule_none (E : PegEnv V) (k d : Nat) (c : Ctx V) (q p : Nat) {id : Nat}
    (hb : E.g.rules[id]? = none) : gpeg pv E (k + 1) d c (.rule id) q p = .panic .indexOutOfRange := by
  unfold gpeg
  rw [hb]

theorem gpeg_node (E : PegEnv V) (k d : Nat) (c : Ctx V) {n : Node} (q p : Nat) (hn : ∀ id, n ≠ .rule id) :
    gpeg pv E (k + 1) d c n q p =
      if n.info.ownLabel || n.info.cb.isSome then
        (pegKind E (fun n p' => gpeg pv E k d c n q p') k n p >>= pegFinish E n.info q)
      else pegKind E (fun n p' => gpeg pv E k d c n q p') k n p := by
  cases n <;> first | rfl | exact absurd rfl (hn _)

theorem gpeg_mono (E : PegEnv V) : ∀ k k' d d' c c', k ≤ k' → d ≤ d' → Ctx.le c c' → ∀ n q p,
    Out.le (gpeg pv E k d c n q p) (gpeg pv E k' d' c' n q p)
  | 0, _, _, _, _, _, _, _, _, _, _, _ => Out.le_oof _
  | k + 1, 0, _, _, _, _, hk, _, _, _, _, _ => absurd hk (by omega)
  | k + 1, k' + 1, d, d', c, c', hk, hd, hc, n, q, p => by
    by_cases hr : ∃ id, n = .rule id
    · obtain ⟨id, rfl⟩ := hr
      cases hb : E.g.rules[id]? with
      | none => rw [gpeg_rule_none pv E k d c q p hb, gpeg_rule_none pv E k' d' c' q p hb]; exact Out.le_refl _
      | some body =>
        cases d with
        | zero => rw [gpeg_rule_zero pv E k c q p hb]; exact Out.le_oof _
        | succ d =>
          cases d' with
          | zero => omega
          | succ d' =>
            rw [gpeg_rule_succ pv E k d c q p hb, gpeg_rule_succ pv E k' d' c' q p hb]
            refine Out.le_ite (Out.le_ite ?_ (Out.le_refl _)) ?_
            · exact ruleBody_mono E (fun n p' => gpeg_mono E k k' d d' c c' (by omega) (by omega) hc n p p')
                (by omega) body p
            rcases lrSeed_mono hc q id p with ⟨h1, h2⟩ | ⟨x, y, h1, h2, h3⟩
            · rw [h1, h2]
              dsimp only
              refine Out.le_ite ?_ ?_
              · exact ruleBody_mono E (fun n p' => gpeg_mono E k k' d d' none none (by omega) (by omega) trivial n p p')
                  (by omega) body p
              · refine ruleGrow_mono (fun x => ?_) (by omega)
                exact ruleBody_mono E (fun n p' => gpeg_mono E k k' d d' (some (id, x)) (some (id, x)) (by omega)
                  (by omega) ⟨rfl, x.le_refl⟩ n p p') (by omega) body p
            · rw [h1, h2]
              rcases h3 with rfl | rfl
              · exact Out.le_oof _
              · cases x with
                | unknown => exact Out.le_oof _
                | known x => exact Out.le_refl _
    · have hn : ∀ id, n ≠ .rule id := fun id h => hr ⟨id, h⟩
      rw [gpeg_node pv E k d c q p hn, gpeg_node pv E k' d' c' q p hn]
      refine Out.le_ite (Out.le_bind ?_ fun x => Out.le_refl _) ?_ <;>
        exact pegKind_mono E (fun n p' => gpeg_mono E k k' d d' c c' (by omega) hd hc n q p') (by omega) _ p

/-- A call that is not left recursive does not depend on the context. -/
theorem gpeg_rule_ctx (E : PegEnv V) (k d : Nat) {c c' : Ctx V} {id q q' p : Nat} (hpv : pv id = false)
    (h : lrSeed c q id p = none)
    (h' : lrSeed c' q' id p = none) : gpeg pv E k d c (.rule id) q p = gpeg pv E k d c' (.rule id) q' p := by
  cases k with
  | zero => rfl
  | succ k =>
    cases hb : E.g.rules[id]? with
    | none => rw [gpeg_rule_none pv E k d c q p hb, gpeg_rule_none pv E k d c' q' p hb]
    | some body =>
      cases d with
      | zero => rw [gpeg_rule_zero pv E k c q p hb, gpeg_rule_zero pv E k c' q' p hb]
      | succ d => rw [gpeg_pub pv E k d c q p hb hpv, gpeg_pub pv E k d c' q' p hb hpv, h, h']

/-- Two answers agree. -/
theorem gpeg_unique (E : PegEnv V) {k k' d d' : Nat} {c : Ctx V} {n : Node} {q p : Nat}
    (h : gpeg pv E k d c n q p ≠ .oof) (h' : gpeg pv E k' d' c n q p ≠ .oof) :
    gpeg pv E k d c n q p = gpeg pv E k' d' c n q p := by
  have h1 := Out.le_eq (gpeg_mono pv E k (max k k') d (max d d') c c (by omega) (by omega) (Ctx.le_refl _) n q p) h
  have h2 := Out.le_eq (gpeg_mono pv E k' (max k k') d' (max d d') c c (by omega) (by omega) (Ctx.le_refl _) n q p) h'
  rw [← h1, ← h2]

/-- Without private rules. -/
theorem gpeg_none (E : PegEnv V) : ∀ k d (c : Ctx V) n q p,
    gpeg (fun _ => false) E k d c n q p = lpeg E k d c n q p
  | 0, _, _, _, _, _ => rfl
  | k + 1, d, c, n, q, p => by
    by_cases hr : ∃ id, n = .rule id
    · obtain ⟨id, rfl⟩ := hr
      cases hb : E.g.rules[id]? with
      | none => rw [gpeg_rule_none _ E k d c q p hb, lpeg_rule_none E k d c q p hb]
      | some body =>
        cases d with
        | zero => rw [gpeg_rule_zero _ E k c q p hb, lpeg_rule_zero E k c q p hb]
        | succ d =>
          rw [gpeg_pub _ E k d c q p hb rfl, lpeg_rule_succ E k d c q p hb]
          have : ∀ c', (fun n p' => gpeg (fun _ => false) E k d c' n p p') = fun n p' => lpeg E k d c' n p p' :=
            fun c' => funext fun n => funext fun p' => gpeg_none E k d c' n p p'
          simp only [this]
          rfl
    · have hn : ∀ id, n ≠ .rule id := fun id h => hr ⟨id, h⟩
      rw [gpeg_node _ E k d c q p hn, lpeg_node E k d c q p hn]
      have : (fun n p' => gpeg (fun _ => false) E k d c n q p') = fun n p' => lpeg E k d c n q p' :=
        funext fun n => funext fun p' => gpeg_none E k d c n q p'
      simp only [this]

end

/-! ## An answer that does not need the seed does not need it within the bounds either -/

/-- `o0` is what both `o` and `O` have. -/
def Tri {α : Type} (o0 o O : Out α) : Prop := (o0 = o ∧ o0 = O) ∨ (o0 = .oof ∧ (o = .oof ∨ O = .oof))

theorem Tri.refl {α : Type} (o : Out α) : Tri o o o := Or.inl ⟨rfl, rfl⟩
theorem Tri.oof {α : Type} {O : Out α} : Tri .oof .oof O := Or.inr ⟨rfl, Or.inl rfl⟩

theorem Tri.bind {α β : Type} {o0 o O : Out α} {f0 f F : α → Out β} (h : Tri o0 o O)
    (hf : ∀ x, Tri (f0 x) (f x) (F x)) : Tri (o0 >>= f0) (o >>= f) (O >>= F) := by
  rcases h with ⟨rfl, rfl⟩ | ⟨rfl, rfl | rfl⟩
  · cases o0 with
    | oof => exact Tri.oof
    | panic e => exact Tri.refl _
    | ok x => exact hf x
  · exact Or.inr ⟨rfl, Or.inl rfl⟩
  · exact Or.inr ⟨rfl, Or.inr rfl⟩

theorem Tri.ite {α : Type} {c : Prop} [Decidable c] {a0 a A b0 b B : Out α} (h : Tri a0 a A) (h' : Tri b0 b B) :
    Tri (if c then a0 else b0) (if c then a else b) (if c then A else B) := by
  split
  · exact h
  · exact h'

section
variable {ev0 ev EV : Node → Nat → Out (Option (V × Nat))} (h : ∀ n p, Tri (ev0 n p) (ev n p) (EV n p))
include h

theorem pegChoice_tri : ∀ l p, Tri (pegChoice ev0 l p) (pegChoice ev l p) (pegChoice EV l p)
  | [], _ => Tri.refl _
  | c :: cs, p => by
    rw [pegChoice, pegChoice, pegChoice]
    refine Tri.bind (h c p) fun x => ?_
    cases x with
    | none => exact pegChoice_tri cs p
    | some x => exact Tri.refl _

theorem pegSeq_tri (E : PegEnv V) (repr : SeqRepr) : ∀ l acc p,
    Tri (pegSeq E ev0 repr l acc p) (pegSeq E ev repr l acc p) (pegSeq E EV repr l acc p)
  | [], _, _ => Tri.refl _
  | c :: cs, acc, p => by
    rw [pegSeq, pegSeq, pegSeq]
    refine Tri.bind (h c p) fun x => ?_
    cases x with
    | none => exact Tri.refl _
    | some x => exact Tri.bind (Tri.refl _) fun acc => pegSeq_tri E repr cs acc x.2

theorem pegMore_tri (value : Node) (join : Option Node) (mx : Int) : ∀ k K, k ≤ K → ∀ vs p,
    Tri (pegMore ev0 value join mx k vs p) (pegMore ev value join mx k vs p) (pegMore EV value join mx K vs p)
  | 0, _, _, _, _ => Tri.oof
  | k + 1, 0, hk, _, _ => absurd hk (by omega)
  | k + 1, K + 1, hk, vs, p => by
    unfold pegMore
    refine Tri.bind ?_ fun q => ?_
    · cases join with
      | none => exact Tri.refl _
      | some j => exact Tri.bind (h j p) fun x => Tri.refl _
    · cases q with
      | none => exact Tri.refl _
      | some q =>
        refine Tri.bind (h value q) fun x => ?_
        cases x with
        | none => exact Tri.refl _
        | some x => exact Tri.ite (Tri.refl _) (pegMore_tri value join mx k K (by omega) _ _)

theorem pegKind_tri (E : PegEnv V) {k K : Nat} (hk : k ≤ K) (n : Node) (p : Nat) :
    Tri (pegKind E ev0 k n p) (pegKind E ev k n p) (pegKind E EV K n p) := by
  cases n with
  | str i b => exact Tri.refl _
  | regex i re => exact Tri.refl _
  | choice i alts => exact pegChoice_tri h alts p
  | seq i repr items => exact pegSeq_tri h E repr items _ p
  | exist i it => exact Tri.bind (h it p) fun x => Tri.refl _
  | look i it => exact Tri.bind (h it p) fun x => Tri.refl _
  | not i it => exact Tri.bind (h it p) fun x => Tri.refl _
  | pattern i v j mn mx =>
    refine Tri.bind (h v p) fun x => ?_
    cases x with
    | none => exact Tri.refl _
    | some x => exact Tri.bind (pegMore_tri h v j mx k K hk _ _) fun y => Tri.refl _
  | ref i nm =>
    rw [pegKind, pegKind, pegKind]
    cases E.g.lookup nm with
    | none => exact Tri.refl _
    | some id => exact h _ _
  | rule id => exact h _ _

theorem ruleBody_tri (E : PegEnv V) {k K : Nat} (hk : k ≤ K) (body : Node) (p : Nat) :
    Tri (ruleBody E ev0 k body p) (ruleBody E ev k body p) (ruleBody E EV K body p) :=
  Tri.bind (pegKind_tri h E hk body p) fun _ => Tri.refl _

end

theorem growSeed_tri {r0 r R : Option (V × Nat) → Out (Option (V × Nat))} (h : ∀ x, Tri (r0 x) (r x) (R x)) :
    ∀ k K, k ≤ K → ∀ v e, Tri (growSeed r0 k v e) (growSeed r k v e) (growSeed R K v e)
  | 0, _, _, _, _ => Tri.oof
  | k + 1, 0, hk, _, _ => absurd hk (by omega)
  | k + 1, K + 1, hk, v, e => by
    rw [growSeed, growSeed, growSeed]
    refine Tri.bind (h _) fun x => ?_
    match x with
    | none => exact Tri.refl _
    | some (v', e') => exact Tri.ite (Tri.refl _) (growSeed_tri h k K (by omega) v' e')

theorem ruleGrow_tri {r0 r R : Seed V → Out (Option (V × Nat))} (h : ∀ x, Tri (r0 x) (r x) (R x)) {k K : Nat}
    (hk : k ≤ K) : Tri (ruleGrow r0 k) (ruleGrow r k) (ruleGrow R K) := by
  unfold ruleGrow
  refine Tri.bind (h _) fun x => ?_
  match x with
  | none => exact Tri.refl _
  | some (v', e') => exact growSeed_tri (fun x => h _) k K hk v' e'

theorem gpeg_tri (pv : Nat → Bool) (E : PegEnv V) : ∀ k K d D (c0 c : Ctx V), k ≤ K → d ≤ D → Ctx.le c0 c → ∀ n q p,
    Tri (gpeg pv E k d c0 n q p) (gpeg pv E k d c n q p) (gpeg pv E K D c0 n q p)
  | 0, _, _, _, _, _, _, _, _, _, _, _ => Tri.oof
  | k + 1, 0, _, _, _, _, hk, _, _, _, _, _ => absurd hk (by omega)
  | k + 1, K + 1, d, D, c0, c, hk, hd, hc, n, q, p => by
    by_cases hr : ∃ id, n = .rule id
    · obtain ⟨id, rfl⟩ := hr
      cases hb : E.g.rules[id]? with
      | none =>
        rw [gpeg_rule_none pv E k d c0 q p hb, gpeg_rule_none pv E k d c q p hb, gpeg_rule_none pv E K D c0 q p hb]
        exact Tri.refl _
      | some body =>
        cases d with
        | zero => rw [gpeg_rule_zero pv E k c0 q p hb, gpeg_rule_zero pv E k c q p hb]; exact Tri.oof
        | succ d =>
          cases D with
          | zero => omega
          | succ D =>
            rw [gpeg_rule_succ pv E k d c0 q p hb, gpeg_rule_succ pv E k d c q p hb, gpeg_rule_succ pv E K D c0 q p hb]
            refine Tri.ite (Tri.ite ?_ (Tri.refl _)) ?_
            · exact ruleBody_tri (fun n p' => gpeg_tri pv E k K d D c0 c (by omega) (by omega) hc n p p') E
                (by omega) body p
            rcases lrSeed_mono hc q id p with ⟨h1, h2⟩ | ⟨x, y, h1, h2, h3⟩
            · rw [h1, h2]
              dsimp only
              refine Tri.ite ?_ ?_
              · exact ruleBody_tri (fun n p' => gpeg_tri pv E k K d D none none (by omega) (by omega) trivial n p p') E
                  (by omega) body p
              · refine ruleGrow_tri (fun x => ?_) (by omega)
                exact ruleBody_tri (fun n p' => gpeg_tri pv E k K d D (some (id, x)) (some (id, x)) (by omega)
                  (by omega) ⟨rfl, x.le_refl⟩ n p p') E (by omega) body p
            · rw [h1, h2]
              rcases h3 with rfl | rfl
              · exact Or.inr ⟨rfl, Or.inr rfl⟩
              · cases x <;> exact Tri.refl _
    · have hn : ∀ id, n ≠ .rule id := fun id h => hr ⟨id, h⟩
      rw [gpeg_node pv E k d c0 q p hn, gpeg_node pv E k d c q p hn, gpeg_node pv E K D c0 q p hn]
      refine Tri.ite (Tri.bind ?_ fun x => Tri.refl _) ?_ <;>
        exact pegKind_tri (fun n p' => gpeg_tri pv E k K d D c0 c (by omega) hd hc n q p') E (by omega) _ p

/-- If an answer exists without the seed, then it is the one found with the seed, within the same bounds. -/
theorem gpeg_stable {pv : Nat → Bool} {E : PegEnv V} {k K d D : Nat} {c0 c : Ctx V} (hc : Ctx.le c0 c) {n : Node} {q p : Nat}
    (h : gpeg pv E K D c0 n q p ≠ .oof) (h' : gpeg pv E k d c n q p ≠ .oof) : gpeg pv E k d c0 n q p ≠ .oof := by
  have h1 := Out.le_eq (gpeg_mono pv E K (max k K) D (max d D) c0 c0 (by omega) (by omega) (Ctx.le_refl _) n q p) h
  rcases gpeg_tri pv E k (max k K) d (max d D) c0 c (by omega) (by omega) hc n q p with ⟨h2, -⟩ | ⟨-, h2 | h2⟩
  · rw [h2]; exact h'
  · exact absurd h2 h'
  · rw [h1] at h2; exact absurd h2 h

end Joeson
