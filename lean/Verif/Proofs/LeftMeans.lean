import Verif.Proofs.Means
import Verif.Proofs.LeftRank
/-!
# The meaning with left recursion as an inductive relation

As `Means` (Spec/Means.lean); a step between rule texts and `gpeg` (Spec/LeftRank.lean).
-/

namespace Joeson

section
variable {V : Type}

/-- The second ends further than the first. -/
def Ahead : Option (V × Nat) → Option (V × Nat) → Prop
  | _, none => False
  | none, some _ => True
  | some (_, e), some (_, e') => e < e'

/-- The meaning, inside the rule and with the seed of `c`; `pv` are the private rules. -/
inductive MeansL (pv : Nat → Bool) (E : PegEnv V) : Nat → Ctx V → Nat → Task V → Nat → Res V → Prop
  -- rules: a left recursive call gets the seed, another is grown; a private rule is part of the rule around it
  | priv {d c p id body r} : E.g.rules[id]? = some body → pv id = true → MeansL pv E d c p (.inner body) p r →
      MeansL pv E (d + 1) c p (.node (.rule id)) p (r.finish E body.info p)
  | seed {d c q id p body x} : E.g.rules[id]? = some body → pv id = false → lrSeed c q id p = some (.known x) →
      MeansL pv E (d + 1) c q (.node (.rule id)) p (.ok x)
  | grown {d c q id p body n} (x : Nat → Option (V × Nat)) (r : Nat → Res V) : E.g.rules[id]? = some body →
      pv id = false → body.info.skipCache = false → lrSeed c q id p = none → x 0 = none → (∀ i < n, Ahead (x i) (x (i + 1))) →
      ¬ Ahead (x n) (x (n + 1)) → (∀ i ≤ n, (r i).finish E body.info p = .ok (x (i + 1))) →
      (∀ i ≤ n, MeansL pv E d (some (id, .known (x i))) p (.inner body) p (r i)) →
      MeansL pv E (d + 1) c q (.node (.rule id)) p (.ok (x n))
  | grownPanic {d c q id p body n e} (x : Nat → Option (V × Nat)) (r : Nat → Res V) : E.g.rules[id]? = some body →
      pv id = false → body.info.skipCache = false → lrSeed c q id p = none → x 0 = none → (∀ i < n, Ahead (x i) (x (i + 1))) →
      (∀ i < n, (r i).finish E body.info p = .ok (x (i + 1))) → (r n).finish E body.info p = .error e →
      (∀ i ≤ n, MeansL pv E d (some (id, .known (x i))) p (.inner body) p (r i)) →
      MeansL pv E (d + 1) c q (.node (.rule id)) p (.error e)
  | noRule {d a q id p} : E.g.rules[id]? = none →
      MeansL pv E d a q (.node (.rule id)) p (.error .indexOutOfRange)
  -- other nodes
  | plain {d a q n p r} : n.isRule = false → n.wraps = false → MeansL pv E d a q (.inner n) p r →
      MeansL pv E d a q (.node n) p r
  | wrapped {d a q n p r} : n.isRule = false → n.wraps = true → MeansL pv E d a q (.inner n) p r →
      MeansL pv E d a q (.node n) p (r.finish E n.info q)
  | link {d a q id p r} : MeansL pv E d a q (.node (.rule id)) p r → MeansL pv E d a q (.inner (.rule id)) p r
  -- terminals
  | str {d a q i b p m e} : E.st.matchString p b = .ok (m, e) →
      MeansL pv E d a q (.inner (.str i b)) p (.ok (m.map fun t => (E.P.str t, e)))
  | strPanic {d a q i b p x} : E.st.matchString p b = .error x →
      MeansL pv E d a q (.inner (.str i b)) p (.error x)
  | regex {d a q i re p m e} : E.st.matchRegexp p re = .ok (m, e) →
      MeansL pv E d a q (.inner (.regex i re)) p (.ok (m.map fun t => (E.P.str t, e)))
  | regexPanic {d a q i re p x} : E.st.matchRegexp p re = .error x →
      MeansL pv E d a q (.inner (.regex i re)) p (.error x)
  -- references
  | ref {d a q i nm id p r} : E.g.lookup nm = some id → MeansL pv E d a q (.node (.rule id)) p r →
      MeansL pv E d a q (.inner (.ref i nm)) p r
  | undefinedRef {d a q i nm p} : E.g.lookup nm = none →
      MeansL pv E d a q (.inner (.ref i nm)) p (.error (.undefinedRef nm))
  -- ordered choice
  | choice {d a q i l p r} : MeansL pv E d a q (.alts l) p r → MeansL pv E d a q (.inner (.choice i l)) p r
  | altsEnd {d a q p} : MeansL pv E d a q (.alts []) p (.ok none)
  | altsHit {d a q c cs p x} : MeansL pv E d a q (.node c) p (.ok (some x)) →
      MeansL pv E d a q (.alts (c :: cs)) p (.ok (some x))
  | altsPanic {d a q c cs p e} : MeansL pv E d a q (.node c) p (.error e) → MeansL pv E d a q (.alts (c :: cs)) p (.error e)
  | altsMiss {d a q c cs p r} : MeansL pv E d a q (.node c) p (.ok none) → MeansL pv E d a q (.alts cs) p r →
      MeansL pv E d a q (.alts (c :: cs)) p r
  -- sequence
  | seq {d a q i repr l p r} : MeansL pv E d a q (.items repr l .nothing) p r → MeansL pv E d a q (.inner (.seq i repr l)) p r
  | itemsEnd {d a q repr acc p} : MeansL pv E d a q (.items repr [] acc) p (.ok (some (seqValue E.P repr acc, p)))
  | itemsMiss {d a q repr c cs acc p} : MeansL pv E d a q (.node c) p (.ok none) →
      MeansL pv E d a q (.items repr (c :: cs) acc) p (.ok none)
  | itemsPanic {d a q repr c cs acc p e} : MeansL pv E d a q (.node c) p (.error e) →
      MeansL pv E d a q (.items repr (c :: cs) acc) p (.error e)
  | itemsPut {d a q repr c cs acc p v p' acc' r} : MeansL pv E d a q (.node c) p (.ok (some (v, p'))) →
      seqPut E.P repr (E.g.info c) acc v = .ok acc' → MeansL pv E d a q (.items repr cs acc') p' r →
      MeansL pv E d a q (.items repr (c :: cs) acc) p r
  | itemsPutPanic {d a q repr c cs acc p v p' e} : MeansL pv E d a q (.node c) p (.ok (some (v, p'))) →
      seqPut E.P repr (E.g.info c) acc v = .error e → MeansL pv E d a q (.items repr (c :: cs) acc) p (.error e)
  -- optional
  | existHit {d a q i it p x} : MeansL pv E d a q (.node it) p (.ok (some x)) →
      MeansL pv E d a q (.inner (.exist i it)) p (.ok (some x))
  | existMiss {d a q i it p} : MeansL pv E d a q (.node it) p (.ok none) →
      MeansL pv E d a q (.inner (.exist i it)) p (.ok (some (E.P.undef, p)))
  | existPanic {d a q i it p e} : MeansL pv E d a q (.node it) p (.error e) →
      MeansL pv E d a q (.inner (.exist i it)) p (.error e)
  -- positive and negative lookahead
  | lookHit {d a q i it p v p'} : MeansL pv E d a q (.node it) p (.ok (some (v, p'))) →
      MeansL pv E d a q (.inner (.look i it)) p (.ok (some (v, p)))
  | lookMiss {d a q i it p} : MeansL pv E d a q (.node it) p (.ok none) →
      MeansL pv E d a q (.inner (.look i it)) p (.ok none)
  | lookPanic {d a q i it p e} : MeansL pv E d a q (.node it) p (.error e) →
      MeansL pv E d a q (.inner (.look i it)) p (.error e)
  | notHit {d a q i it p x} : MeansL pv E d a q (.node it) p (.ok (some x)) →
      MeansL pv E d a q (.inner (.not i it)) p (.ok none)
  | notMiss {d a q i it p} : MeansL pv E d a q (.node it) p (.ok none) →
      MeansL pv E d a q (.inner (.not i it)) p (.ok (some (E.P.undef, p)))
  | notPanic {d a q i it p e} : MeansL pv E d a q (.node it) p (.error e) →
      MeansL pv E d a q (.inner (.not i it)) p (.error e)
  -- repetition
  | patMiss {d a q i value join mn mx p} : MeansL pv E d a q (.node value) p (.ok none) →
      MeansL pv E d a q (.inner (.pattern i value join mn mx)) p (Res.stop E mn [] p)
  | patPanic {d a q i value join mn mx p e} : MeansL pv E d a q (.node value) p (.error e) →
      MeansL pv E d a q (.inner (.pattern i value join mn mx)) p (.error e)
  | patMore {d a q i value join mn mx p v p' r} : MeansL pv E d a q (.node value) p (.ok (some (v, p'))) →
      MeansL pv E d a q (.more value join mn mx [v]) p' r → MeansL pv E d a q (.inner (.pattern i value join mn mx)) p r
  | sepNone {d a q p} : MeansL pv E d a q (.sep none) p (.ok (some (E.P.undef, p)))
  | sepSome {d a q j p r} : MeansL pv E d a q (.node j) p r → MeansL pv E d a q (.sep (some j)) p r
  | sepMiss {d a q value join mn mx vs p} : MeansL pv E d a q (.sep join) p (.ok none) →
      MeansL pv E d a q (.more value join mn mx vs) p (Res.stop E mn vs p)
  | sepPanic {d a q value join mn mx vs p e} : MeansL pv E d a q (.sep join) p (.error e) →
      MeansL pv E d a q (.more value join mn mx vs) p (.error e)
  | moreMiss {d a q value join mn mx vs p w p'} : MeansL pv E d a q (.sep join) p (.ok (some (w, p'))) →
      MeansL pv E d a q (.node value) p' (.ok none) →
      MeansL pv E d a q (.more value join mn mx vs) p (Res.stop E mn vs p)
  | morePanic {d a q value join mn mx vs p w p' e} : MeansL pv E d a q (.sep join) p (.ok (some (w, p'))) →
      MeansL pv E d a q (.node value) p' (.error e) → MeansL pv E d a q (.more value join mn mx vs) p (.error e)
  | moreFull {d a q value join mn mx vs p w p' v e} : MeansL pv E d a q (.sep join) p (.ok (some (w, p'))) →
      MeansL pv E d a q (.node value) p' (.ok (some (v, e))) → 0 ≤ mx ∧ mx ≤ (vs.length : Int) + 1 →
      MeansL pv E d a q (.more value join mn mx vs) p (Res.stop E mn (vs ++ [v]) e)
  | moreNext {d a q value join mn mx vs p w p' v e r} : MeansL pv E d a q (.sep join) p (.ok (some (w, p'))) →
      MeansL pv E d a q (.node value) p' (.ok (some (v, e))) → ¬ (0 ≤ mx ∧ mx ≤ (vs.length : Int) + 1) →
      MeansL pv E d a q (.more value join mn mx (vs ++ [v])) e r → MeansL pv E d a q (.more value join mn mx vs) p r


/-- The interpreter on tasks. -/
def evalTaskL (pv : Nat → Bool) (E : PegEnv V) (k d : Nat) (c : Ctx V) (q : Nat) : Task V → Nat → Out (Option (V × Nat))
  | .node n, p => gpeg pv E k d c n q p
  | .inner n, p => pegKind E (fun n p => gpeg pv E k d c n q p) k n p
  | .alts l, p => pegChoice (fun n p => gpeg pv E k d c n q p) l p
  | .items repr l acc, p => pegSeq E (fun n p => gpeg pv E k d c n q p) repr l acc p
  | .sep none, p => .ok (some (E.P.undef, p))
  | .sep (some j), p => gpeg pv E k d c j q p
  | .more value join mn mx vs, p => pegMore (fun n p => gpeg pv E k d c n q p) value join mx k vs p >>= fun y =>
      if mn > y.1.length then .ok none else .ok (some (E.P.arr y.1, y.2))

theorem evalTaskL_mono (pv : Nat → Bool) (E : PegEnv V) {k k' d d' : Nat} (hk : k ≤ k') (hd : d ≤ d') (c : Ctx V) (q : Nat) (t : Task V) (p : Nat) :
    Out.le (evalTaskL pv E k d c q t p) (evalTaskL pv E k' d' c q t p) := by
  have hr : ∀ n p, Out.le (gpeg pv E k d c n q p) (gpeg pv E k' d' c n q p) := fun n p => gpeg_mono pv E k k' d d' c c hk hd (Ctx.le_refl c) n q p
  cases t with
  | node n => exact hr n p
  | inner n => exact pegKind_mono E hr hk n p
  | alts l => exact pegChoice_mono hr l p
  | items repr l acc => exact pegSeq_mono E hr repr l acc p
  | sep j => cases j with
    | none => exact Out.le_refl _
    | some j => exact hr j p
  | more value join mn mx vs =>
    exact Out.le_bind (pegMore_mono hr value join mx _ _ hk vs p) fun _ => Out.le_refl _

theorem evalTaskL_up (pv : Nat → Bool) (E : PegEnv V) {k k' d : Nat} (hk : k ≤ k') {c : Ctx V} {q : Nat} {t : Task V} {p : Nat} {r : Res V}
    (h : evalTaskL pv E k d c q t p = r.out) : evalTaskL pv E k' d c q t p = r.out := by
  rw [← h]
  exact (Out.le_eq (evalTaskL_mono pv E hk (Nat.le_refl d) c q t p) (by rw [h]; exact r.out_ne_oof))


theorem evalTaskL_node (pv : Nat → Bool) (E : PegEnv V) {n : Node} (hn : n.isRule = false) (k d : Nat) (c : Ctx V) (q p : Nat) :
    evalTaskL pv E (k + 1) d c q (.node n) p = if n.wraps then evalTaskL pv E k d c q (.inner n) p >>= pegFinish E n.info q
      else evalTaskL pv E k d c q (.inner n) p := by
  cases n <;> first | rfl | cases hn

/-- Fuel for several. -/
theorem bounded_fuel {pv : Nat → Bool} {E : PegEnv V} {d : Nat} {c : Nat → Ctx V} {q : Nat} {t : Task V} {p : Nat} {r : Nat → Res V} {n : Nat}
    (h : ∀ i ≤ n, ∃ k, evalTaskL pv E k d (c i) q t p = (r i).out) : ∃ k, ∀ i ≤ n, evalTaskL pv E k d (c i) q t p = (r i).out := by
  induction n with
  | zero =>
    obtain ⟨k, hk⟩ := h 0 (Nat.le_refl _)
    exact ⟨k, fun i hi => by rw [Nat.le_zero.mp hi]; exact hk⟩
  | succ n ih =>
    obtain ⟨k, hk⟩ := ih fun i hi => h i (by omega)
    obtain ⟨k', hk'⟩ := h (n + 1) (Nat.le_refl _)
    refine ⟨max k k', fun i hi => ?_⟩
    by_cases hn : i = n + 1
    · subst hn; exact evalTaskL_up pv E (Nat.le_max_right k k') hk'
    · exact evalTaskL_up pv E (Nat.le_max_left k k') (hk i (by omega))

theorem growSeed_stops {run : Option (V × Nat) → Out (Option (V × Nat))} {x : Nat → Option (V × Nat)} {n : Nat}
    (hrun : ∀ i ≤ n, run (x i) = .ok (x (i + 1))) (hgrow : ∀ i < n, Ahead (x i) (x (i + 1))) (hstop : ¬ Ahead (x n) (x (n + 1))) :
    ∀ m i k v e, n = i + m → n < i + k → x i = some (v, e) → growSeed run k v e = .ok (x n)
  | m, i, 0, v, e, hn, hk, _ => by omega
  | 0, i, k + 1, v, e, hn, hk, hx => by
    have hi : i = n := by omega
    subst hi
    rw [growSeed, ← hx, hrun i (Nat.le_refl _)]
    cases hy : x (i + 1) with
    | none => rw [hx]; rfl
    | some y =>
      obtain ⟨v', e'⟩ := y
      rw [hx, hy] at hstop
      rw [hx]
      show (if e' ≤ e then _ else _) = _
      rw [if_pos (by simpa [Ahead] using hstop)]
  | m + 1, i, k + 1, v, e, hn, hk, hx => by
    rw [growSeed, ← hx, hrun i (by omega)]
    have ha := hgrow i (by omega)
    cases hy : x (i + 1) with
    | none => rw [hy] at ha; exact ha.elim
    | some y =>
      obtain ⟨v', e'⟩ := y
      rw [hx, hy] at ha
      have ha' : ¬ e' ≤ e := by simpa [Ahead] using ha
      show (if e' ≤ e then _ else _) = _
      rw [if_neg ha']
      exact growSeed_stops hrun hgrow hstop m (i + 1) k v' e' (by omega) (by omega) hy

theorem ruleGrow_stops {run : Seed V → Out (Option (V × Nat))} {x : Nat → Option (V × Nat)} {n k : Nat}
    (hrun : ∀ i ≤ n, run (.known (x i)) = .ok (x (i + 1))) (h0 : x 0 = none) (hgrow : ∀ i < n, Ahead (x i) (x (i + 1)))
    (hstop : ¬ Ahead (x n) (x (n + 1))) (hk : n < k) : ruleGrow run k = .ok (x n) := by
  unfold ruleGrow
  rw [← h0, hrun 0 (Nat.zero_le _)]
  cases hy : x (0 + 1) with
  | none =>
    cases n with
    | zero => rw [h0]; rfl
    | succ n =>
      have := hgrow 0 (Nat.succ_pos _)
      rw [hy] at this
      exact this.elim
  | some y =>
    obtain ⟨v, e⟩ := y
    cases n with
    | zero =>
      rw [h0, hy] at hstop
      exact absurd trivial hstop
    | succ n => exact growSeed_stops (run := fun x => run (.known x)) hrun hgrow hstop n 1 k v e (by omega) (by omega) hy

theorem growSeed_panics {run : Option (V × Nat) → Out (Option (V × Nat))} {x : Nat → Option (V × Nat)} {n : Nat} {er : Panic}
    (hrun : ∀ i < n, run (x i) = .ok (x (i + 1))) (hpanic : run (x n) = .panic er) (hgrow : ∀ i < n, Ahead (x i) (x (i + 1))) :
    ∀ m i k v e, n = i + m → n < i + k → x i = some (v, e) → growSeed run k v e = .panic er
  | m, i, 0, v, e, hn, hk, _ => by omega
  | 0, i, k + 1, v, e, hn, hk, hx => by
    have hi : i = n := by omega
    subst hi
    rw [growSeed, ← hx, hpanic]
    rfl
  | m + 1, i, k + 1, v, e, hn, hk, hx => by
    rw [growSeed, ← hx, hrun i (by omega)]
    have ha := hgrow i (by omega)
    cases hy : x (i + 1) with
    | none => rw [hy] at ha; exact ha.elim
    | some y =>
      obtain ⟨v', e'⟩ := y
      rw [hx, hy] at ha
      have ha' : ¬ e' ≤ e := by simpa [Ahead] using ha
      show (if e' ≤ e then _ else _) = _
      rw [if_neg ha']
      exact growSeed_panics hrun hpanic hgrow m (i + 1) k v' e' (by omega) (by omega) hy

theorem ruleGrow_panics {run : Seed V → Out (Option (V × Nat))} {x : Nat → Option (V × Nat)} {n k : Nat} {er : Panic}
    (hrun : ∀ i < n, run (.known (x i)) = .ok (x (i + 1))) (hpanic : run (.known (x n)) = .panic er) (h0 : x 0 = none)
    (hgrow : ∀ i < n, Ahead (x i) (x (i + 1))) (hk : n < k) : ruleGrow run k = .panic er := by
  unfold ruleGrow
  cases n with
  | zero => rw [← h0, hpanic]; rfl
  | succ n =>
    rw [← h0, hrun 0 (Nat.succ_pos _)]
    have ha := hgrow 0 (Nat.succ_pos _)
    cases hy : x (0 + 1) with
    | none => rw [hy] at ha; exact ha.elim
    | some y =>
      obtain ⟨v, e⟩ := y
      exact growSeed_panics (run := fun x => run (.known x)) hrun hpanic hgrow n 1 k v e (by omega) (by omega) hy

/-- Every outcome of the relation is found by the interpreter. -/
theorem MeansL.eval {pv : Nat → Bool} {E : PegEnv V} {d : Nat} {c : Ctx V} {q : Nat} {t : Task V} {p : Nat} {r : Res V} (h : MeansL pv E d c q t p r) :
    ∃ k, evalTaskL pv E k d c q t p = r.out := by
  induction h with
  | @priv d c p id body r hb hpv _ ih =>
    obtain ⟨k, hk⟩ := ih
    refine ⟨k + 1, ?_⟩
    show gpeg pv E (k + 1) (d + 1) c (.rule id) p p = _
    rw [gpeg_priv pv E k d c p hb hpv]
    unfold ruleBody
    simp only [evalTaskL] at hk
    rw [hk]
    exact Res.finish_out E body.info p r
  | @seed d c q id p body x hb hpv hs =>
    refine ⟨1, ?_⟩
    show gpeg pv E 1 (d + 1) c (.rule id) q p = _
    rw [gpeg_pub pv E 0 d c q p hb hpv, hs]
    rfl
  | @grown d c q id p body n x r hb hpv hsk hs h0 hgrow hstop hfin _ ih =>
    obtain ⟨k, hk⟩ := bounded_fuel ih
    refine ⟨max k (n + 1) + 1, ?_⟩
    show gpeg pv E (max k (n + 1) + 1) (d + 1) c (.rule id) q p = _
    rw [gpeg_pub pv E _ d c q p hb hpv, hs, hsk]
    simp only [Bool.false_eq_true, if_false]
    refine ruleGrow_stops (n := n) ?_ h0 hgrow hstop (by omega)
    intro i hi
    have := evalTaskL_up pv E (Nat.le_max_left k (n + 1)) (hk i hi)
    unfold ruleBody
    simp only [evalTaskL] at this
    rw [this]
    have hf := hfin i hi
    have := Res.finish_out E body.info p (r i)
    rw [hf] at this
    exact this
  | @grownPanic d c q id p body n e x r hb hpv hsk hs h0 hgrow hfin he _ ih =>
    obtain ⟨k, hk⟩ := bounded_fuel ih
    refine ⟨max k (n + 1) + 1, ?_⟩
    show gpeg pv E (max k (n + 1) + 1) (d + 1) c (.rule id) q p = _
    rw [gpeg_pub pv E _ d c q p hb hpv, hs, hsk]
    simp only [Bool.false_eq_true, if_false]
    refine ruleGrow_panics (n := n) (x := x) ?_ ?_ h0 hgrow (by omega)
    · intro i hi
      have := evalTaskL_up pv E (Nat.le_max_left k (n + 1)) (hk i (Nat.le_of_lt hi))
      unfold ruleBody
      simp only [evalTaskL] at this
      rw [this]
      have hf := hfin i hi
      have := Res.finish_out E body.info p (r i)
      rw [hf] at this
      exact this
    · have := evalTaskL_up pv E (Nat.le_max_left k (n + 1)) (hk n (Nat.le_refl _))
      unfold ruleBody
      simp only [evalTaskL] at this
      rw [this]
      have := Res.finish_out E body.info p (r n)
      rw [he] at this
      exact this
  | @noRule d c q id p hb =>
    refine ⟨1, ?_⟩
    show gpeg pv E 1 d c (.rule id) q p = _
    rw [gpeg_rule_none pv E 0 d c q p hb]
    rfl
  | plain hr hw _ ih =>
    obtain ⟨k, ih⟩ := ih
    exact ⟨k + 1, by rw [evalTaskL_node pv E hr, hw]; exact ih⟩
  | wrapped hr hw _ ih =>
    obtain ⟨k, ih⟩ := ih
    refine ⟨k + 1, ?_⟩
    rw [evalTaskL_node pv E hr, hw, if_pos rfl, ih]
    exact Res.finish_out _ _ _ _
  | link _ ih => exact ih
  | @str d c q i b p m e h => exact ⟨0, by simp only [evalTaskL, pegKind, h, Out.ofExcept_ok, Out.bind_ok]; rfl⟩
  | @strPanic d c q i b p x h => exact ⟨0, by simp only [evalTaskL, pegKind, h]; rfl⟩
  | @regex d c q i re p m e h => exact ⟨0, by simp only [evalTaskL, pegKind, h, Out.ofExcept_ok, Out.bind_ok]; rfl⟩
  | @regexPanic d c q i re p x h => exact ⟨0, by simp only [evalTaskL, pegKind, h]; rfl⟩
  | ref hl _ ih =>
    obtain ⟨k, ih⟩ := ih
    exact ⟨k, by simp only [evalTaskL, pegKind, hl]; exact ih⟩
  | undefinedRef hl => exact ⟨0, by simp only [evalTaskL, pegKind, hl]; rfl⟩
  | choice _ ih => exact ih
  | altsEnd => exact ⟨0, rfl⟩
  | altsHit _ ih =>
    obtain ⟨k, ih⟩ := ih
    exact ⟨k, by simp only [evalTaskL, pegChoice] at ih ⊢; rw [ih]; rfl⟩
  | altsPanic _ ih =>
    obtain ⟨k, ih⟩ := ih
    exact ⟨k, by simp only [evalTaskL, pegChoice] at ih ⊢; rw [ih]; rfl⟩
  | altsMiss _ _ ih ih' =>
    obtain ⟨k, ih⟩ := ih
    obtain ⟨k', ih'⟩ := ih'
    have ih := evalTaskL_up pv E (Nat.le_max_left k k') ih
    have ih' := evalTaskL_up pv E (Nat.le_max_right k k') ih'
    exact ⟨max k k', by simp only [evalTaskL, pegChoice] at ih ih' ⊢; rw [ih]; exact ih'⟩
  | seq _ ih => exact ih
  | itemsEnd => exact ⟨0, rfl⟩
  | itemsMiss _ ih =>
    obtain ⟨k, ih⟩ := ih
    exact ⟨k, by simp only [evalTaskL, pegSeq] at ih ⊢; rw [ih]; rfl⟩
  | itemsPanic _ ih =>
    obtain ⟨k, ih⟩ := ih
    exact ⟨k, by simp only [evalTaskL, pegSeq] at ih ⊢; rw [ih]; rfl⟩
  | itemsPut _ hp _ ih ih' =>
    obtain ⟨k, ih⟩ := ih
    obtain ⟨k', ih'⟩ := ih'
    have ih := evalTaskL_up pv E (Nat.le_max_left k k') ih
    have ih' := evalTaskL_up pv E (Nat.le_max_right k k') ih'
    refine ⟨max k k', ?_⟩
    simp only [evalTaskL, pegSeq] at ih ih' ⊢
    rw [ih]
    show (Out.ofExcept (seqPut _ _ _ _ _) >>= _) = _
    rw [hp]
    exact ih'
  | itemsPutPanic _ hp ih =>
    obtain ⟨k, ih⟩ := ih
    refine ⟨k, ?_⟩
    simp only [evalTaskL, pegSeq] at ih ⊢
    rw [ih]
    show (Out.ofExcept (seqPut _ _ _ _ _) >>= _) = _
    rw [hp]
    rfl
  | existHit _ ih | existMiss _ ih | existPanic _ ih | lookHit _ ih | lookMiss _ ih | lookPanic _ ih
  | notHit _ ih | notMiss _ ih | notPanic _ ih =>
    obtain ⟨k, ih⟩ := ih
    exact ⟨k, by simp only [evalTaskL, pegKind] at ih ⊢; rw [ih]; rfl⟩
  | @patMiss d c q i value join mn mx p _ ih =>
    obtain ⟨k, ih⟩ := ih
    refine ⟨k, ?_⟩
    simp only [evalTaskL, pegKind] at ih ⊢
    rw [ih, ← Res.stop_out]
    rfl
  | patPanic _ ih =>
    obtain ⟨k, ih⟩ := ih
    exact ⟨k, by simp only [evalTaskL, pegKind] at ih ⊢; rw [ih]; rfl⟩
  | patMore _ _ ih ih' =>
    obtain ⟨k, ih⟩ := ih
    obtain ⟨k', ih'⟩ := ih'
    have ih := evalTaskL_up pv E (Nat.le_max_left k k') ih
    have ih' := evalTaskL_up pv E (Nat.le_max_right k k') ih'
    exact ⟨max k k', by simp only [evalTaskL, pegKind] at ih ih' ⊢; rw [ih]; exact ih'⟩
  | sepNone => exact ⟨0, rfl⟩
  | sepSome _ ih => exact ih
  | @sepMiss d c q value join mn mx vs p _ ih =>
    obtain ⟨k, ih⟩ := ih
    have ih := evalTaskL_up pv E (Nat.le_succ k) ih
    refine ⟨k + 1, ?_⟩
    cases join with
    | none => cases ih
    | some j =>
      simp only [evalTaskL] at ih ⊢
      unfold pegMore
      dsimp only
      rw [ih, ← Res.stop_out]
      rfl
  | @sepPanic d c q value join mn mx vs p e _ ih =>
    obtain ⟨k, ih⟩ := ih
    have ih := evalTaskL_up pv E (Nat.le_succ k) ih
    refine ⟨k + 1, ?_⟩
    cases join with
    | none => cases ih
    | some j =>
      simp only [evalTaskL] at ih ⊢
      unfold pegMore
      dsimp only
      rw [ih]
      rfl
  | @moreMiss d c q value join mn mx vs p w p' _ _ ih ih' =>
    obtain ⟨k, ih⟩ := ih
    obtain ⟨k', ih'⟩ := ih'
    have ih := evalTaskL_up pv E (show k ≤ max k k' + 1 by omega) ih
    have ih' := evalTaskL_up pv E (show k' ≤ max k k' + 1 by omega) ih'
    refine ⟨max k k' + 1, ?_⟩
    rw [← Res.stop_out]
    cases join with
    | none =>
      cases ih
      simp only [evalTaskL] at ih' ⊢
      unfold pegMore
      dsimp only
      rw [Out.bind_ok]
      dsimp only
      rw [ih']
      rfl
    | some j =>
      simp only [evalTaskL] at ih ih' ⊢
      unfold pegMore
      dsimp only
      rw [ih]
      dsimp only [Res.out, Out.bind_ok, Option.map_some]
      simp only [Out.bind_ok, pure, Option.map_some]
      rw [ih']
      rfl
  | @morePanic d c q value join mn mx vs p w p' e _ _ ih ih' =>
    obtain ⟨k, ih⟩ := ih
    obtain ⟨k', ih'⟩ := ih'
    have ih := evalTaskL_up pv E (show k ≤ max k k' + 1 by omega) ih
    have ih' := evalTaskL_up pv E (show k' ≤ max k k' + 1 by omega) ih'
    refine ⟨max k k' + 1, ?_⟩
    cases join with
    | none =>
      cases ih
      simp only [evalTaskL] at ih' ⊢
      unfold pegMore
      dsimp only
      rw [Out.bind_ok]
      dsimp only
      rw [ih']
      rfl
    | some j =>
      simp only [evalTaskL] at ih ih' ⊢
      unfold pegMore
      dsimp only
      rw [ih]
      simp only [Res.out, Out.bind_ok, pure, Option.map_some]
      rw [ih']
      rfl
  | @moreFull d c q value join mn mx vs p w p' v e _ _ hmx ih ih' =>
    obtain ⟨k, ih⟩ := ih
    obtain ⟨k', ih'⟩ := ih'
    have ih := evalTaskL_up pv E (show k ≤ max k k' + 1 by omega) ih
    have ih' := evalTaskL_up pv E (show k' ≤ max k k' + 1 by omega) ih'
    refine ⟨max k k' + 1, ?_⟩
    have hmx' : 0 ≤ mx ∧ mx ≤ ((vs ++ [v]).length : Int) := by simpa using hmx
    rw [← Res.stop_out]
    cases join with
    | none =>
      cases ih
      simp only [evalTaskL] at ih' ⊢
      unfold pegMore
      dsimp only
      rw [Out.bind_ok]
      dsimp only
      rw [ih']
      simp only [Res.out, Out.bind_ok]
      rw [if_pos hmx']
      rfl
    | some j =>
      simp only [evalTaskL] at ih ih' ⊢
      unfold pegMore
      dsimp only
      rw [ih]
      simp only [Res.out, Out.bind_ok, pure, Option.map_some]
      rw [ih']
      simp only [Res.out, Out.bind_ok]
      rw [if_pos hmx']
      rfl
  | @moreNext d c q value join mn mx vs p w p' v e r _ _ hmx _ ih ih' ih'' =>
    obtain ⟨k, ih⟩ := ih
    obtain ⟨k', ih'⟩ := ih'
    obtain ⟨k'', ih''⟩ := ih''
    have ih := evalTaskL_up pv E (show k ≤ max k (max k' k'') + 1 by omega) ih
    have ih' := evalTaskL_up pv E (show k' ≤ max k (max k' k'') + 1 by omega) ih'
    have ih'' := evalTaskL_up pv E (show k'' ≤ max k (max k' k'') by omega) ih''
    generalize max k (max k' k'') = m at *
    refine ⟨m + 1, ?_⟩
    have hmx' : ¬ (0 ≤ mx ∧ mx ≤ ((vs ++ [v]).length : Int)) := by simpa using hmx
    have hle := Out.le_eq (Out.le_bind (pegMore_mono
        (ev := fun n p => gpeg pv E m d c n q p) (ev' := fun n p => gpeg pv E (m + 1) d c n q p)
        (fun n p => gpeg_mono pv E _ _ _ _ _ _ (Nat.le_succ m) (Nat.le_refl d) (Ctx.le_refl c) n q p)
        value join mx m m (Nat.le_refl _) (vs ++ [v]) e) fun y => Out.le_refl
          (if mn > y.1.length then Out.ok none else .ok (some (E.P.arr y.1, y.2))))
        (by simp only [evalTaskL] at ih''; rw [ih'']; exact r.out_ne_oof)
    simp only [evalTaskL] at ih''
    rw [ih''] at hle
    cases join with
    | none =>
      cases ih
      simp only [evalTaskL] at ih' ⊢
      unfold pegMore
      dsimp only
      rw [Out.bind_ok]
      dsimp only
      rw [ih']
      simp only [Res.out, Out.bind_ok]
      rw [if_neg hmx']
      exact hle
    | some j =>
      simp only [evalTaskL] at ih ih' ⊢
      unfold pegMore
      dsimp only
      rw [ih]
      simp only [Res.out, Out.bind_ok, pure, Option.map_some]
      rw [ih']
      simp only [Res.out, Out.bind_ok]
      rw [if_neg hmx']
      exact hle

end
end Joeson
