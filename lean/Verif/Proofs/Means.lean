import Verif.Proofs.Peg2
import Verif.Spec.Means
/-! # The inductive meaning and the interpreter agree -/

namespace Joeson
variable {V : Type}

/-- An outcome as a result of the interpreter. -/
def Res.out : Res V → Out (Option (V × Nat))
  | .ok x => .ok x
  | .error e => .panic e

theorem Res.out_inj {a b : Res V} (h : a.out = b.out) : a = b := by
  cases a <;> cases b <;> simp_all [Res.out]

theorem Res.out_ne_oof (r : Res V) : r.out ≠ .oof := by cases r <;> simp [Res.out]

theorem Res.of_out {o : Out (Option (V × Nat))} (h : o ≠ .oof) : ∃ r : Res V, o = r.out := by
  cases o with
  | oof => exact absurd rfl h
  | ok x => exact ⟨.ok x, rfl⟩
  | panic e => exact ⟨.error e, rfl⟩

theorem Res.finish_out (E : PegEnv V) (i : Info) (q : Nat) (r : Res V) :
    (r.out >>= pegFinish E i q) = (r.finish E i q).out := by
  match r with
  | .error e => rfl
  | .ok none => rfl
  | .ok (some (v, p)) =>
    show pegFinish E i q (some (v, p)) = _
    unfold pegFinish Res.finish
    dsimp only
    generalize (if i.ownLabel = true then E.P.newMap i.label v else v) = w
    cases i.cb with
    | none => rfl
    | some c =>
      dsimp only [PureOps.run]
      cases h : E.P.cb c w p with
      | error e => rfl
      | ok x => cases x <;> rfl

theorem Res.stop_out (E : PegEnv V) (mn : Int) (vs : List V) (p : Nat) :
    (if mn > vs.length then Out.ok none else .ok (some (E.P.arr vs, p))) = (Res.stop E mn vs p).out := by
  unfold Res.stop
  split <;> rfl

/-- The interpreter on tasks. -/
def evalTask (E : PegEnv V) (k d q : Nat) : Task V → Nat → Out (Option (V × Nat))
  | .node n, p => peg E k d n q p
  | .inner n, p => pegKind E (fun n p => peg E k d n q p) k n p
  | .alts l, p => pegChoice (fun n p => peg E k d n q p) l p
  | .items repr l acc, p => pegSeq E (fun n p => peg E k d n q p) repr l acc p
  | .sep none, p => .ok (some (E.P.undef, p))
  | .sep (some j), p => peg E k d j q p
  | .more value join mn mx vs, p => pegMore (fun n p => peg E k d n q p) value join mx k vs p >>= fun y =>
      if mn > y.1.length then .ok none else .ok (some (E.P.arr y.1, y.2))

theorem evalTask_mono (E : PegEnv V) {k k' d d' : Nat} (hk : k ≤ k') (hd : d ≤ d') (q : Nat) (t : Task V) (p : Nat) :
    Out.le (evalTask E k d q t p) (evalTask E k' d' q t p) := by
  have hr : ∀ n p, Out.le (peg E k d n q p) (peg E k' d' n q p) := fun n p => peg_mono E k k' d d' hk hd n q p
  cases t with
  | node n => exact hr n p
  | inner n => exact pegKind_mono E hr hk n p
  | alts l => exact pegChoice_mono hr l p
  | items repr l acc => exact pegSeq_mono E hr repr l acc p
  | sep j => cases j with
    | none => exact Out.le_refl _
    | some j => exact hr j p
  | more value join mn mx vs =>
    exact Out.le_bind (pegMore_mono hr value join mx _ _ hk vs p) fun _ => Out.le_refl _

theorem evalTask_up (E : PegEnv V) {k k' d : Nat} (hk : k ≤ k') {q : Nat} {t : Task V} {p : Nat} {r : Res V}
    (h : evalTask E k d q t p = r.out) : evalTask E k' d q t p = r.out := by
  rw [← h]
  exact (Out.le_eq (evalTask_mono E hk (Nat.le_refl d) q t p) (by rw [h]; exact r.out_ne_oof))


theorem evalTask_node (E : PegEnv V) {n : Node} (hn : n.isRule = false) (k d q p : Nat) :
    evalTask E (k + 1) d q (.node n) p = if n.wraps then evalTask E k d q (.inner n) p >>= pegFinish E n.info q
      else evalTask E k d q (.inner n) p := by
  cases n <;> first | rfl | cases hn

/-- Every outcome of the relation is found by the interpreter. -/
theorem Means.eval {E : PegEnv V} {d q : Nat} {t : Task V} {p : Nat} {r : Res V} (h : Means E d q t p r) :
    ∃ k, evalTask E k d q t p = r.out := by
  induction h with
  | @rule d q id p body r hb _ ih =>
    obtain ⟨k, ih⟩ := ih
    refine ⟨k + 1, ?_⟩
    show peg E (k + 1) (d + 1) (.rule id) q p = _
    rw [peg_rule_succ E k d q p hb, ← Res.finish_out, ← ih]
    rfl
  | @noRule d q id p hb =>
    refine ⟨1, ?_⟩
    show peg E 1 d (.rule id) q p = _
    unfold peg
    rw [hb]
    rfl
  | plain hr hw _ ih =>
    obtain ⟨k, ih⟩ := ih
    exact ⟨k + 1, by rw [evalTask_node E hr, hw]; exact ih⟩
  | wrapped hr hw _ ih =>
    obtain ⟨k, ih⟩ := ih
    refine ⟨k + 1, ?_⟩
    rw [evalTask_node E hr, hw, if_pos rfl, ih]
    exact Res.finish_out _ _ _ _
  | link _ ih => exact ih
  | @str d q i b p m e h => exact ⟨0, by simp only [evalTask, pegKind, h, Out.ofExcept_ok, Out.bind_ok]; rfl⟩
  | @strPanic d q i b p x h => exact ⟨0, by simp only [evalTask, pegKind, h]; rfl⟩
  | @regex d q i re p m e h => exact ⟨0, by simp only [evalTask, pegKind, h, Out.ofExcept_ok, Out.bind_ok]; rfl⟩
  | @regexPanic d q i re p x h => exact ⟨0, by simp only [evalTask, pegKind, h]; rfl⟩
  | ref hl _ ih =>
    obtain ⟨k, ih⟩ := ih
    exact ⟨k, by simp only [evalTask, pegKind, hl]; exact ih⟩
  | undefinedRef hl => exact ⟨0, by simp only [evalTask, pegKind, hl]; rfl⟩
  | choice _ ih => exact ih
  | altsEnd => exact ⟨0, rfl⟩
  | altsHit _ ih =>
    obtain ⟨k, ih⟩ := ih
    exact ⟨k, by simp only [evalTask, pegChoice] at ih ⊢; rw [ih]; rfl⟩
  | altsPanic _ ih =>
    obtain ⟨k, ih⟩ := ih
    exact ⟨k, by simp only [evalTask, pegChoice] at ih ⊢; rw [ih]; rfl⟩
  | altsMiss _ _ ih ih' =>
    obtain ⟨k, ih⟩ := ih
    obtain ⟨k', ih'⟩ := ih'
    have ih := evalTask_up E (Nat.le_max_left k k') ih
    have ih' := evalTask_up E (Nat.le_max_right k k') ih'
    exact ⟨max k k', by simp only [evalTask, pegChoice] at ih ih' ⊢; rw [ih]; exact ih'⟩
  | seq _ ih => exact ih
  | itemsEnd => exact ⟨0, rfl⟩
  | itemsMiss _ ih =>
    obtain ⟨k, ih⟩ := ih
    exact ⟨k, by simp only [evalTask, pegSeq] at ih ⊢; rw [ih]; rfl⟩
  | itemsPanic _ ih =>
    obtain ⟨k, ih⟩ := ih
    exact ⟨k, by simp only [evalTask, pegSeq] at ih ⊢; rw [ih]; rfl⟩
  | itemsPut _ hp _ ih ih' =>
    obtain ⟨k, ih⟩ := ih
    obtain ⟨k', ih'⟩ := ih'
    have ih := evalTask_up E (Nat.le_max_left k k') ih
    have ih' := evalTask_up E (Nat.le_max_right k k') ih'
    refine ⟨max k k', ?_⟩
    simp only [evalTask, pegSeq] at ih ih' ⊢
    rw [ih]
    show (Out.ofExcept (seqPut _ _ _ _ _) >>= _) = _
    rw [hp]
    exact ih'
  | itemsPutPanic _ hp ih =>
    obtain ⟨k, ih⟩ := ih
    refine ⟨k, ?_⟩
    simp only [evalTask, pegSeq] at ih ⊢
    rw [ih]
    show (Out.ofExcept (seqPut _ _ _ _ _) >>= _) = _
    rw [hp]
    rfl
  | existHit _ ih | existMiss _ ih | existPanic _ ih | lookHit _ ih | lookMiss _ ih | lookPanic _ ih
  | notHit _ ih | notMiss _ ih | notPanic _ ih =>
    obtain ⟨k, ih⟩ := ih
    exact ⟨k, by simp only [evalTask, pegKind] at ih ⊢; rw [ih]; rfl⟩
  | @patMiss d q i value join mn mx p _ ih =>
    obtain ⟨k, ih⟩ := ih
    refine ⟨k, ?_⟩
    simp only [evalTask, pegKind] at ih ⊢
    rw [ih, ← Res.stop_out]
    rfl
  | patPanic _ ih =>
    obtain ⟨k, ih⟩ := ih
    exact ⟨k, by simp only [evalTask, pegKind] at ih ⊢; rw [ih]; rfl⟩
  | patMore _ _ ih ih' =>
    obtain ⟨k, ih⟩ := ih
    obtain ⟨k', ih'⟩ := ih'
    have ih := evalTask_up E (Nat.le_max_left k k') ih
    have ih' := evalTask_up E (Nat.le_max_right k k') ih'
    exact ⟨max k k', by simp only [evalTask, pegKind] at ih ih' ⊢; rw [ih]; exact ih'⟩
  | sepNone => exact ⟨0, rfl⟩
  | sepSome _ ih => exact ih
  | @sepMiss d q value join mn mx vs p _ ih =>
    obtain ⟨k, ih⟩ := ih
    have ih := evalTask_up E (Nat.le_succ k) ih
    refine ⟨k + 1, ?_⟩
    cases join with
    | none => cases ih
    | some j =>
      simp only [evalTask] at ih ⊢
      unfold pegMore
      dsimp only
      rw [ih, ← Res.stop_out]
      rfl
  | @sepPanic d q value join mn mx vs p e _ ih =>
    obtain ⟨k, ih⟩ := ih
    have ih := evalTask_up E (Nat.le_succ k) ih
    refine ⟨k + 1, ?_⟩
    cases join with
    | none => cases ih
    | some j =>
      simp only [evalTask] at ih ⊢
      unfold pegMore
      dsimp only
      rw [ih]
      rfl
  | @moreMiss d q value join mn mx vs p w p' _ _ ih ih' =>
    obtain ⟨k, ih⟩ := ih
    obtain ⟨k', ih'⟩ := ih'
    have ih := evalTask_up E (show k ≤ max k k' + 1 by omega) ih
    have ih' := evalTask_up E (show k' ≤ max k k' + 1 by omega) ih'
    refine ⟨max k k' + 1, ?_⟩
    rw [← Res.stop_out]
    cases join with
    | none =>
      cases ih
      simp only [evalTask] at ih' ⊢
      unfold pegMore
      dsimp only
      rw [Out.bind_ok]
      dsimp only
      rw [ih']
      rfl
    | some j =>
      simp only [evalTask] at ih ih' ⊢
      unfold pegMore
      dsimp only
      rw [ih]
      dsimp only [Res.out, Out.bind_ok, Option.map_some]
      simp only [Out.bind_ok, pure, Option.map_some]
      rw [ih']
      rfl
  | @morePanic d q value join mn mx vs p w p' e _ _ ih ih' =>
    obtain ⟨k, ih⟩ := ih
    obtain ⟨k', ih'⟩ := ih'
    have ih := evalTask_up E (show k ≤ max k k' + 1 by omega) ih
    have ih' := evalTask_up E (show k' ≤ max k k' + 1 by omega) ih'
    refine ⟨max k k' + 1, ?_⟩
    cases join with
    | none =>
      cases ih
      simp only [evalTask] at ih' ⊢
      unfold pegMore
      dsimp only
      rw [Out.bind_ok]
      dsimp only
      rw [ih']
      rfl
    | some j =>
      simp only [evalTask] at ih ih' ⊢
      unfold pegMore
      dsimp only
      rw [ih]
      simp only [Res.out, Out.bind_ok, pure, Option.map_some]
      rw [ih']
      rfl
  | @moreFull d q value join mn mx vs p w p' v e _ _ hmx ih ih' =>
    obtain ⟨k, ih⟩ := ih
    obtain ⟨k', ih'⟩ := ih'
    have ih := evalTask_up E (show k ≤ max k k' + 1 by omega) ih
    have ih' := evalTask_up E (show k' ≤ max k k' + 1 by omega) ih'
    refine ⟨max k k' + 1, ?_⟩
    have hmx' : 0 ≤ mx ∧ mx ≤ ((vs ++ [v]).length : Int) := by simpa using hmx
    rw [← Res.stop_out]
    cases join with
    | none =>
      cases ih
      simp only [evalTask] at ih' ⊢
      unfold pegMore
      dsimp only
      rw [Out.bind_ok]
      dsimp only
      rw [ih']
      simp only [Res.out, Out.bind_ok]
      rw [if_pos hmx']
      rfl
    | some j =>
      simp only [evalTask] at ih ih' ⊢
      unfold pegMore
      dsimp only
      rw [ih]
      simp only [Res.out, Out.bind_ok, pure, Option.map_some]
      rw [ih']
      simp only [Res.out, Out.bind_ok]
      rw [if_pos hmx']
      rfl
  | @moreNext d q value join mn mx vs p w p' v e r _ _ hmx _ ih ih' ih'' =>
    obtain ⟨k, ih⟩ := ih
    obtain ⟨k', ih'⟩ := ih'
    obtain ⟨k'', ih''⟩ := ih''
    have ih := evalTask_up E (show k ≤ max k (max k' k'') + 1 by omega) ih
    have ih' := evalTask_up E (show k' ≤ max k (max k' k'') + 1 by omega) ih'
    have ih'' := evalTask_up E (show k'' ≤ max k (max k' k'') by omega) ih''
    generalize max k (max k' k'') = m at *
    refine ⟨m + 1, ?_⟩
    have hmx' : ¬ (0 ≤ mx ∧ mx ≤ ((vs ++ [v]).length : Int)) := by simpa using hmx
    have hle := Out.le_eq (Out.le_bind (pegMore_mono
        (ev := fun n p => peg E m d n q p) (ev' := fun n p => peg E (m + 1) d n q p)
        (fun n p => peg_mono E _ _ _ _ (Nat.le_succ m) (Nat.le_refl d) n q p)
        value join mx m m (Nat.le_refl _) (vs ++ [v]) e) fun y => Out.le_refl
          (if mn > y.1.length then Out.ok none else .ok (some (E.P.arr y.1, y.2))))
        (by simp only [evalTask] at ih''; rw [ih'']; exact r.out_ne_oof)
    simp only [evalTask] at ih''
    rw [ih''] at hle
    cases join with
    | none =>
      cases ih
      simp only [evalTask] at ih' ⊢
      unfold pegMore
      dsimp only
      rw [Out.bind_ok]
      dsimp only
      rw [ih']
      simp only [Res.out, Out.bind_ok]
      rw [if_neg hmx']
      exact hle
    | some j =>
      simp only [evalTask] at ih ih' ⊢
      unfold pegMore
      dsimp only
      rw [ih]
      simp only [Res.out, Out.bind_ok, pure, Option.map_some]
      rw [ih']
      simp only [Res.out, Out.bind_ok]
      rw [if_neg hmx']
      exact hle


theorem Out.bind_ne_oof {α β : Type} {o : Out α} {f : α → Out β} {x : Out β} (h : (o >>= f) = x) (hx : x ≠ .oof) :
    o ≠ .oof := by
  rintro rfl
  exact hx h.symm

/-- Assumption on the operands. -/
def EvMeans (E : PegEnv V) (d q : Nat) (ev : Node → Nat → Out (Option (V × Nat))) : Prop :=
  ∀ n p (r : Res V), ev n p = r.out → Means E d q (.node n) p r

section
variable {E : PegEnv V} {d q : Nat} {ev : Node → Nat → Out (Option (V × Nat))}

theorem pegChoice_means (h : EvMeans E d q ev) : ∀ l p (r : Res V), pegChoice ev l p = r.out →
    Means E d q (.alts l) p r
  | [], p, r, hr => by
    cases Res.out_inj (show (Res.out (.ok none) : Out (Option (V × Nat))) = r.out from hr)
    exact .altsEnd
  | c :: cs, p, r, hr => by
    rw [pegChoice] at hr
    obtain ⟨x, hx⟩ := Res.of_out (Out.bind_ne_oof hr r.out_ne_oof)
    have hm := h c p x hx
    rw [hx] at hr
    match x with
    | .error e =>
      cases Res.out_inj (show (Res.out (.error e) : Out (Option (V × Nat))) = r.out from hr)
      exact .altsPanic hm
    | .ok none => exact .altsMiss hm (pegChoice_means h cs p r hr)
    | .ok (some y) =>
      cases Res.out_inj (show (Res.out (.ok (some y)) : Out (Option (V × Nat))) = r.out from hr)
      exact .altsHit hm

theorem pegSeq_means (h : EvMeans E d q ev) (repr : SeqRepr) : ∀ l acc p (r : Res V),
    pegSeq E ev repr l acc p = r.out → Means E d q (.items repr l acc) p r
  | [], acc, p, r, hr => by
    cases Res.out_inj (show (Res.out (.ok (some (seqValue E.P repr acc, p))) : Out (Option (V × Nat))) = r.out from hr)
    exact .itemsEnd
  | c :: cs, acc, p, r, hr => by
    rw [pegSeq] at hr
    obtain ⟨x, hx⟩ := Res.of_out (Out.bind_ne_oof hr r.out_ne_oof)
    have hm := h c p x hx
    rw [hx] at hr
    match x with
    | .error e =>
      cases Res.out_inj (show (Res.out (.error e) : Out (Option (V × Nat))) = r.out from hr)
      exact .itemsPanic hm
    | .ok none =>
      cases Res.out_inj (show (Res.out (.ok none) : Out (Option (V × Nat))) = r.out from hr)
      exact .itemsMiss hm
    | .ok (some (v, p')) =>
      replace hr : (Out.ofExcept (seqPut E.P repr (E.g.info c) acc v) >>= fun acc =>
        pegSeq E ev repr cs acc p') = r.out := hr
      cases hp : seqPut E.P repr (E.g.info c) acc v with
      | error e =>
        rw [hp] at hr
        cases Res.out_inj (show (Res.out (.error e) : Out (Option (V × Nat))) = r.out from hr)
        exact .itemsPutPanic hm hp
      | ok acc' =>
        rw [hp] at hr
        exact .itemsPut hm hp (pegSeq_means h repr cs acc' p' r hr)

theorem pegMore_means (h : EvMeans E d q ev) (value : Node) (join : Option Node) (mn mx : Int) :
    ∀ k vs p (r : Res V), (pegMore ev value join mx k vs p >>= fun y =>
      if mn > y.1.length then Out.ok none else .ok (some (E.P.arr y.1, y.2))) = r.out →
    Means E d q (.more value join mn mx vs) p r
  | 0, _, _, r, hr => absurd hr.symm r.out_ne_oof
  | k + 1, vs, p, r, hr => by
    unfold pegMore at hr
    -- once the separator matched
    have cont : ∀ w p', Means E d q (.sep join) p (.ok (some (w, p'))) →
        ((do
          match ← ev value p' with
          | none => .ok (vs, p)
          | some (v, q) =>
            if 0 ≤ mx ∧ mx ≤ (vs ++ [v]).length then .ok (vs ++ [v], q)
            else pegMore ev value join mx k (vs ++ [v]) q) >>= fun y =>
          if mn > y.1.length then Out.ok none else .ok (some (E.P.arr y.1, y.2))) = r.out →
        Means E d q (.more value join mn mx vs) p r := by
      intro w p' hsep hr
      rw [Out.bind_assoc] at hr
      obtain ⟨x, hx⟩ := Res.of_out (Out.bind_ne_oof hr r.out_ne_oof)
      have hm := h value p' x hx
      rw [hx] at hr
      match x with
      | .error e =>
        cases Res.out_inj (show (Res.out (.error e) : Out (Option (V × Nat))) = r.out from hr)
        exact .morePanic hsep hm
      | .ok none =>
        replace hr : (if mn > vs.length then Out.ok none else .ok (some (E.P.arr vs, p))) = r.out := hr
        rw [Res.stop_out] at hr
        cases Res.out_inj hr
        exact .moreMiss hsep hm
      | .ok (some (v, e)) =>
        simp only [Res.out, Out.bind_ok] at hr
        by_cases hc : 0 ≤ mx ∧ mx ≤ ((vs ++ [v]).length : Int)
        · rw [if_pos hc, Out.bind_ok] at hr
          dsimp only at hr
          rw [Res.stop_out] at hr
          cases Res.out_inj hr
          exact .moreFull hsep hm (by simpa using hc)
        · rw [if_neg hc] at hr
          exact .moreNext hsep hm (by simpa using hc) (pegMore_means h value join mn mx k (vs ++ [v]) e r hr)
    cases join with
    | none => exact cont _ p .sepNone hr
    | some j =>
      dsimp only at hr
      rw [Out.bind_assoc, Out.bind_assoc] at hr
      obtain ⟨x, hx⟩ := Res.of_out (Out.bind_ne_oof hr r.out_ne_oof)
      have hm := h j p x hx
      rw [hx] at hr
      match x with
      | .error e =>
        cases Res.out_inj (show (Res.out (.error e) : Out (Option (V × Nat))) = r.out from hr)
        exact .sepPanic (.sepSome hm)
      | .ok none =>
        replace hr : (if mn > vs.length then Out.ok none else .ok (some (E.P.arr vs, p))) = r.out := hr
        rw [Res.stop_out] at hr
        cases Res.out_inj hr
        exact .sepMiss (.sepSome hm)
      | .ok (some (w, p')) => exact cont w p' (.sepSome hm) hr

theorem pegKind_means (h : EvMeans E d q ev) (k : Nat) (n : Node) (p : Nat) (r : Res V)
    (hr : pegKind E ev k n p = r.out) : Means E d q (.inner n) p r := by
  cases n with
  | str i b =>
    rw [pegKind] at hr
    cases hm : E.st.matchString p b with
    | error e =>
      rw [hm] at hr
      cases Res.out_inj (show (Res.out (.error e) : Out (Option (V × Nat))) = r.out from hr)
      exact .strPanic hm
    | ok x =>
      obtain ⟨m, e⟩ := x
      rw [hm] at hr
      cases Res.out_inj (show (Res.out (.ok (m.map fun t => (E.P.str t, e))) : Out (Option (V × Nat))) = r.out from hr)
      exact .str hm
  | regex i re =>
    rw [pegKind] at hr
    cases hm : E.st.matchRegexp p re with
    | error e =>
      rw [hm] at hr
      cases Res.out_inj (show (Res.out (.error e) : Out (Option (V × Nat))) = r.out from hr)
      exact .regexPanic hm
    | ok x =>
      obtain ⟨m, e⟩ := x
      rw [hm] at hr
      cases Res.out_inj (show (Res.out (.ok (m.map fun t => (E.P.str t, e))) : Out (Option (V × Nat))) = r.out from hr)
      exact .regex hm
  | choice i l => exact .choice (pegChoice_means h l p r hr)
  | seq i repr l => exact .seq (pegSeq_means h repr l _ p r hr)
  | exist i it =>
    rw [pegKind] at hr
    obtain ⟨x, hx⟩ := Res.of_out (Out.bind_ne_oof hr r.out_ne_oof)
    have hm := h it p x hx
    rw [hx] at hr
    match x with
    | .error e =>
      cases Res.out_inj (show (Res.out (.error e) : Out (Option (V × Nat))) = r.out from hr)
      exact .existPanic hm
    | .ok none =>
      cases Res.out_inj (show (Res.out (.ok (some (E.P.undef, p))) : Out (Option (V × Nat))) = r.out from hr)
      exact .existMiss hm
    | .ok (some y) =>
      cases Res.out_inj (show (Res.out (.ok (some y)) : Out (Option (V × Nat))) = r.out from hr)
      exact .existHit hm
  | look i it =>
    rw [pegKind] at hr
    obtain ⟨x, hx⟩ := Res.of_out (Out.bind_ne_oof hr r.out_ne_oof)
    have hm := h it p x hx
    rw [hx] at hr
    match x with
    | .error e =>
      cases Res.out_inj (show (Res.out (.error e) : Out (Option (V × Nat))) = r.out from hr)
      exact .lookPanic hm
    | .ok none =>
      cases Res.out_inj (show (Res.out (.ok none) : Out (Option (V × Nat))) = r.out from hr)
      exact .lookMiss hm
    | .ok (some (v, p')) =>
      cases Res.out_inj (show (Res.out (.ok (some (v, p))) : Out (Option (V × Nat))) = r.out from hr)
      exact .lookHit hm
  | not i it =>
    rw [pegKind] at hr
    obtain ⟨x, hx⟩ := Res.of_out (Out.bind_ne_oof hr r.out_ne_oof)
    have hm := h it p x hx
    rw [hx] at hr
    match x with
    | .error e =>
      cases Res.out_inj (show (Res.out (.error e) : Out (Option (V × Nat))) = r.out from hr)
      exact .notPanic hm
    | .ok none =>
      cases Res.out_inj (show (Res.out (.ok (some (E.P.undef, p))) : Out (Option (V × Nat))) = r.out from hr)
      exact .notMiss hm
    | .ok (some y) =>
      cases Res.out_inj (show (Res.out (.ok none) : Out (Option (V × Nat))) = r.out from hr)
      exact .notHit hm
  | pattern i value join mn mx =>
    rw [pegKind] at hr
    obtain ⟨x, hx⟩ := Res.of_out (Out.bind_ne_oof hr r.out_ne_oof)
    have hm := h value p x hx
    rw [hx] at hr
    match x with
    | .error e =>
      cases Res.out_inj (show (Res.out (.error e) : Out (Option (V × Nat))) = r.out from hr)
      exact .patPanic hm
    | .ok none =>
      replace hr : (if mn > ([] : List V).length then Out.ok none else .ok (some (E.P.arr [], p))) = r.out := hr
      rw [Res.stop_out] at hr
      cases Res.out_inj hr
      exact .patMiss hm
    | .ok (some (v, p')) => exact .patMore hm (pegMore_means h value join mn mx k [v] p' r hr)
  | ref i nm =>
    rw [pegKind] at hr
    cases hl : E.g.lookup nm with
    | none =>
      rw [hl] at hr
      cases Res.out_inj (show (Res.out (.error (.undefinedRef nm)) : Out (Option (V × Nat))) = r.out from hr)
      exact .undefinedRef hl
    | some id =>
      rw [hl] at hr
      exact .ref hl (h _ p r hr)
  | rule id => exact .link (h _ p r hr)

end

/-- Every answer of the interpreter is an outcome of the relation. -/
theorem peg_means (E : PegEnv V) : ∀ k d q, EvMeans E d q (fun n p => peg E k d n q p)
  | 0, _, _ => fun _ _ r hr => absurd hr.symm r.out_ne_oof
  | k + 1, d, q => by
    intro n p r hr
    dsimp only at hr
    by_cases hn : n.isRule = false
    · have he := evalTask_node E hn k d q p
      simp only [evalTask] at he
      rw [he] at hr
      by_cases hw : n.wraps = true
      · rw [if_pos hw] at hr
        obtain ⟨x, hx⟩ := Res.of_out (Out.bind_ne_oof hr r.out_ne_oof)
        rw [hx, Res.finish_out] at hr
        cases Res.out_inj hr
        exact .wrapped hn hw (pegKind_means (peg_means E k d q) k n p x hx)
      · rw [if_neg hw] at hr
        exact .plain hn (by simpa using hw) (pegKind_means (peg_means E k d q) k n p r hr)
    · cases n with
      | rule id =>
        cases hb : E.g.rules[id]? with
        | none =>
          unfold peg at hr
          rw [hb] at hr
          cases Res.out_inj (show (Res.out (.error .indexOutOfRange) : Out (Option (V × Nat))) = r.out from hr)
          exact .noRule hb
        | some body =>
          cases d with
          | zero =>
            unfold peg at hr
            rw [hb] at hr
            exact absurd hr.symm r.out_ne_oof
          | succ d =>
            rw [peg_rule_succ E k d q p hb] at hr
            obtain ⟨x, hx⟩ := Res.of_out (Out.bind_ne_oof hr r.out_ne_oof)
            rw [hx, Res.finish_out] at hr
            cases Res.out_inj hr
            exact .rule hb (pegKind_means (peg_means E k d p) k body p x hx)
      | _ => exact absurd rfl hn

/-- The relation and the interpreter agree. -/
theorem means_iff (E : PegEnv V) (d q : Nat) (n : Node) (p : Nat) (r : Res V) :
    Means E d q (.node n) p r ↔ ∃ k, peg E k d n q p = r.out :=
  ⟨fun h => h.eval, fun ⟨k, h⟩ => peg_means E k d q n p r h⟩

/-- Outcomes are unique. -/
theorem Means.unique {E : PegEnv V} {d d' q : Nat} {n : Node} {p : Nat} {r r' : Res V}
    (h : Means E d q (.node n) p r) (h' : Means E d' q (.node n) p r') : r = r' := by
  obtain ⟨k, h⟩ := (means_iff E d q n p r).mp h
  obtain ⟨k', h'⟩ := (means_iff E d' q n p r').mp h'
  refine Res.out_inj ?_
  rw [← h, ← h']
  exact peg_unique E (by rw [h]; exact r.out_ne_oof) (by rw [h']; exact r'.out_ne_oof)

end Joeson
