import Verif.Proofs.LeftRank
/-! # `gpeg` extends `peg`, when private rules are called by ranks -/

namespace Joeson
variable {V : Type}

/-- If this parser calls a rule then one that is not private. -/
def Shown (pv : Nat → Bool) (g : Grammar) : Node → Prop
  | .rule i => pv i = false
  | .ref _ nm => ∀ i, g.lookup nm = some i → pv i = false
  | _ => True

/-- Each body calls no private rule, or is a choice between rules. -/
def RankBodies (pv : Nat → Bool) (g : Grammar) : Prop :=
  ∀ (j : Nat) (body : Node), g.rules[j]? = some body → body.All (Shown pv g) ∨ ∃ i l, body = .choice i l ∧ ∀ c ∈ l, ∃ id, c = .rule id

section
variable {ev ev' : Node → Nat → Out (Option (V × Nat))}

theorem pegChoice_mono_at {p : Nat} : ∀ l : List Node, (∀ c ∈ l, Out.le (ev c p) (ev' c p)) → Out.le (pegChoice ev l p) (pegChoice ev' l p)
  | [], _ => Out.le_refl _
  | c :: cs, h => by
    rw [pegChoice, pegChoice]
    refine Out.le_bind (h c (List.mem_cons_self ..)) fun x => ?_
    cases x with
    | none => exact pegChoice_mono_at cs fun c hc => h c (List.mem_cons_of_mem _ hc)
    | some x => exact Out.le_refl _

theorem pegSeq_mono_on (E : PegEnv V) (repr : SeqRepr) : ∀ (l : List Node), (∀ c ∈ l, ∀ p, Out.le (ev c p) (ev' c p)) → ∀ acc p,
    Out.le (pegSeq E ev repr l acc p) (pegSeq E ev' repr l acc p)
  | [], _, _, _ => Out.le_refl _
  | c :: cs, h, acc, p => by
    rw [pegSeq, pegSeq]
    refine Out.le_bind (h c (List.mem_cons_self ..) p) fun x => ?_
    cases x with
    | none => exact Out.le_refl _
    | some x => exact Out.le_bind (Out.le_refl _) fun acc => pegSeq_mono_on E repr cs (fun c hc => h c (List.mem_cons_of_mem _ hc)) acc x.2

theorem pegMore_mono_on {value : Node} {join : Option Node} (hv : ∀ p, Out.le (ev value p) (ev' value p))
    (hj : ∀ j, join = some j → ∀ p, Out.le (ev j p) (ev' j p)) (mx : Int) : ∀ k k', k ≤ k' → ∀ vs p,
    Out.le (pegMore ev value join mx k vs p) (pegMore ev' value join mx k' vs p)
  | 0, _, _, _, _ => Out.le_oof _
  | k + 1, 0, hk, _, _ => absurd hk (by omega)
  | k + 1, k' + 1, hk, vs, p => by
    unfold pegMore
    refine Out.le_bind ?_ fun q => ?_
    · cases join with
      | none => exact Out.le_refl _
      | some j => exact Out.le_bind (hj j rfl p) fun x => Out.le_refl _
    · cases q with
      | none => exact Out.le_refl _
      | some q =>
        refine Out.le_bind (hv q) fun x => ?_
        cases x with
        | none => exact Out.le_refl _
        | some x => exact Out.le_ite (Out.le_refl _) (pegMore_mono_on hv hj mx k k' (by omega) _ _)

theorem pegKind_mono_shown (pv : Nat → Bool) (E : PegEnv V) (h : ∀ n p, n.All (Shown pv E.g) → Out.le (ev n p) (ev' n p)) {k k' : Nat} (hk : k ≤ k')
    {n : Node} (hn : n.All (Shown pv E.g)) (p : Nat) : Out.le (pegKind E ev k n p) (pegKind E ev' k' n p) := by
  cases hn with
  | str => exact Out.le_refl _
  | regex => exact Out.le_refl _
  | choice _ hl => exact pegChoice_mono_at _ fun c hc => h c p (hl c hc)
  | seq _ hl => exact pegSeq_mono_on E _ _ (fun c hc p => h c p (hl c hc)) _ p
  | exist _ hi => exact Out.le_bind (h _ p hi) fun x => Out.le_refl _
  | look _ hi => exact Out.le_bind (h _ p hi) fun x => Out.le_refl _
  | not _ hi => exact Out.le_bind (h _ p hi) fun x => Out.le_refl _
  | pattern _ hv hj =>
    refine Out.le_bind (h _ p hv) fun x => ?_
    cases x with
    | none => exact Out.le_refl _
    | some x => exact Out.le_bind (pegMore_mono_on (fun p => h _ p hv) (fun j e p => h j p (hj j e)) _ k k' hk _ _) fun y => Out.le_refl _
  | @ref i nm hr =>
    rw [pegKind, pegKind]
    cases hl : E.g.lookup nm with
    | none => exact Out.le_refl _
    | some id => exact h _ _ (.rule (hr id hl))
  | rule hr => exact h _ _ (.rule hr)

theorem ruleBody_mono_ranks (pv : Nat → Bool) (E : PegEnv V) {p : Nat}
    (h : ∀ n p', n.All (Shown pv E.g) ∨ (p' = p ∧ ∃ id, n = .rule id) → Out.le (ev n p') (ev' n p')) {k k' : Nat} (hk : k ≤ k')
    {body : Node} (hb : body.All (Shown pv E.g) ∨ ∃ i l, body = .choice i l ∧ ∀ c ∈ l, ∃ id, c = .rule id) :
    Out.le (ruleBody E ev k body p) (ruleBody E ev' k' body p) := by
  refine Out.le_bind ?_ fun _ => Out.le_refl _
  rcases hb with hb | ⟨i, l, rfl, hl⟩
  · exact pegKind_mono_shown pv E (fun n p hn => h n p (.inl hn)) hk hb p
  · exact pegChoice_mono_at l fun c hc => h c p (.inr ⟨rfl, hl c hc⟩)

end

/-- Where `peg` has an answer, `gpeg` has the same, with more fuel for the runs that try to grow. -/
theorem peg_le_gpeg (pv : Nat → Bool) (E : PegEnv V) (hR : RankBodies pv E.g) : ∀ k d (c : Ctx V) n q p,
    n.All (Shown pv E.g) ∨ (p = q ∧ ∃ id, n = .rule id) →
    (∀ id p', lrSeed c q id p' ≠ none → peg E k d (.rule id) 0 p' = .oof) →
    Out.le (peg E k d n q p) (gpeg pv E (k + 1) d c n q p)
  | 0, _, _, _, _, _, _, _ => Out.le_oof _
  | k + 1, d, c, n, q, p, hn, hc => by
    have weak : ∀ d', d' ≤ d → ∀ id p', lrSeed c q id p' ≠ none → peg E k d' (.rule id) 0 p' = .oof := fun d' hd' id p' h => by
      rcases peg_mono E k (k + 1) d' d (by omega) hd' (.rule id) 0 p' with h' | h'
      · exact h'
      · rw [h']; exact hc id p' h
    by_cases hr : ∃ id, n = .rule id
    · obtain ⟨id, rfl⟩ := hr
      by_cases hoof : peg E (k + 1) d (.rule id) q p = .oof
      · rw [hoof]; exact Out.le_oof _
      cases hb : E.g.rules[id]? with
      | none =>
        rw [gpeg_rule_none pv E (k + 1) d c q p hb]
        unfold peg
        rw [hb]
        exact Out.le_refl _
      | some body =>
        have hpeg0 : peg E (k + 1) 0 (.rule id) q p = .oof := by
          unfold peg
          rw [hb]
        have hstep : ∀ d1, peg E (k + 1) (d1 + 1) (.rule id) q p = ruleBody E (fun n p' => peg E k d1 n p p') k body p := by
          intro d1
          conv => lhs; unfold peg
          rw [hb]
          rfl
        cases hpv : pv id with
        | true =>
          have hqp : p = q := by
            rcases hn with hn | hn
            · cases hn with
              | rule h => rw [Shown, hpv] at h; cases h
            · exact hn.1
          subst hqp
          cases d with
          | zero => exact absurd hpeg0 hoof
          | succ d =>
            rw [gpeg_priv pv E (k + 1) d c p hb hpv, hstep]
            exact ruleBody_mono_ranks pv E (fun n p' hn' => peg_le_gpeg pv E hR k d c n p p' hn' (weak d (by omega))) (by omega) (hR id body hb)
        | false =>
        have hs : lrSeed c q id p = none := by
          cases hs : lrSeed c q id p with
          | none => rfl
          | some x =>
            refine absurd (hc id p (by rw [hs]; simp)) ?_
            rw [peg_rule E _ _ _ 0 q]; exact hoof
        have hleast : ∀ m, m ≤ d → peg E (k + 1) m (.rule id) q p ≠ .oof → ∃ d1, d1 < d ∧
            peg E (k + 1) d1 (.rule id) q p = .oof ∧ peg E (k + 1) (d1 + 1) (.rule id) q p ≠ .oof := by
          intro m
          induction m with
          | zero => intro _ h; exact absurd hpeg0 h
          | succ m ih =>
            intro hm h
            by_cases h' : peg E (k + 1) m (.rule id) q p = .oof
            · exact ⟨m, by omega, h', h⟩
            · exact ih (by omega) h'
        obtain ⟨d1, hd1, ho1, ho2⟩ := hleast d (Nat.le_refl _) hoof
        obtain ⟨d, rfl⟩ : ∃ d', d = d' + 1 := ⟨d - 1, by omega⟩
        rw [peg_unique E hoof ho2, gpeg_pub pv E (k + 1) d c q p hb hpv, hs]
        rw [hstep] at ho2 ⊢
        have key : ∀ c' : Ctx V, (∀ id' p', lrSeed c' p id' p' ≠ none → id' = id ∧ p' = p) →
            ruleBody E (fun n p' => gpeg pv E (k + 1) d c' n p p') (k + 1) body p =
              ruleBody E (fun n p' => peg E k d1 n p p') k body p := by
          intro c' hc'
          refine Out.le_eq (ruleBody_mono_ranks pv E (fun n p' hn' => ?_) (by omega) (hR id body hb)) ho2
          have h1 := peg_le_gpeg pv E hR k d1 c' n p p' hn' (fun id' p' h => by
            obtain ⟨rfl, rfl⟩ := hc' id' p' h
            rcases peg_mono E k (k + 1) d1 d1 (by omega) (by omega) (.rule id') 0 p' with h' | h'
            · exact h'
            · rw [h', peg_rule E _ _ _ 0 q]; exact ho1)
          have h2 := gpeg_mono pv E (k + 1) (k + 1) d1 d c' c' (by omega) (by omega) (Ctx.le_refl _) n p p'
          exact Out.le_trans h1 h2
        dsimp only
        split
        · rw [key none (fun id' p' h => absurd rfl h)]
          exact Out.le_refl _
        · have hk : ∀ x : Seed V, ruleBody E (fun n p' => gpeg pv E (k + 1) d (some (id, x)) n p p') (k + 1) body p =
              ruleBody E (fun n p' => peg E k d1 n p p') k body p := fun x => key _ fun id' p' h => by
            unfold lrSeed at h
            dsimp only at h
            split at h
            · rename_i hh; exact ⟨hh.1.symm, hh.2.symm⟩
            · exact absurd rfl h
          unfold ruleGrow
          simp only [hk]
          cases hx : ruleBody E (fun n p' => peg E k d1 n p p') k body p with
          | oof => exact absurd hx ho2
          | panic e => exact Out.le_refl _
          | ok x =>
            match x with
            | none => exact Out.le_refl _
            | some (v, e) =>
              rw [Out.bind_ok]
              dsimp only
              rw [growSeed, Out.bind_ok]
              dsimp only
              rw [if_pos (Nat.le_refl _)]
              exact Out.le_refl _
    · have hnr : ∀ id, n ≠ .rule id := fun id h => hr ⟨id, h⟩
      have hall : n.All (Shown pv E.g) := hn.resolve_right fun h => hr h.2
      have hp : peg E (k + 1) d n q p = if n.info.ownLabel || n.info.cb.isSome then
          (pegKind E (fun n p' => peg E k d n q p') k n p >>= pegFinish E n.info q)
          else pegKind E (fun n p' => peg E k d n q p') k n p := by
        cases n <;> first | rfl | exact absurd rfl (hnr _)
      rw [hp, gpeg_node pv E (k + 1) d c q p hnr]
      refine Out.le_ite (Out.le_bind ?_ fun x => Out.le_refl _) ?_ <;>
        exact pegKind_mono_shown pv E (fun n p' hn' => peg_le_gpeg pv E hR k d c n q p' (.inl hn') (weak d (Nat.le_refl _))) (by omega) hall p

end Joeson
