import Verif.Proofs.SkipCache
import Verif.Proofs.LeftRec
/-! # Caching and direct left recursion: caching more rules does not change what has a meaning -/

namespace Joeson
variable {V : Type}

theorem ruleBody_setSkip (E : PegEnv V) (f : Nat → Bool) (b : Bool) (ev : Node → Nat → Out (Option (V × Nat))) (k : Nat)
    (n : Node) (p : Nat) : ruleBody (E.setSkip f) ev k (n.setSkip b) p = ruleBody E ev k n p := by
  unfold ruleBody
  rw [pegKind_setSkip, pegKind_setSkip_node, pegFinish_setSkip]

theorem Node.setSkip_skip (b : Bool) (n : Node) (hn : ∀ id, n ≠ .rule id) : (n.setSkip b).info.skipCache = b := by
  cases n <;> first | rfl | exact absurd rfl (hn _)

theorem PegEnv.setSkip_rules (E : PegEnv V) (f : Nat → Bool) (id : Nat) :
    (E.setSkip f).g.rules[id]? = (E.g.rules[id]?).map (Node.setSkip (f id)) := E.g.setSkip_rules f id

/-- The least nesting at which there is an answer. -/
theorem lpeg_leastDepth (E : PegEnv V) {k id q p : Nat} {c : Ctx V} {body : Node} (hb : E.g.rules[id]? = some body) :
    ∀ d, lpeg E (k + 1) d c (.rule id) q p ≠ .oof → ∃ d1, d1 < d ∧
      lpeg E (k + 1) d1 c (.rule id) q p = .oof ∧ lpeg E (k + 1) (d1 + 1) c (.rule id) q p ≠ .oof := by
  intro d
  induction d with
  | zero => intro h; exact absurd (lpeg_rule_zero E k c q p hb) h
  | succ m ih =>
    intro h
    by_cases h' : lpeg E (k + 1) m c (.rule id) q p = .oof
    · exact ⟨m, by omega, h', h⟩
    · obtain ⟨d1, h1, h2⟩ := ih h'
      exact ⟨d1, by omega, h2⟩

/-- With every rule cached, at least as much has a meaning, and the same. -/
theorem lpeg_setSkip_le (E : PegEnv V) (f : Nat → Bool) (hal : ∀ n ∈ E.g.rules, ∀ id, n ≠ .rule id) : ∀ k d (c c' : Ctx V) n q p,
    (c' = c ∨ c = none ∧ ∀ id p', lrSeed c' q id p' ≠ none → lpeg (E.setSkip f) k d none (.rule id) 0 p' = .oof) →
    Out.le (lpeg (E.setSkip f) k d c n q p) (lpeg (E.setSkip fun _ => false) (k + 1) d c' n q p)
  | 0, _, _, _, _, _, _, _ => Out.le_oof _
  | k + 1, d, c, c', n, q, p, hc => by
    by_cases hr : ∃ id, n = .rule id
    · obtain ⟨id, rfl⟩ := hr
      by_cases hoof : lpeg (E.setSkip f) (k + 1) d c (.rule id) q p = .oof
      · rw [hoof]; exact Out.le_oof _
      cases hb : E.g.rules[id]? with
      | none =>
        rw [lpeg_rule_none _ k d c q p (by rw [PegEnv.setSkip_rules, hb]; rfl),
          lpeg_rule_none _ (k + 1) d c' q p (by rw [PegEnv.setSkip_rules, hb]; rfl)]
        exact Out.le_refl _
      | some body =>
        have hbf : (E.setSkip f).g.rules[id]? = some (body.setSkip (f id)) := by rw [PegEnv.setSkip_rules, hb]; rfl
        have hbg : (E.setSkip fun _ => false).g.rules[id]? = some (body.setSkip false) := by
          rw [PegEnv.setSkip_rules, hb]; rfl
        have hnal := hal body (List.mem_of_getElem? hb)
        have hs : lrSeed c' q id p = lrSeed c q id p := by
          rcases hc with rfl | ⟨rfl, hc⟩
          · rfl
          · cases hs : lrSeed c' q id p with
            | none => rfl
            | some x =>
              refine absurd (hc id p (by rw [hs]; simp)) ?_
              rwa [lpeg_rule_ctx _ _ _ (c' := none) (q' := q) rfl rfl]
        obtain ⟨d, rfl⟩ : ∃ d', d = d' + 1 := by
          cases d with
          | zero => exact absurd (lpeg_rule_zero _ k c q p hbf) hoof
          | succ d => exact ⟨d, rfl⟩
        cases hsx : lrSeed c q id p with
        | some x =>
          rw [lpeg_rule_succ _ k d c q p hbf, lpeg_rule_succ _ (k + 1) d c' q p hbg, hs, hsx]
          cases x <;> exact Out.le_refl _
        | none =>
          have hG : lpeg (E.setSkip fun _ => false) (k + 1 + 1) (d + 1) c' (.rule id) q p =
              ruleGrow (fun x => ruleBody E (fun n p' => lpeg (E.setSkip fun _ => false) (k + 1) d (some (id, x)) n p p')
                (k + 1) body p) (k + 1) := by
            rw [lpeg_rule_succ _ (k + 1) d c' q p hbg, hs, hsx]
            dsimp only
            rw [if_neg (by rw [Node.setSkip_skip _ _ hnal]; simp)]
            simp only [ruleBody_setSkip]
          rw [hG]
          cases hf : f id with
          | false =>
            have hF : lpeg (E.setSkip f) (k + 1) (d + 1) c (.rule id) q p =
                ruleGrow (fun x => ruleBody E (fun n p' => lpeg (E.setSkip f) k d (some (id, x)) n p p') k body p) k := by
              rw [lpeg_rule_succ _ k d c q p hbf, hsx]
              dsimp only
              rw [if_neg (by rw [Node.setSkip_skip _ _ hnal, hf]; simp)]
              simp only [ruleBody_setSkip]
            rw [hF]
            exact ruleGrow_mono (fun x => ruleBody_mono E (fun n p' => lpeg_setSkip_le E f hal k d _ _ n p p' (Or.inl rfl))
              (by omega) body p) (by omega)
          | true =>
            have hF : ∀ d, lpeg (E.setSkip f) (k + 1) (d + 1) c (.rule id) q p =
                ruleBody E (fun n p' => lpeg (E.setSkip f) k d none n p p') k body p := fun d => by
              rw [lpeg_rule_succ _ k d c q p hbf, hsx]
              dsimp only
              rw [if_pos (by rw [Node.setSkip_skip _ _ hnal, hf])]
              simp only [ruleBody_setSkip]
            obtain ⟨d1, hd1, ho1, ho2⟩ := lpeg_leastDepth (E.setSkip f) hbf (d + 1) hoof
            rw [lpeg_unique (E.setSkip f) hoof ho2]
            rw [hF] at ho2 ⊢
            have hk : ∀ x : Seed V, ruleBody E (fun n p' => lpeg (E.setSkip fun _ => false) (k + 1) d (some (id, x)) n p p')
                (k + 1) body p = ruleBody E (fun n p' => lpeg (E.setSkip f) k d1 none n p p') k body p := by
              intro x
              refine Out.le_eq (ruleBody_mono E (fun n p' => ?_) (by omega) body p) ho2
              refine Out.le_trans (lpeg_setSkip_le E f hal k d1 none (some (id, x)) n p p' (Or.inr ⟨rfl, fun id' p' h => ?_⟩))
                (lpeg_mono _ (k + 1) (k + 1) d1 d _ _ (Nat.le_refl _) (by omega) (Ctx.le_refl _) n p p')
              have : id' = id ∧ p' = p := by
                unfold lrSeed at h
                dsimp only at h
                split at h
                · rename_i hh; exact ⟨hh.1.symm, hh.2.symm⟩
                · exact absurd rfl h
              obtain ⟨rfl, rfl⟩ := this
              rcases lpeg_mono (E.setSkip f) k (k + 1) d1 d1 none none (by omega) (by omega) trivial (.rule id') 0 p' with h' | h'
              · exact h'
              · rw [h', lpeg_rule_ctx _ _ _ (c := none) (c' := c) (q' := q) rfl hsx]; exact ho1
            unfold ruleGrow
            simp only [hk]
            cases hx : ruleBody E (fun n p' => lpeg (E.setSkip f) k d1 none n p p') k body p with
            | oof => exact absurd hx ho2
            | panic e => exact Out.le_refl _
            | ok x =>
              match x with
              | none => exact Out.le_refl _
              | some (v, e) =>
                rw [Out.bind_ok]
                dsimp only
                rw [growSeed, Out.bind_ok]
                dsimp only
                rw [if_pos (Nat.le_refl _)]
                exact Out.le_refl _
    · have hn : ∀ id, n ≠ .rule id := fun id h => hr ⟨id, h⟩
      rw [lpeg_node _ k d c q p hn, lpeg_node _ (k + 1) d c' q p hn]
      simp only [pegKind_setSkip, pegFinish_env]
      have weak : c' = c ∨ c = none ∧ ∀ id p', lrSeed c' q id p' ≠ none → lpeg (E.setSkip f) k d none (.rule id) 0 p' = .oof :=
        hc.imp_right fun ⟨h1, h2⟩ => ⟨h1, fun id p' h => by
          rcases lpeg_mono (E.setSkip f) k (k + 1) d d none none (by omega) (by omega) trivial (.rule id) 0 p' with h' | h'
          · exact h'
          · rw [h']; exact h2 id p' h⟩
      refine Out.le_ite (Out.le_bind ?_ fun x => Out.le_refl _) ?_ <;>
        exact pegKind_mono E (fun n p' => lpeg_setSkip_le E f hal k d c c' n q p' weak) (by omega) _ p

end Joeson
