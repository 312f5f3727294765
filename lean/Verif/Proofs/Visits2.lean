import Verif.Proofs.Visits
/-!
# How often `parse` is called: the whole engine
-/

namespace Joeson
variable {V H : Type}

theorem Inv.tick {env : Env V (H × Nat)} {nn : Nat → Prop} {s : St V (H × Nat)} (h : Inv env nn s) : Inv env nn (tick s) :=
  ⟨h.pos, h.table, h.frame, h.stack, h.sorted⟩

theorem Post.untick {env : Env V (H × Nat)} {nn : Nat → Prop} {c : Prop} {s : St V (H × Nat)} {x : Option V × St V (H × Nat)}
    (h : Post env nn c (tick s) x) : Post env nn c s x :=
  ⟨h.1, ⟨h.2.1.next, h.2.1.pos, h.2.1.stack, h.2.1.loop, h.2.1.frame⟩, h.2.2⟩

section
variable {env : Env V (H × Nat)} {nn : Nat → Prop} {D : Nat} (hst : env.st.Valid) (hg : env.g.WfT nn False) (hal : env.g.NoAlias)
  (hD : SizeBound env.g D) (hnn : NNClosed env.g nn)
include hst hg hal hD hnn

theorem parseV_holds : ∀ k, RecHolds env nn False D k (parseV env k)
  | 0 => fun _ _ _ _ _ hk => hk.resolve_right (by unfold need; omega)
  | k + 1 => by
    intro n s hn hi hne hk
    rw [parseV]
    exact (wrap_holds hst hg hal hD hnn (parseV_holds k) n (tick s) hn hi.tick hne hk).imp fun x hx => hx.untick

omit hst hg hal hD hnn
/-- What a call of `parse` can assume. -/
structure Ready (env : Env V (H × Nat)) (nn : Nat → Prop) (D k : Nat) (n : Node) (s : St V (H × Nat)) : Prop where
  ok : n.All (Node.Ok env.g nn False)
  inv : Inv env nn s
  stack : 0 < s.stack.length ∨ ∃ id, n = .rule id
  fuel : need env.st.len D n s.stack.length ≤ k

open Classical in
/-- `parse` where it can be called. -/
noncomputable def parseR (env : Env V (H × Nat)) (nn : Nat → Prop) (D k : Nat) (n : Node) : Run V (H × Nat) := fun s =>
  if Ready env nn D k n s then parseV env k n s else .oof

theorem parseR_eq {k : Nat} {n : Node} {s : St V (H × Nat)} (h : Ready env nn D k n s) : parseR env nn D k n s = parseV env k n s := if_pos h

theorem parseR_le (k : Nat) (n : Node) : RunLe (parseR env nn D k n) (parseV env k n) := by
  intro s
  unfold parseR
  split
  · exact Out.le_refl _
  · exact Out.le_oof _

include hst hg hal hD hnn
theorem parseR_holds (k : Nat) : RecHolds env nn False D k (parseR env nn D k) := by
  intro n s hn hi hne hk
  have hk' := hk.resolve_left id
  rw [parseR_eq ⟨hn, hi, hne, hk'⟩]
  exact parseV_holds hst hg hal hD hnn k n s hn hi hne hk

theorem parseV_step {k : Nat} {n : Node} {s : St V (H × Nat)} (h : Ready env nn D (k + 1) n s) :
    parseV env (k + 1) n s = wrap env (parseR env nn D k) k n (tick s) := by
  rw [parseV]
  have h1 := wrap_mono env (parseR_le (env := env) (nn := nn) (D := D) k) (Nat.le_refl k) n (tick s)
  have h2 := wrap_holds hst hg hal hD hnn (parseR_holds hst hg hal hD hnn k) n (tick s) h.ok h.inv.tick h.stack (.inr h.fuel)
  refine Out.le_eq h1 fun ho => ?_
  exact h2.of_oof ho

theorem parseR_spent (K : Keeps env.ops) {M : Nat} (hM : ∀ n ∈ env.g.rules, n.callsN env.st.len ≤ M) : ∀ (k : Nat) (n : Node) (s : St V (H × Nat)),
    Gets (parseR env nn D k n s) fun x => s.pos ≤ x.2.pos ∧ x.2.pos ≤ env.st.len ∧ (Consumes env.g nn n → x.1.isSome → s.pos < x.2.pos) ∧
      CallsSpent M (n.callsN env.st.len) s x.2
  | 0, n, s => by
    unfold parseR
    split <;> trivial
  | k + 1, n, s => by
    have ih := parseR_spent K hM k
    by_cases h : Ready env nn D (k + 1) n s
    swap
    · unfold parseR
      rw [if_neg h]
      trivial
    rw [parseR_eq h]
    refine gets_of fun x hx => ?_
    have hp := (parseV_holds hst hg hal hD hnn (k + 1) n s h.ok h.inv h.stack (.inr h.fuel)).of_ok hx
    refine ⟨hp.2.1.pos, hp.1.pos, hp.2.2, ?_⟩
    rw [parseV_step hst hg hal hD hnn h] at hx
    revert x
    suffices hs : Gets (wrap env (parseR env nn D k) k n (tick s)) fun x => CallsSpent M (n.callsN env.st.len) s x.2 from
      fun x hx _ => hs.of_ok hx
    by_cases hr : ∃ id, n = .rule id
    · obtain ⟨id, rfl⟩ := hr
      unfold wrap
      dsimp only
      cases hb : env.g.rules[id]? with
      | none => trivial
      | some body =>
        dsimp only
        have hmem : body ∈ env.g.rules := List.mem_of_getElem? hb
        have hnr : ∀ i, body ≠ .rule i := hal body hmem
        have hkn : kindN env.st.len body ≤ M := by
          have := hM body hmem
          unfold kindN
          split
          · exact absurd rfl (hnr _)
          · omega
        have hgd : body.guarded env.g nn := by
          have := hg.rules body hmem
          have h2 : Node.Ok env.g nn False body := by cases this <;> assumption
          exact h2.2.resolve_left _root_.id
        have hbody : ∀ t, Gets (prepareResult env true body.info (parseKind env (parseR env nn D k) k body) t) fun x => CallsSpent M 0 t x.2 := by
          intro t
          refine (prepare_callsSpent K (fun u => kind_callsSpent K ih k body hgd u) true body.info t).imp fun x hx => ?_
          rw [Nat.mul_add, Nat.mul_one] at hx
          simp only [CallsSpent]
          omega
        refine (gets_of (P := fun x : St V (H × Nat) => x.h = (tick s).h ∧ x.counter = s.counter) ?_).bind ?_
        · intro t ht
          unfold stackPush at ht
          obtain ⟨⟨a, u⟩, hu, ht⟩ := Out.bind_eq_ok.mp ht
          have hu : u.h = (tick s).h ∧ u.counter = s.counter := by
            unfold getFrame at hu
            split at hu
            · split at hu <;> (cases hu; exact ⟨rfl, rfl⟩)
            · cases hu
          dsimp only at ht
          split at ht
          · cases ht; exact hu
          · cases ht
        rintro t ⟨e1, e2⟩
        refine (loopify_callsSpent hbody k id body.info t).bind ?_
        rintro ⟨r, u⟩ h1
        show u.h.2 + M * s.counter ≤ s.h.2 + 1 + M * u.counter
        have h1 : u.h.2 + M * t.counter ≤ t.h.2 + 0 + M * u.counter := h1
        rw [e1, e2] at h1
        exact h1
    · have hr' : ∀ id, n ≠ .rule id := fun id h => hr ⟨id, h⟩
      have hw : wrap env (parseR env nn D k) k n (tick s) = if (n.info.ownLabel || n.info.cb.isSome) = true then
          prepareResult env false n.info (parseKind env (parseR env nn D k) k n) (tick s) else parseKind env (parseR env nn D k) k n (tick s) := by
        cases n <;> first | rfl | exact absurd rfl (hr' _)
      have hkn : kindN env.st.len n + 1 = n.callsN env.st.len := by
        have := callsN_pos env.st.len n hr'
        unfold kindN
        split
        · exact absurd rfl (hr' _)
        · omega
      have hgd : n.guarded env.g nn := by
        have h2 : Node.Ok env.g nn False n := by cases h.ok <;> assumption
        exact h2.2.resolve_left id
      rw [hw]
      split
      · refine (prepare_callsSpent K (fun u => kind_callsSpent K ih k n hgd u) false n.info (tick s)).imp fun x hx => ?_
        have hx : x.2.h.2 + M * (s.counter + 1) ≤ s.h.2 + 1 + kindN env.st.len n + M * x.2.counter := hx
        rw [Nat.mul_add] at hx
        simp only [CallsSpent]
        omega
      · refine (kind_callsSpent K ih k n hgd (tick s)).imp fun x hx => ?_
        have hx : x.2.h.2 + M * s.counter ≤ s.h.2 + 1 + kindN env.st.len n + M * x.2.counter := hx
        simp only [CallsSpent]
        omega

/-- The parse of the top rank. -/
theorem root_callsSpent (K : Keeps env.ops) {M : Nat} (hM : ∀ n ∈ env.g.rules, n.callsN env.st.len ≤ M) (k : Nat) (n : Node) (s : St V (H × Nat)) (hroot : n.IsRank)
    (hn : n.All (Node.Ok env.g nn False)) (hi : Inv env nn s) (hk : need env.st.len D n s.stack.length ≤ k) :
    Gets (parseV env k n s) fun x => CallsSpent M (n.callsN env.st.len) s x.2 := by
  cases k with
  | zero => trivial
  | succ k =>
    cases n with
    | choice i l =>
      obtain ⟨h1, h2, h3⟩ := hroot
      cases hn with
      | choice _ hl =>
        have hw : ∀ rc : Node → Run V (H × Nat), wrap env rc k (.choice i l) (tick s) = parseAlts env rc l (tick s) := by
          intro rc
          unfold wrap
          dsimp only
          simp only [Node.info, h1, h2, Option.isSome_none, Bool.or_self, Bool.false_eq_true, if_false]
          rfl
        rw [parseV, hw]
        have hle := parseAlts_mono env (parseR_le (env := env) (nn := nn) (D := D) k) l (tick s)
        have hne := parseAlts_holds (parseR_holds hst hg hal hD hnn k) l (tick s) hl hi.tick (Or.inr h3) (by
          intro c hc
          obtain ⟨id, rfl⟩ := h3 c hc
          refine .inr ?_
          show need env.st.len D (.rule id) s.stack.length ≤ k
          unfold need at hk ⊢
          have : 0 < (Node.choice i l).measure := by
            simp only [Node.measure, Node.choice.sizeOf_spec]; omega
          have : (Node.rule id).measure = 0 := rfl
          omega)
        have he := Out.le_eq hle fun ho => hne.of_oof ho
        rw [he]
        refine (alts_callsSpent (parseR_spent hst hg hal hD hnn K hM k) l (tick s)).imp fun x hx => ?_
        have hx : x.2.h.2 + M * s.counter ≤ s.h.2 + 1 + callsAllN env.st.len l + M * x.2.counter := hx
        simp only [CallsSpent, Node.callsN]
        omega
    | _ => exact hroot.elim

end
end Joeson
