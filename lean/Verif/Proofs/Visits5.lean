import Verif.Proofs.Visits4
/-!
# The calls of `parse`, paid for by the memo table
-/

namespace Joeson
variable {V H : Type}

section walk
variable {env : Env V (H × Nat)} (K : Keeps env.ops) {rec_ : Node → Run V (H × Nat)} {w : Bool} {M : Nat} {nn : Nat → Prop}
  (hrec : ∀ n s, Gets (rec_ n s) fun x => s.pos ≤ x.2.pos ∧ x.2.pos ≤ env.st.len ∧ (Consumes env.g nn n → x.1.isSome → s.pos < x.2.pos) ∧
    (Tidy s → Paid w M env.st.len env.g.numRules (n.callsN env.st.len) s x.2))
include hrec

theorem alts_paid : ∀ (l : List Node) (s : St V (H × Nat)), Tidy s →
    Gets (parseAlts env rec_ l s) fun x => Paid w M env.st.len env.g.numRules (callsAllN env.st.len l) s x.2
  | [], s, hs => .refl hs
  | n :: l, s, hs => by
    rw [parseAlts]
    refine (hrec n s).bind ?_
    rintro ⟨r, t⟩ ⟨-, -, -, h1⟩
    have h1 := h1 hs
    rw [callsAllN]
    cases r with
    | some v => exact h1.mono (by omega)
    | none =>
      refine (setPos_gets env s.pos t).bind ?_
      rintro _ rfl
      exact (alts_paid l _ (h1.pos _).tidy).imp fun x hx => (h1.pos _).trans hx

include K
theorem items_paid (repr : SeqRepr) : ∀ (l : List Node) (acc : SeqAcc V) (s : St V (H × Nat)), Tidy s →
    Gets (parseItems env rec_ repr l acc s) fun x => Paid w M env.st.len env.g.numRules (callsAllN env.st.len l) s x.2
  | [], acc, s, hs => by
    rw [parseItems]
    have : (seqDone env.ops repr acc s.h).2.2 = s.h.2 := by
      unfold seqDone
      split
      · exact K.arr _ _
      · split <;> rfl
    exact (Paid.refl hs).aux s.pos _ this
  | n :: l, acc, s, hs => by
    rw [parseItems]
    refine (hrec n s).bind ?_
    rintro ⟨r, t⟩ ⟨-, -, -, h1⟩
    have h1 := h1 hs
    rw [callsAllN]
    cases r with
    | none => exact h1.mono (by omega)
    | some v =>
      dsimp only
      refine (gets_of (P := fun x => x.2.2 = t.h.2) fun a ha => seqAdd_keeps K (ofExcept_ok' ha)).bind ?_
      rintro ⟨acc, x⟩ hx
      have h2 := h1.aux t.pos x hx
      exact (items_paid repr l acc _ h2.tidy).imp fun y hy => h2.trans hy

theorem rep_paid (v : Node) (j : Option Node) (hg : Consumes env.g nn v ∨ ∃ c, j = some c ∧ Consumes env.g nn c) (mn mx : Int) (start : Nat) :
    ∀ (k : Nat) (ms : List V) (s : St V (H × Nat)), s.pos ≤ env.st.len → Tidy s →
      Gets (parseRep env rec_ v j mn mx start k ms s) fun x => Paid w M env.st.len env.g.numRules ((env.st.len - s.pos + 1) * roundN env.st.len v j) s x.2
  | 0, _, _, _, _ => trivial
  | k + 1, ms, s, hs, hts => by
    unfold parseRep
    extract_lets pos2 finish
    have hfin : ∀ c t, Paid w M env.st.len env.g.numRules c s t → Gets (finish t) (fun x => Paid w M env.st.len env.g.numRules c s x.2) := by
      intro c t ht
      show Gets (if _ then _ else _) _
      split
      · refine (setPos_gets env start t).bind ?_
        rintro _ rfl
        exact ht.pos _
      · exact ht.aux t.pos _ (K.arr ms t.h)
    have h1 : roundN env.st.len v j ≤ (env.st.len - s.pos + 1) * roundN env.st.len v j := Nat.le_mul_of_pos_left _ (by omega)
    refine Out.Holds.bind (Q := fun x => s.pos ≤ x.2.pos ∧ x.2.pos ≤ env.st.len ∧ ((∃ c, j = some c ∧ Consumes env.g nn c) → x.1 = true → s.pos < x.2.pos) ∧
      Paid w M env.st.len env.g.numRules (roundN env.st.len v j - v.callsN env.st.len) s x.2) ?_ ?_
    · cases j with
      | none =>
        refine ⟨Nat.le_refl _, hs, ?_, (Paid.refl hts).mono (Nat.zero_le _)⟩
        rintro ⟨c, hc, -⟩; cases hc
      | some n =>
        refine (hrec n s).bind ?_
        rintro ⟨r, t⟩ ⟨e1, e2, e3, e4⟩
        refine ⟨e1, e2, ?_, (e4 hts).mono ?_⟩
        · rintro ⟨c, hc, hc'⟩ hr
          cases hc
          exact e3 hc' hr
        · simp only [roundN]
          omega
    · rintro ⟨b, t⟩ ⟨e1, e2, e3, e4⟩
      have hvr : v.callsN env.st.len ≤ roundN env.st.len v j := by cases j <;> simp [roundN]
      dsimp only at e1 e2 e3 e4 ⊢
      split
      · refine (setPos_gets env pos2 t).bind ?_
        rintro _ rfl
        exact hfin _ _ ((e4.mono (by omega)).pos _)
      · rename_i hb
        have hb : b = true := by simpa using hb
        subst hb
        refine (hrec v t).bind ?_
        rintro ⟨r, u⟩ ⟨f1, f2, f3, f4⟩
        have h3 : Paid w M env.st.len env.g.numRules (roundN env.st.len v j) s u := (e4.trans (f4 e4.tidy)).mono (by omega)
        have h4 := h3.mono h1
        dsimp only at f1 f2 f3 f4
        cases r with
        | none =>
          refine (setPos_gets env pos2 u).bind ?_
          rintro _ rfl
          exact hfin _ _ (h4.pos _)
        | some w =>
          dsimp only
          split
          · split
            · refine (setPos_gets env start u).bind ?_
              rintro _ rfl
              exact h4.pos _
            · exact h4.aux u.pos _ (K.arr (ms ++ [w]) u.h)
          · have hlt : s.pos < u.pos := by
              rcases hg with hc | hc
              · have := f3 hc rfl; omega
              · have := e3 hc rfl; omega
            refine (rep_paid v j hg mn mx start k _ u f2 h3.tidy).imp fun y hy => ?_
            have h5 : (env.st.len - u.pos + 1) * roundN env.st.len v j + roundN env.st.len v j ≤ (env.st.len - s.pos + 1) * roundN env.st.len v j := by
              rw [← Nat.succ_mul]
              exact Nat.mul_le_mul_right _ (by omega)
            exact (h3.trans hy).mono (by omega)

theorem kind_paid (k : Nat) (n : Node) (hn : n.guarded env.g nn) (s : St V (H × Nat)) (hs : Tidy s) :
    Gets (parseKind env rec_ k n s) fun x => Paid w M env.st.len env.g.numRules (kindN env.st.len n) s x.2 := by
  cases n with
  | str i b =>
    refine (gets_any (Out.ofExcept (env.st.matchString s.pos b))).bind ?_
    rintro ⟨m, p⟩ -
    cases m <;> exact ((Paid.refl hs).pos _).mono (Nat.zero_le _)
  | regex i re =>
    refine (gets_any (Out.ofExcept (env.st.matchRegexp s.pos re))).bind ?_
    rintro ⟨m, p⟩ -
    cases m <;> exact ((Paid.refl hs).pos _).mono (Nat.zero_le _)
  | choice i l =>
    refine (alts_paid hrec l s hs).imp fun x hx => hx.mono ?_
    simp only [kindN, Node.callsN]
    omega
  | seq i repr l =>
    refine (items_paid K hrec repr l _ s hs).imp fun x hx => hx.mono ?_
    simp only [kindN, Node.callsN]
    omega
  | exist i m =>
    refine (hrec m s).bind ?_
    rintro ⟨r, t⟩ ⟨-, -, -, h1⟩
    have h2 := (h1 hs).mono (c' := kindN env.st.len (.exist i m)) (by simp only [kindN, Node.callsN]; omega)
    cases r with
    | some v => exact h2
    | none =>
      refine (setPos_gets env s.pos t).bind ?_
      rintro _ rfl
      exact h2.pos _
  | look i m =>
    refine (hrec m s).bind ?_
    rintro ⟨r, t⟩ ⟨-, -, -, h1⟩
    have h2 := (h1 hs).mono (c' := kindN env.st.len (.look i m)) (by simp only [kindN, Node.callsN]; omega)
    refine (setPos_gets env s.pos t).bind ?_
    rintro _ rfl
    exact h2.pos _
  | not i m =>
    refine (hrec m s).bind ?_
    rintro ⟨r, t⟩ ⟨-, -, -, h1⟩
    have h2 := (h1 hs).mono (c' := kindN env.st.len (.not i m)) (by simp only [kindN, Node.callsN]; omega)
    refine (setPos_gets env s.pos t).bind ?_
    rintro _ rfl
    cases r <;> exact h2.pos _
  | pattern i v j mn mx =>
    have hc : kindN env.st.len (.pattern i v j mn mx) = (env.st.len + 2) * roundN env.st.len v j := by
      show (Node.pattern i v j mn mx).callsN env.st.len - 1 = _
      cases j <;> simp [Node.callsN, roundN]
    have hvr : v.callsN env.st.len ≤ roundN env.st.len v j := by cases j <;> simp [roundN]
    have h0 : roundN env.st.len v j ≤ (env.st.len + 2) * roundN env.st.len v j := Nat.le_mul_of_pos_left _ (by omega)
    rw [hc]
    refine (hrec v s).bind ?_
    rintro ⟨r, t⟩ ⟨h2, h3, -, h1⟩
    have h1 := h1 hs
    cases r with
    | none =>
      refine (setPos_gets env s.pos t).bind ?_
      rintro _ rfl
      dsimp only
      split
      · exact (h1.mono (by omega)).pos _
      · exact (h1.mono (by omega)).aux _ _ (K.arr [] t.h)
    | some w =>
      refine (rep_paid K hrec v j hn mn mx s.pos k _ t h3 h1.tidy).imp fun y hy => (h1.trans hy).mono ?_
      have h5 : (env.st.len - t.pos + 1) * roundN env.st.len v j + roundN env.st.len v j ≤ (env.st.len + 2) * roundN env.st.len v j := by
        rw [← Nat.succ_mul]
        exact Nat.mul_le_mul_right _ (by omega)
      omega
  | ref i nm =>
    rw [parseKind]
    cases env.g.lookup nm with
    | none => trivial
    | some id =>
      refine (gets_any (stackPeek s)).bind fun _ _ => ?_
      refine (hrec (.rule id) s).imp fun x hx => (hx.2.2.2 hs).mono ?_
      simp [kindN, Node.callsN]
  | rule id =>
    refine (hrec (.rule id) s).imp fun x hx => (hx.2.2.2 hs).mono ?_
    simp [kindN, Node.callsN]

end walk

section
variable {env : Env V (H × Nat)} {w : Bool} {M : Nat}

theorem prepare_paid (K : Keeps env.ops) {f : Run V (H × Nat)} {c : Nat} (hf : ∀ s, Tidy s → Gets (f s) (fun x => Paid w M env.st.len env.g.numRules c s x.2)) (b : Bool) (i : Info)
    (s : St V (H × Nat)) (h : Tidy s) : Gets (prepareResult env b i f s) (fun x => Paid w M env.st.len env.g.numRules (c + w.toNat) s x.2) := by
  unfold prepareResult
  extract_lets s1
  have h1 : Tidy s1 := ⟨h.table, h.mask, h.stack⟩
  refine (hf s1 h1).bind ?_
  rintro ⟨r, t⟩ hw
  dsimp only at hw
  have key : ∀ (x : H × Nat) (l : List Call), x.2 = t.h.2 → Paid w M env.st.len env.g.numRules (c + w.toNat) s { t with h := x, calls := l } := by
    intro x l hx
    refine ⟨⟨⟨hw.tidy.table, hw.tidy.mask, hw.tidy.stack⟩, hw.next, hw.stack, hw.same, hw.mask⟩, fun hn => ?_⟩
    have h2 : tally w t + M * (used env.st.len env.g.numRules s).card ≤ tally w s1 + c + M * (used env.st.len env.g.numRules t).card := hw.count hn
    have he : tally w ({ t with h := x, calls := l } : St V (H × Nat)) = tally w t := by cases w <;> first | exact hx | rfl
    have h3 : tally w s1 = tally w s + w.toNat := by cases w <;> rfl
    show tally w ({ t with h := x, calls := l } : St V (H × Nat)) + _ ≤ tally w s + (c + w.toNat) + M * (used env.st.len env.g.numRules t).card
    rw [he]
    omega
  cases r with
  | none => exact key t.h t.calls rfl
  | some v =>
    dsimp only
    have hlab : (if i.ownLabel then env.ops.newMap i.label v t.h else (v, t.h)).2.2 = t.h.2 := by
      split
      · exact K.newMap _ _ _
      · rfl
    cases i.cb with
    | none =>
      dsimp only
      refine (gets_any _).bind fun top _ => ?_
      exact key _ _ ((K.origin _ _ _).trans hlab)
    | some c =>
      dsimp only
      refine (gets_of (P := fun x : Option V × (H × Nat) => x.2.2 = t.h.2) fun a ha => (K.cb _ _ _ _ _ (ofExcept_ok' ha)).trans hlab).bind ?_
      rintro ⟨rv, x⟩ hx
      cases rv with
      | none => exact key _ _ hx
      | some w =>
        dsimp only
        refine (gets_any _).bind fun top _ => ?_
        exact key _ _ ((K.origin _ _ _).trans hx)

end

section
variable {env : Env V (H × Nat)} {nn : Nat → Prop} {D : Nat} (hst : env.st.Valid) (hg : env.g.WfT nn False) (hal : env.g.NoAlias)
  (hD : SizeBound env.g D) (hnn : NNClosed env.g nn) (hc : env.g.AllCached)
include hst hg hal hD hnn hc

theorem parseR_paid (K : Keeps env.ops) {w : Bool} {M : Nat} (hM : ∀ n ∈ env.g.rules, n.callsN env.st.len ≤ M) : ∀ (k : Nat) (n : Node) (s : St V (H × Nat)),
    Gets (parseR env nn D k n s) fun x => s.pos ≤ x.2.pos ∧ x.2.pos ≤ env.st.len ∧ (Consumes env.g nn n → x.1.isSome → s.pos < x.2.pos) ∧
      (Tidy s → Paid w M env.st.len env.g.numRules (n.callsN env.st.len) s x.2)
  | 0, n, s => by
    unfold parseR
    split <;> trivial
  | k + 1, n, s => by
    have ih := parseR_paid K (w := w) hM k
    by_cases h : Ready env nn D (k + 1) n s
    swap
    · unfold parseR
      rw [if_neg h]
      trivial
    rw [parseR_eq h]
    refine gets_of fun x hx => ?_
    have hp := (parseV_holds hst hg hal hD hnn (k + 1) n s h.ok h.inv h.stack (.inr h.fuel)).of_ok hx
    refine ⟨hp.2.1.pos, hp.1.pos, hp.2.2, fun hts => ?_⟩
    rw [parseV_step hst hg hal hD hnn h] at hx
    revert x
    have ht1 : Tidy (tick s) := ⟨hts.table, hts.mask, hts.stack⟩
    have htick : ∀ {c : Nat} {t : St V (H × Nat)}, Paid w M env.st.len env.g.numRules c (tick s) t → Paid w M env.st.len env.g.numRules (c + (!w).toNat) s t := by
      intro c t hp
      refine ⟨⟨hp.tidy, hp.next, hp.stack, hp.same, hp.mask⟩, fun hn => ?_⟩
      have h1 : tally w t + M * (used env.st.len env.g.numRules s).card ≤ tally w (tick s) + c + M * (used env.st.len env.g.numRules t).card := hp.count hn
      have h2 : tally w (tick s) = tally w s + (!w).toNat := by cases w <;> rfl
      omega
    suffices hs : Gets (wrap env (parseR env nn D k) k n (tick s)) fun x => Paid w M env.st.len env.g.numRules (n.callsN env.st.len) s x.2 from
      fun x hx _ => hs.of_ok hx
    by_cases hr : ∃ id, n = .rule id
    · obtain ⟨id, rfl⟩ := hr
      unfold wrap
      dsimp only
      cases hb : env.g.rules[id]? with
      | none => trivial
      | some body =>
        dsimp only
        have hmem : body ∈ env.g.rules := List.mem_of_getElem? hb
        have hnr : ∀ i, body ≠ .rule i := hal body hmem
        have hkn : kindN env.st.len body + w.toNat ≤ M := by
          have := hM body hmem
          have := callsN_pos env.st.len body hnr
          have := Bool.toNat_le w
          unfold kindN
          split
          · exact absurd rfl (hnr _)
          · omega
        have hgd : body.guarded env.g nn := by
          have := hg.rules body hmem
          have h2 : Node.Ok env.g nn False body := by cases this <;> assumption
          exact h2.2.resolve_left _root_.id
        have hbody : ∀ t, Tidy t → Gets (prepareResult env true body.info (parseKind env (parseR env nn D k) k body) t) fun x => Paid w M env.st.len env.g.numRules M t x.2 :=
          fun t ht => (prepare_paid K (fun u hu => kind_paid K ih k body hgd u hu) true body.info t ht).imp fun x hx => hx.mono hkn
        unfold stackPush
        refine Out.Holds.bind (Q := fun t => Tidy t ∧ ∀ c u, Paid w M env.st.len env.g.numRules c t u →
            Paid w M env.st.len env.g.numRules c (tick s) (stackPop u)) ?_ ?_
        · refine (getFrame_paid env id (tick s) ht1).bind ?_
          rintro ⟨a, t⟩ ⟨-, -, -, -, h1, h3, h4, h2⟩
          dsimp only at h1 h2 h3 h4 ⊢
          split
          · refine ⟨⟨h2.tidy.table, h2.tidy.mask, ?_⟩, fun c u hu => ?_⟩
            · intro b hb
              rcases List.mem_cons.mp hb with rfl | hb
              · exact h1
              · exact h2.tidy.stack b hb
            · have h5 : Paid w M env.st.len env.g.numRules c t (stackPop u) :=
                ⟨⟨⟨hu.tidy.table, hu.tidy.mask, fun b hb => hu.tidy.stack b (List.mem_of_mem_tail hb)⟩, hu.next,
                  by show u.stack.tail = _; rw [hu.stack]; rfl, hu.same, hu.mask⟩, hu.count⟩
              exact ((h2.paid h4 h3).trans h5).mono (by omega)
          · trivial
        · rintro t ⟨ht2, hpop⟩
          refine (loopify_paid hbody k id body.info (hc body hmem) t ht2).bind ?_
          rintro ⟨r, u⟩ hu
          exact (htick (hpop 0 u hu)).mono (by have := Bool.toNat_le (!w); simp only [Node.callsN]; omega)
    · have hr' : ∀ id, n ≠ .rule id := fun id h => hr ⟨id, h⟩
      have hw : wrap env (parseR env nn D k) k n (tick s) = if (n.info.ownLabel || n.info.cb.isSome) = true then
          prepareResult env false n.info (parseKind env (parseR env nn D k) k n) (tick s) else parseKind env (parseR env nn D k) k n (tick s) := by
        cases n <;> first | rfl | exact absurd rfl (hr' _)
      have hkn : kindN env.st.len n + 1 = n.callsN env.st.len := by
        have := callsN_pos env.st.len n hr'
        unfold kindN
        split
        · exact absurd rfl (hr' _)
        · omega
      have hgd : n.guarded env.g nn := by
        have h2 : Node.Ok env.g nn False n := by cases h.ok <;> assumption
        exact h2.2.resolve_left id
      rw [hw, ← hkn]
      split
      · exact (prepare_paid K (fun u hu => kind_paid K ih k n hgd u hu) false n.info (tick s) ht1).imp fun x hx => (htick hx).mono (by cases w <;> simp)
      · exact (kind_paid K ih k n hgd (tick s) ht1).imp fun x hx => (htick hx).mono (by have := Bool.toNat_le (!w); omega)

theorem root_paid (K : Keeps env.ops) {w : Bool} {M : Nat} (hM : ∀ n ∈ env.g.rules, n.callsN env.st.len ≤ M) (k : Nat) (n : Node) (s : St V (H × Nat)) (hroot : n.IsRank)
    (hn : n.All (Node.Ok env.g nn False)) (hi : Inv env nn s) (ht : Tidy s) (hk : need env.st.len D n s.stack.length ≤ k) :
    Gets (parseV env k n s) fun x => Paid w M env.st.len env.g.numRules (n.callsN env.st.len) s x.2 := by
  cases k with
  | zero => trivial
  | succ k =>
    cases n with
    | choice i l =>
      obtain ⟨h1, h2, h3⟩ := hroot
      cases hn with
      | choice _ hl =>
        have hw : ∀ rc : Node → Run V (H × Nat), wrap env rc k (.choice i l) (tick s) = parseAlts env rc l (tick s) := by
          intro rc
          unfold wrap
          dsimp only
          simp only [Node.info, h1, h2, Option.isSome_none, Bool.or_self, Bool.false_eq_true, if_false]
          rfl
        rw [parseV, hw]
        have hle := parseAlts_mono env (parseR_le (env := env) (nn := nn) (D := D) k) l (tick s)
        have hne := parseAlts_holds (parseR_holds hst hg hal hD hnn k) l (tick s) hl hi.tick (Or.inr h3) (by
          intro c hc
          obtain ⟨id, rfl⟩ := h3 c hc
          refine .inr ?_
          show need env.st.len D (.rule id) s.stack.length ≤ k
          unfold need at hk ⊢
          have : 0 < (Node.choice i l).measure := by
            simp only [Node.measure, Node.choice.sizeOf_spec]; omega
          have : (Node.rule id).measure = 0 := rfl
          omega)
        have he := Out.le_eq hle fun ho => hne.of_oof ho
        rw [he]
        refine (alts_paid (parseR_paid hst hg hal hD hnn hc K (w := w) hM k) l (tick s) ⟨ht.table, ht.mask, ht.stack⟩).imp fun x hx => ?_
        refine ⟨⟨hx.tidy, hx.next, hx.stack, hx.same, hx.mask⟩, fun hn => ?_⟩
        have h1 : tally w x.2 + M * (used env.st.len env.g.numRules s).card ≤ tally w (tick s) + callsAllN env.st.len l + M * (used env.st.len env.g.numRules x.2).card := hx.count hn
        have h2 : tally w (tick s) = tally w s + (!w).toNat := by cases w <;> rfl
        have := Bool.toNat_le (!w)
        simp only [Node.callsN]
        omega
    | _ => exact hroot.elim

end
end Joeson
