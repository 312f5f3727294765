import Verif.Proofs.LeftRank4
/-! # The engine refines `gpeg`: private rules -/

namespace Joeson
variable {V H : Type}

section
variable {X : Privacy} {E : PegEnv V} {env : Env V H} {B : Prop} {k d q : Nat} {c : Ctx V}

theorem Under.owner {heap : Nat → Frame V} (hX : X.Ok E.g) {id b ab : Nat} {l : List Nat} (hprv : X.pv id = true)
    (h : Under X heap q l (X.owner id) b ab) : X.boss id = b := by
  rw [hX.boss id hprv]
  rcases h.boss_eq hX with ⟨h1, h2⟩ | ⟨h1, h2⟩
  · rw [if_pos h1, h2]
  · rw [if_neg (by rw [h1]; simp), h2]

/-- Inside the body of a private rule. -/
theorem MidG.mgP (hX : X.Ok E.g) {a id d1 b ab : Nat} {s t : St V H} (hi : Inv env (fun _ => False) s)
    (h : MidG X E env id a s t) (hprv : X.pv id = true) {l : List Nat} (hstk : s.stack = a :: l)
    (hu : Under X s.heap s.pos l (X.owner id) b ab) (hc : c = ctxAt E s s.pos b)
    (hbc : E.g.cached b = true → s.table s.pos b = some ab ∧ SeedOk (s.heap ab) (.known (seedAt s s.pos b)))
    (hbz : BusyG X E k d1 s) (hoof : gpeg X.pv E k d1 c (.rule id) s.pos s.pos = .oof)
    (hd : B ∨ s.stack.length + d1 ≤ stackCap) : MG X E env B k d1 c s.pos id t := by
  have hia := h.memo.inv.table _ _ _ h.here
  have hbid := hu.owner hX hprv
  have hbm := hu.boss_mem
  have hac : Active E s s.pos b := fun hcb => ⟨ab, (hbc hcb).1, (hbc hcb).2.ge1⟩
  obtain ⟨hctx, -⟩ := h.ctx hi hbm.2.2.2 hac
  refine ⟨h.memo, ?_, ⟨b, ab, ?_, hc.trans hctx.symm, fun hcb => ?_⟩, ?_⟩
  · refine h.busyG hX hi hbz (fun h => by rw [hprv] at h; cases h) fun _ => ?_
    rw [hbid, ← hc]
    exact ⟨hoof, hac⟩
  · rw [h.stack, hstk]
    refine .priv (hu.of_eq fun x hx => ?_) hprv hia.2.2.1 hia.2.1 rfl
    have := h.frame x (hi.stack x (by rw [hstk]; exact List.mem_cons_of_mem _ hx)).1
    exact ⟨this.2, this.1⟩
  · obtain ⟨h1, h2⟩ := hbc hcb
    have hsd : seedAt t s.pos b = seedAt s s.pos b := by
      unfold ctxAt at hctx
      rw [if_pos hcb, if_pos hcb] at hctx
      simpa using hctx
    rw [hsd]
    refine ⟨h.keep _ _ _ h1 (Or.inl hbm.2.2.2), h2.ext (h.ext ab (hi.table _ _ _ h1).1 ?_)⟩
    rintro rfl
    have := h2.ge1
    have := h.idle
    omega
  · rw [h.stack]; exact hd

theorem loopify_simP (hX : X.Ok E.g) (hq : QuietL env) (hg : env.g = E.g) {id a : Nat} {body : Node}
    (hb : env.g.rules[id]? = some body) (hprv : X.pv id = true) {fp : Run V H}
    {s : St V H} (hm : MemoG X E env s) (hbz : BusyG X E (k + 1) d s) (ha : s.table s.pos id = some a)
    {l : List Nat} (hl : s.stack = a :: l) {b ab : Nat} (hu : Under X s.heap s.pos l (X.owner id) b ab)
    (hc : c = ctxAt E s s.pos b)
    (hbc : E.g.cached b = true → s.table s.pos b = some ab ∧ SeedOk (s.heap ab) (.known (seedAt s s.pos b)))
    (hd : B ∨ s.stack.length + (d - 1) ≤ stackCap)
    (hf : ∀ (d1 : Nat) (t : St V H), d1 < d → MG X E env B k d1 c s.pos id t → t.pos = s.pos →
      SimT B (NextG X E env t) (HitG X) False (bodyRunG X.pv E k d1 c.low body s.pos) (bodyRunG X.pv E k d1 c body s.pos)
        (fp t))
    (hpost : (loopify env k id body.info fp s).Holds True (OkPanic env) (Post env (fun _ => False) False s)) :
    SimT B (NextG X E env s) (HitG X) False (gpeg X.pv E (k + 1) d c.low (.rule id) s.pos s.pos)
      (gpeg X.pv E (k + 1) d c (.rule id) s.pos s.pos) (loopify env k id body.info fp s) := by
  have hbm : body ∈ env.g.rules := List.mem_of_getElem? hb
  have hid : id < env.g.numRules := by
    unfold Grammar.numRules
    exact (List.getElem?_eq_some_iff.mp hb).1
  have hshow : (env.trace.stack || body.info.debug) = false := by rw [hq.1.1, hq.1.2 body hbm]; rfl
  have hlog : ∀ t : St V H, logIf env false t = .ok () := fun t => rfl
  have hia := hm.inv.table _ _ _ ha
  have hnpv : ∀ {P : Prop}, X.pv id = false → P := fun h => by rw [hprv] at h; cases h
  by_cases hoof : gpeg X.pv E (k + 1) d c (.rule id) s.pos s.pos = .oof
  · rw [hoof]; exact SimR.oof
  have hbE : E.g.rules[id]? = some body := by rw [← hg]; exact hb
  obtain ⟨d1, hd1, ho1, ho2⟩ := gpeg_least X.pv E hbE d hoof
  have ho1k : gpeg X.pv E k d1 c (.rule id) s.pos s.pos = .oof := by
    rcases gpeg_mono X.pv E k (k + 1) d1 d1 c c (by omega) (by omega) (Ctx.le_refl _) (.rule id) s.pos s.pos with h | h
    · exact h
    · rw [h]; exact ho1
  have hbz1 : BusyG X E k d1 s := hbz.mono (by omega) (by omega)
  have hd' : B ∨ s.stack.length + d1 ≤ stackCap := hd.imp_right fun h => by omega
  have hres := gpeg_unique X.pv E hoof ho2
  have hrule : ∀ c', gpeg X.pv E (k + 1) (d1 + 1) c' (.rule id) s.pos s.pos = bodyRunG X.pv E k d1 c' body s.pos :=
    fun c' => gpeg_priv X.pv E k d1 c' s.pos hbE hprv
  have hbid := hu.owner hX hprv
  have hub := hu.boss_mem
  have hac : Active E s s.pos b := fun hcb => ⟨ab, (hbc hcb).1, (hbc hcb).2.ge1⟩
  have hupush : Under X s.heap s.pos s.stack id b ab := by
    rw [hl]; exact .priv hu hprv hia.2.2.1 hia.2.1 rfl
  -- the smaller bounds
  have hlowd : gpeg X.pv E (k + 1) d c.low (.rule id) s.pos s.pos = .oof →
      bodyRunG X.pv E k d1 c.low body s.pos = .oof := fun h => by
    rw [← hrule]
    rcases gpeg_mono X.pv E (k + 1) (k + 1) (d1 + 1) d c.low c.low (by omega) (by omega) (Ctx.le_refl _) (.rule id)
      s.pos s.pos with h' | h'
    · exact h'
    · rw [h']; exact h
  -- what happens to the memo table follows from the rest
  have hend : ∀ (r : Option V) (u : St V H), loopify env k id body.info fp s = .ok (r, u) →
      Inv env (fun _ => False) u ∧ Ext env s u := by
    intro r u hx
    rw [hx] at hpost
    exact ⟨hpost.1, hpost.2.1⟩
  rw [hres] at hoof ⊢
  rw [hrule] at hoof ⊢
  unfold loopify at hend ⊢
  rw [hshow] at hend ⊢
  dsimp only at hend ⊢
  rw [hlog, Out.bind_ok] at hend ⊢
  by_cases hsk : body.info.skipCache = true
  · rw [if_pos hsk] at hend ⊢
    have hmg : MG X E env B k d1 c s.pos id s := by
      refine ⟨hm, hbz1, ⟨b, ab, hupush, hc, hbc⟩, hd'⟩
    have hbody := hf d1 s hd1 hmg rfl
    rcases SimR.cases hbody hoof with ⟨hB, h1⟩ | ⟨e, h1, h2⟩ | ⟨r, t, h1, h2, h3⟩
    · rw [h1]; exact Or.inl ⟨hB, rfl⟩
    · rw [h1, h2]; exact SimR.panic
    · rw [h1, Out.bind_ok]
      exact SimR.of rfl h2 ⟨h3.1, fun h => h3.2 (Or.inl (hlowd (h.resolve_right fun h => h)))⟩
  · rw [if_neg hsk] at hend ⊢
    have hca : E.g.cached id = true := by unfold Grammar.cached; rw [hbE]; simp [hsk]
    have hgf : getFrame env id s = .ok (a, s) := by
      unfold getFrame
      rw [if_pos ⟨hm.inv.pos, hid⟩, ha]
    rw [hgf, Out.bind_ok] at hend ⊢
    dsimp only at hend ⊢
    have hstage : (s.heap a).loopstage ≤ 0 := by
      by_cases h : (s.heap a).loopstage ≤ 0
      · exact h
      · have := (hbz.priv _ _ _ hprv ha (by omega)).1
        rw [hbid, ← hc] at this
        exact absurd this (by rw [hres, hrule]; exact hoof)
    have hrefl := MidG.refl hm ha hstage
    have hst0 : (if (s.heap a).loopstage < 0 then setStage a 0 s else s) =
        { s with heap := setHeap s.heap a (idleFrame (s.heap a)) } := by
      split
      · rfl
      · have h0 : (s.heap a).loopstage = 0 := by omega
        have : setHeap s.heap a (idleFrame (s.heap a)) = s.heap := by
          funext b
          unfold setHeap
          split
          · rename_i hba
            subst hba
            unfold idleFrame
            rw [← h0]
          · rfl
        rw [this]
    rw [hst0] at hend ⊢
    dsimp only at hend ⊢
    simp only [setHeap_self, idleFrame_loopstage, idleFrame_endpos, idleFrame_result, if_true] at hend ⊢
    have hfo := hm.inv.frame a hia.1
    cases he : (s.heap a).endpos with
    | some e =>
      rw [he] at hend
      dsimp only at hend ⊢
      have hle := hfo.endpos e he
      rw [hlog, Out.bind_ok, setPos_eq env hle.2, Out.bind_ok] at hend ⊢
      have hopen : Opened E s s.pos (X.boss id) := by
        rw [hbid]
        by_cases hcb : E.g.cached b = true
        · refine Or.inr fun x hx hdn => ?_
          rw [(hbc hcb).1] at hx
          cases hx
          have := (hbc hcb).2.ge1
          have := hdn.1
          omega
        · exact Or.inl (by simpa using hcb)
      obtain ⟨c', k', d', hcc, hk'⟩ := hm.priv _ _ _ hprv ha hstage e he hopen
      rw [hbid, ← hc] at hcc
      have hle' : Ctx.le c' c := by
        rcases hcc with h | ⟨-, h⟩
        · rw [h]; exact c.low_le
        · rw [h]; exact Ctx.le_refl _
      have hkc : gpeg X.pv E k' d' c (.rule id) s.pos s.pos = .ok ((s.heap a).result.map (·, e)) := by
        have := Out.le_eq (gpeg_mono X.pv E k' k' d' d' c' c (by omega) (by omega) hle' (.rule id) s.pos s.pos)
          (by rw [hk']; simp)
        rw [this, hk']
      have hmid : MidG X E env id a s { s with heap := setHeap s.heap a (idleFrame (s.heap a)), pos := e } := by
        refine MidG.upd hX hm.inv hrefl ha hca idleFrame rfl rfl rfl ?_ (by rw [← hia.2.1]; exact hle.1) hle.2
          ?_ hnpv hnpv ?_ hnpv rfl
        · exact ⟨by simp [idleFrame], by simp [idleFrame], hfo.endpos, by simp [idleFrame], hfo.result, hfo.nn⟩
        · intro _; simp [idleFrame]
        · intro _ _ e' he'
          exact hm.priv _ _ _ hprv ha hstage e' he'
      have hnext := hmid.toNext hm.inv (hend _ _ rfl).2 (by dsimp only; rw [setHeap_self]; exact Int.le_refl 0)
      refine SimR.of rfl ?_ ⟨hnext, fun h => ?_⟩
      · dsimp only
        rw [← hkc, ← hrule]
        exact gpeg_unique X.pv E ho2 (by rw [hkc]; simp)
      · have h := h.resolve_right fun h => h
        rcases hcc with h' | ⟨⟨x, hx, hmk⟩, -⟩
        · rw [h'] at hk'
          refine absurd h (gpeg_stable c.low_le (K := k') (D := d') (by rw [hk']; simp) ?_)
          rw [hres, hrule]
          exact hoof
        · have hh : HitG X s := by
            refine ⟨s.pos, id, b, ab, hupush, ?_, fun _ => ?_⟩
            · by_cases hcb : E.g.cached b = true
              · rw [(hbc hcb).1] at hx
                cases hx
                obtain ⟨m, hm1, -⟩ := hmk
                rw [hm1]; rfl
              · -- without cache there is no seed
                exfalso
                have : c.low = c := by rw [hc]; unfold ctxAt; rw [if_neg hcb]; rfl
                rw [this, hres, hrule] at h
                exact hoof h
            · by_cases hcb : E.g.cached b = true
              · rw [(hbc hcb).1] at hx
                cases hx
                exact hmk
              · exfalso
                have : c.low = c := by rw [hc]; unfold ctxAt; rw [if_neg hcb]; rfl
                rw [this, hres, hrule] at h
                exact hoof h
          exact hh.next hm.inv hnext
    | none =>
      rw [he] at hend
      dsimp only at hend ⊢
      have hs2 : cacheSet a none none (setStage a 1
          { s with heap := setHeap s.heap a (idleFrame (s.heap a)) }) =
          { s with heap := setHeap s.heap a (busyFrame (s.heap a)) } := by
        unfold cacheSet setStage updFrame busyFrame idleFrame
        dsimp only
        congr 1
        funext b
        unfold setHeap
        by_cases hba : b = a <;> simp [hba]
      rw [hs2] at hend ⊢
      have hmid2 : MidG X E env id a s { s with heap := setHeap s.heap a (busyFrame (s.heap a)) } := by
        refine MidG.upd hX hm.inv hrefl ha hca busyFrame rfl rfl rfl ?_ (Nat.le_refl _) hm.inv.pos ?_ hnpv hnpv ?_ hnpv rfl
        · exact ⟨by simp [busyFrame], by simp [busyFrame], by simp [busyFrame], by simp [busyFrame],
            by simp [busyFrame], by simp [busyFrame]⟩
        · intro _; simp [busyFrame]
        · intro _ h; simp [busyFrame] at h
      have hst2 : (({ s with heap := setHeap s.heap a (busyFrame (s.heap a)) } : St V H).heap a).loopstage = 1 := by
        dsimp only
        rw [setHeap_self]
        rfl
      have hbody := hf d1 _ hd1 (hmid2.mgP hX hm.inv hprv hl hu hc hbc hbz1 ho1k hd') rfl
      rcases SimR.cases hbody hoof with ⟨hB, h1⟩ | ⟨e, h1, h2⟩ | ⟨r, t, h1, h2, h3, h4⟩
      · rw [h1]; exact Or.inl ⟨hB, rfl⟩
      · rw [h2, h1]; exact SimR.panic
      · rw [h1, Out.bind_ok] at hend ⊢
        dsimp only at hend ⊢
        have hmt := hmid2.step hm.inv (Or.inr (by rw [hst2]; exact Int.le_refl 1)) h3
        have hit := hmt.memo.inv.table _ _ _ hmt.here
        have hlo := hmt.memo.low a hit.1 (by rw [hit.2.2.1]; exact hprv)
        have hge := (h3.ext.frame a hia.1).ge1 (by rw [hst2]; exact Int.le_refl 1)
        have ht1 : (t.heap a).loopstage = 1 := by omega
        rw [if_pos ht1, hlog, Out.bind_ok] at hend ⊢
        have hu' : cacheSet a r (some t.pos) (setStage a 0 t) =
            { t with heap := setHeap t.heap a (doneFrame r t.pos (t.heap a)), pos := t.pos } := by
          unfold cacheSet setStage updFrame doneFrame
          dsimp only
          congr 1
          funext b
          unfold setHeap
          by_cases hba : b = a <;> simp [hba]
        have hxy := (hend _ _ rfl).2
        rw [hu'] at hxy ⊢
        obtain ⟨hctx, -⟩ := hmt.ctx hm.inv hub.2.2.2 hac
        -- the left recursive call, if any, is in the mask
        have hhit : HitG X t → (t.heap ab).wipemask.isSome ∧ Masked (t.heap ab) id := by
          rintro ⟨q', j', b', ab', hu1, hm1, hm2⟩
          have hu2 : Under X t.heap s.pos t.stack id b ab := by
            rw [hmt.stack]
            refine hupush.of_eq fun x hx => ?_
            have := hmt.frame x (hm.inv.stack x hx).1
            exact ⟨this.2, this.1⟩
          obtain ⟨-, rfl, -, rfl⟩ := hu1.det hu2
          exact ⟨hm1, hm2 hprv⟩
        have hmid3 : MidG X E env id a s
            { t with heap := setHeap t.heap a (doneFrame r t.pos (t.heap a)), pos := t.pos } := by
          refine MidG.upd hX hm.inv hmt ha hca (doneFrame r t.pos) rfl rfl rfl ?_ hmt.pos hmt.memo.inv.pos ?_ hnpv hnpv ?_
            hnpv rfl
          · refine ⟨by simp [doneFrame], by simp [doneFrame], ?_, by simp [doneFrame], by simp [doneFrame],
              fun _ _ _ h => h.elim⟩
            intro e he
            cases he
            show (t.heap a).pos ≤ _ ∧ _
            rw [hit.2.1]
            exact ⟨hmt.pos, hmt.memo.inv.pos⟩
          · intro _; simp [doneFrame]
          · intro _ _ e he _
            cases he
            rw [hbid, hctx, ← hc]
            by_cases hlow : bodyRunG X.pv E k d1 c.low body s.pos = .oof
            · refine ⟨c, k + 1, d1 + 1, Or.inr ⟨?_, rfl⟩, (hrule c).trans h2⟩
              by_cases hcb : E.g.cached b = true
              · exact ⟨ab, hmt.keep _ _ _ (hbc hcb).1 (Or.inl hub.2.2.2), (hhit (h4 (Or.inl hlow))).2⟩
              · exfalso
                have : c.low = c := by rw [hc]; unfold ctxAt; rw [if_neg hcb]; rfl
                rw [this] at hlow
                exact hoof hlow
            · refine ⟨c.low, k + 1, d1 + 1, Or.inl rfl, ?_⟩
              rw [hrule, ← Out.le_eq (bodyRunG_mono X.pv E k d1 c.low_le body s.pos) hlow]
              exact h2
        refine SimR.of rfl h2 ⟨MidG.toNext (id := id) hmid3 hm.inv hxy
          (by dsimp only; rw [setHeap_self]; exact Int.le_refl 0), fun h => ?_⟩
        have hh := h4 (Or.inl (hlowd (h.resolve_right fun h => h)))
        obtain ⟨hm1, hm2⟩ := hhit hh
        have hhb : ∀ x, ((setHeap t.heap a (doneFrame r t.pos (t.heap a))) x).wipemask = (t.heap x).wipemask := by
          intro x
          by_cases hx : x = a
          · subst hx; rw [setHeap_self]; rfl
          · rw [setHeap_ne _ _ hx]
        refine ⟨s.pos, id, b, ab, ?_, ?_, fun _ => ?_⟩
        · dsimp only
          rw [hmt.stack]
          refine hupush.of_eq fun x hx => ?_
          have h5 := hmt.frame x (hm.inv.stack x hx).1
          by_cases hxa : x = a
          · subst hxa; rw [setHeap_self]; exact ⟨h5.2, h5.1⟩
          · rw [setHeap_ne _ _ hxa]; exact ⟨h5.2, h5.1⟩
        · dsimp only; rw [hhb]; exact hm1
        · dsimp only
          obtain ⟨m, h5, h6⟩ := hm2
          exact ⟨m, by rw [hhb]; exact h5, h6⟩

end
end Joeson
