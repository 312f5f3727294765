import Verif.Proofs.LeftRec2
/-! # The engine refines `lpeg`: growing the seed, rules -/

namespace Joeson
variable {V H : Type}

section
variable {E : PegEnv V} {env : Env V H} {B : Prop} {k d q : Nat} {c : Ctx V}

/-- packrat.go:186: the seed is stored. -/
def seedFrame (v : V) (e : Nat) (f : Frame V) : Frame V := { f with result := some v, endpos := some e }

/-- The growing loop does what `growSeed` says. -/
theorem growLoop_sim {run : Option (V × Nat) → Out (Option (V × Nat))} {fp : Run V H} {a id : Nat} {s : St V H}
    (hi : Inv env (fun _ => False) s) (ha : s.table s.pos id = some a)
    (hf : ∀ v e t, Mid E env a s t → t.pos = s.pos → SeedOk (t.heap a) (.known (some (v, e))) →
      SimR B (NextL E env t) (run (some (v, e))) (fp t)) :
    ∀ (n : Nat) (v : V) (t : St V H), Mid E env a s t → (t.heap a).loopstage = 3 →
      growSeed run n v t.pos = .oof ∨ (B ∧ growLoop env false fp a s.pos n v t = .panic .stackOverflow) ∨
      (∃ e, growSeed run n v t.pos = .panic e ∧ growLoop env false fp a s.pos n v t = .panic e) ∨
      ∃ v' e' t', growSeed run n v t.pos = .ok (some (v', e')) ∧
        growLoop env false fp a s.pos n v t = .ok ((fun _ => none, e', v'), t') ∧ Mid E env a s t' ∧
        SeedOk (t'.heap a) (.known (some (v', e'))) ∧ s.pos ≤ e' ∧ e' ≤ env.st.len
  | 0, _, _, _, _ => Or.inl rfl
  | n + 1, v, t, hmid, hst => by
    have hat := hmid.keep _ _ _ ha
    have hia := hmid.memo.inv.table _ _ _ hat
    have hfo := hmid.memo.inv.frame a hia.1
    have hmask := hfo.mask (by omega)
    rw [growSeed, growLoop, wipeWith_noMask (hmid.memo.mask _ _ _ hat) hmask, Out.bind_ok]
    dsimp only
    rw [show logIf env false (cacheSet a (some v) (some t.pos) t) = .ok () from rfl, Out.bind_ok,
      setPos_eq env hi.pos, Out.bind_ok]
    have hmid2 : Mid E env a s { cacheSet a (some v) (some t.pos) t with pos := s.pos } := by
      refine Mid.upd hi hmid ha (seedFrame v t.pos) rfl rfl rfl ?_ (Nat.le_refl _) hi.pos ?_ rfl
      · refine ⟨hfo.lo, hfo.hi, ?_, hfo.mask, fun _ => rfl, fun _ _ _ h => h.elim⟩
        intro e he
        cases he
        show (t.heap a).pos ≤ _ ∧ _
        rw [hia.2.1]
        exact ⟨hmid.pos, hmid.memo.inv.pos⟩
      · intro h
        have : (t.heap a).loopstage ≤ 0 := h
        omega
    have hseed : SeedOk (({ cacheSet a (some v) (some t.pos) t with pos := s.pos } : St V H).heap a)
        (.known (some (v, t.pos))) := by
      show SeedOk (setHeap t.heap a (seedFrame v t.pos (t.heap a)) a) _
      rw [setHeap_self]
      exact ⟨hst, rfl, rfl⟩
    have hrun := hf v t.pos _ hmid2 rfl hseed
    by_cases ho : run (some (v, t.pos)) = .oof
    · rw [ho]; exact Or.inl rfl
    rcases hrun.cases ho with ⟨hB, h1⟩ | ⟨e, h1, h2⟩ | ⟨r, u, h1, h2, h3⟩
    · rw [h1]; exact Or.inr (Or.inl ⟨hB, rfl⟩)
    · rw [h1, h2]; exact Or.inr (Or.inr (Or.inl ⟨e, rfl, rfl⟩))
    · rw [h1, h2, Out.bind_ok, Out.bind_ok]
      dsimp only
      have hmu := hmid2.step h3
      have hsu : SeedOk (u.heap a) (.known (some (v, t.pos))) := hseed.ext (h3.ext.frame a hia.1)
      cases r with
      | none =>
        refine Or.inr (Or.inr (Or.inr ⟨v, t.pos, u, rfl, ?_, hmu, hsu, hmid.pos, hmid.memo.inv.pos⟩))
        by_cases hc : u.pos ≤ t.pos
        · rw [if_pos hc]
        · rw [if_neg hc]
      | some v' =>
        dsimp only [Option.map_some]
        by_cases hc : u.pos ≤ t.pos
        · rw [if_pos hc, if_pos hc]
          exact Or.inr (Or.inr (Or.inr ⟨v, t.pos, u, rfl, rfl, hmu, hsu, hmid.pos, hmid.memo.inv.pos⟩))
        · rw [if_neg hc, if_neg hc]
          exact growLoop_sim hi ha hf n v' u hmu hsu.1

theorem restoreWith_none (s : St V H) : restoreWith (fun _ => none) s = s := rfl

/-- No tracing of rules nor of left recursion. -/
def QuietL (env : Env V H) : Prop := Quiet env ∧ env.trace.loop = false

theorem lpeg_least (E : PegEnv V) {k id p : Nat} {body : Node} (hb : E.g.rules[id]? = some body) :
    ∀ d, lpeg E (k + 1) d none (.rule id) 0 p ≠ .oof → ∃ d1, d1 < d ∧
      lpeg E (k + 1) d1 none (.rule id) 0 p = .oof ∧ lpeg E (k + 1) (d1 + 1) none (.rule id) 0 p ≠ .oof
  | 0, h => absurd (lpeg_rule_zero E k none 0 p hb) h
  | d + 1, h => by
    by_cases h' : lpeg E (k + 1) d none (.rule id) 0 p = .oof
    · exact ⟨d, by omega, h', h⟩
    · obtain ⟨d1, h1, h2⟩ := lpeg_least E hb d h'
      exact ⟨d1, by omega, h2⟩

/-- What the body of rule `id`, started at `p`, means with seed `x`. -/
def bodyRun (E : PegEnv V) (k d : Nat) (c : Ctx V) (body : Node) (p : Nat) : Out (Option (V × Nat)) :=
  ruleBody E (fun n p' => lpeg E k d c n p p') k body p

theorem bodyRun_mono (E : PegEnv V) (k d : Nat) {c c' : Ctx V} (h : Ctx.le c c') (body : Node) (p : Nat) :
    Out.le (bodyRun E k d c body p) (bodyRun E k d c' body p) :=
  ruleBody_mono E (fun n p' => lpeg_mono E k k d d c c' (by omega) (by omega) h n p p') (Nat.le_refl _) body p

theorem loopify_simL (hq : QuietL env) (hg : env.g = E.g) {id a : Nat} {body : Node}
    (hb : env.g.rules[id]? = some body) {fp : Run V H}
    {s : St V H} (hm : MemoL E env s) (hbz : BusyOof E (k + 1) d s) (ha : s.table s.pos id = some a)
    (hstk : ∃ l, s.stack = a :: l) (hd : B ∨ s.stack.length + (d - 1) ≤ stackCap)
    (hf : ∀ (d1 : Nat) (c : Ctx V) (t : St V H), d1 < d → ML E env B k d1 c s.pos t → t.pos = s.pos →
      SimT B (NextL E env t) HitTop False (bodyRun E k d1 c.low body s.pos) (bodyRun E k d1 c body s.pos) (fp t))
    (hpost : (loopify env k id body.info fp s).Holds True (OkPanic env) (Post env (fun _ => False) False s)) :
    SimR B (NextL E env s) (lpeg E (k + 1) d none (.rule id) 0 s.pos) (loopify env k id body.info fp s) := by
  have hbm : body ∈ env.g.rules := List.mem_of_getElem? hb
  have hid : id < env.g.numRules := by
    unfold Grammar.numRules
    exact (List.getElem?_eq_some_iff.mp hb).1
  have hshow : (env.trace.stack || body.info.debug) = false := by rw [hq.1.1, hq.1.2 body hbm]; rfl
  have hlog : ∀ t : St V H, logIf env false t = .ok () := fun t => rfl
  have hia := hm.inv.table _ _ _ ha
  obtain ⟨l, hl⟩ := hstk
  by_cases hoof : lpeg E (k + 1) d none (.rule id) 0 s.pos = .oof
  · rw [hoof]; exact .oof
  have hbE : E.g.rules[id]? = some body := by rw [← hg]; exact hb
  obtain ⟨d1, hd1, ho1, ho2⟩ := lpeg_least E hbE d hoof
  have ho1k : lpeg E k d1 none (.rule id) 0 s.pos = .oof := by
    rcases lpeg_mono E k (k + 1) d1 d1 none none (by omega) (by omega) trivial (.rule id) 0 s.pos with h | h
    · exact h
    · rw [h]; exact ho1
  have hbz1 : BusyOof E k d1 s := hbz.mono (by omega) (by omega)
  have hd' : B ∨ s.stack.length + d1 ≤ stackCap := hd.imp_right fun h => by omega
  have hres := lpeg_unique E hoof ho2
  have hrule := lpeg_rule_succ E k d1 none 0 s.pos hbE
  dsimp only [lrSeed] at hrule
  -- what happens to the memo table follows from the rest
  have hend : ∀ (r : Option V) (u : St V H), loopify env k id body.info fp s = .ok (r, u) →
      Inv env (fun _ => False) u ∧ Ext env s u := by
    intro r u hx
    rw [hx] at hpost
    exact ⟨hpost.1, hpost.2.1⟩
  rw [hres] at hoof ⊢
  unfold loopify at hend ⊢
  rw [hshow] at hend ⊢
  dsimp only at hend ⊢
  rw [hlog, Out.bind_ok] at hend ⊢
  by_cases hsk : body.info.skipCache = true
  · rw [if_pos hsk] at hrule hend ⊢
    rw [hrule] at hoof ⊢
    have hbody := hf d1 none s hd1 ⟨hm, hbz1, ⟨a, l, hl, hia.2.1, trivial⟩, hd'⟩ rfl
    unfold bodyRun at hbody
    rcases SimR.cases hbody hoof with ⟨hB, h1⟩ | ⟨e, h1, h2⟩ | ⟨r, t, h1, h2, h3⟩
    · rw [h1]; exact Or.inl ⟨hB, rfl⟩
    · rw [h1, h2]; exact .panic
    · rw [h1, Out.bind_ok]
      exact SimR.of rfl h2 h3.1
  · rw [if_neg hsk] at hrule hend ⊢
    rw [hrule] at hoof ⊢
    have hskf : body.info.skipCache = false := by simpa using hsk
    have hgf : getFrame env id s = .ok (a, s) := by
      unfold getFrame
      rw [if_pos ⟨hm.inv.pos, hid⟩, ha]
    rw [hgf, Out.bind_ok] at hend ⊢
    dsimp only at hend ⊢
    have hstage : (s.heap a).loopstage ≤ 0 := by
      by_cases h : (s.heap a).loopstage ≤ 0
      · exact h
      · exact absurd (hbz _ _ _ ha (by omega)) (by rw [hres, hrule]; exact hoof)
    have hdone := hm.good _ _ _ ha hstage
    have hst0 : (if (s.heap a).loopstage < 0 then setStage a 0 s else s) =
        { s with heap := setHeap s.heap a (idleFrame (s.heap a)) } := by
      split
      · rfl
      · have h0 : (s.heap a).loopstage = 0 := by omega
        have : setHeap s.heap a (idleFrame (s.heap a)) = s.heap := by
          funext b
          unfold setHeap
          split
          · rename_i hba
            subst hba
            unfold idleFrame
            rw [← h0]
          · rfl
        rw [this]
    rw [hst0] at hend ⊢
    dsimp only at hend ⊢
    simp only [setHeap_self, idleFrame_loopstage, idleFrame_endpos, idleFrame_result, if_true] at hend ⊢
    have hfo := hm.inv.frame a hia.1
    cases he : (s.heap a).endpos with
    | some e =>
      rw [he] at hend
      dsimp only at hend ⊢
      have hle := hfo.endpos e he
      rw [hlog, Out.bind_ok, setPos_eq env hle.2, Out.bind_ok] at hend ⊢
      obtain ⟨k', d', hk'⟩ := hdone e he
      refine SimR.of rfl ?_ ?_
      · dsimp only
        rw [← hk', ← hrule]
        exact lpeg_unique E ho2 (by rw [hk']; simp)
      · have hmid : Mid E env a s { s with heap := setHeap s.heap a (idleFrame (s.heap a)), pos := e } := by
          refine Mid.upd hm.inv (Mid.refl hm) ha idleFrame rfl rfl rfl ?_ (by rw [← hia.2.1]; exact hle.1) hle.2 ?_ rfl
          · exact ⟨by simp [idleFrame], by simp [idleFrame], hfo.endpos, by simp [idleFrame], hfo.result, hfo.nn⟩
          · intro _; exact hdone
        exact hmid.toNext (hend _ _ rfl).2 (by dsimp only; rw [setHeap_self]; exact Int.le_refl 0)
    | none =>
      rw [he] at hend
      dsimp only at hend ⊢
      have hs2 : cacheSet a none none (setStage a 1
          { s with heap := setHeap s.heap a (idleFrame (s.heap a)) }) =
          { s with heap := setHeap s.heap a (busyFrame (s.heap a)) } := by
        unfold cacheSet setStage updFrame busyFrame idleFrame
        dsimp only
        congr 1
        funext b
        unfold setHeap
        by_cases hba : b = a <;> simp [hba]
      rw [hs2] at hend ⊢
      have hmid2 : Mid E env a s { s with heap := setHeap s.heap a (busyFrame (s.heap a)) } := by
        refine Mid.upd hm.inv (Mid.refl hm) ha busyFrame rfl rfl rfl ?_ (Nat.le_refl _) hm.inv.pos ?_ rfl
        · exact ⟨by simp [busyFrame], by simp [busyFrame], by simp [busyFrame], by simp [busyFrame],
            by simp [busyFrame], by simp [busyFrame]⟩
        · intro h; simp [busyFrame] at h
      have hseed2 : SeedOk (({ s with heap := setHeap s.heap a (busyFrame (s.heap a)) } : St V H).heap a)
          (.known none) := by
        dsimp only
        rw [setHeap_self]
        exact ⟨Or.inl rfl, rfl, rfl⟩
      have hbody := hf d1 (some (id, .known none)) _ hd1
        (hmid2.ml ha hbz1 ho1k hl hseed2 hb hskf hd') rfl
      rw [show (fun x => ruleBody E (fun n p' => lpeg E k d1 (some (id, x)) n s.pos p') k body s.pos) =
        fun x => bodyRun E k d1 (some (id, x)) body s.pos from rfl] at hoof hrule ⊢
      by_cases hoof0 : bodyRun E k d1 (some (id, .known none)) body s.pos = .oof
      · rw [ruleGrow, hoof0] at hoof; exact absurd rfl hoof
      rcases SimR.cases hbody hoof0 with ⟨hB, h1⟩ | ⟨e, h1, h2⟩ | ⟨r, t, h1, h2, h3, h4⟩
      · rw [h1]; exact Or.inl ⟨hB, rfl⟩
      · rw [h2, ruleGrow, h1]; exact .panic
      · rw [h1, Out.bind_ok] at hend ⊢
        dsimp only at hend ⊢
        have hmt := hmid2.step h3
        have hst := hseed2.ext (h3.ext.frame a hia.1)
        have hft := hmt.memo.inv.frame a (hmt.memo.inv.table _ _ _ (hmt.keep _ _ _ ha)).1
        by_cases ht1 : (t.heap a).loopstage = 1
        · -- not left recursive
          rw [if_pos ht1, hlog, Out.bind_ok] at hend ⊢
          have hlow : bodyRun E k d1 (some (id, .unknown)) body s.pos ≠ .oof := by
            intro h
            obtain ⟨b, l', hb1, hb2⟩ := h4 (Or.inl h)
            rw [hmt.stack, hl] at hb1
            cases hb1
            exact hb2 ht1
          have hall : ∀ x, bodyRun E k d1 (some (id, x)) body s.pos =
              bodyRun E k d1 (some (id, .unknown)) body s.pos := fun x =>
            Out.le_eq (bodyRun_mono E k d1 (c := some (id, .unknown)) (c' := some (id, x))
              ⟨rfl, Seed.unknown_le x⟩ body s.pos) hlow
          have hval : ruleGrow (fun x => bodyRun E k d1 (some (id, x)) body s.pos) k = .ok (r.map (·, t.pos)) := by
            have h2' := h2
            rw [hall] at h2'
            unfold ruleGrow at hoof ⊢
            simp only [hall, h2'] at hoof ⊢
            cases r with
            | none => rfl
            | some v =>
              simp only [Option.map_some] at hoof ⊢
              rw [Out.bind_ok] at hoof ⊢
              dsimp only at hoof ⊢
              cases k with
              | zero => exact absurd rfl hoof
              | succ k =>
                rw [growSeed, Out.bind_ok]
                dsimp only
                rw [if_pos (Nat.le_refl _)]
          rw [hval]
          refine SimR.of rfl rfl ?_
          have hu : cacheSet a r (some t.pos) (setStage a 0 t) =
              { t with heap := setHeap t.heap a (doneFrame r t.pos (t.heap a)), pos := t.pos } := by
            unfold cacheSet setStage updFrame doneFrame
            dsimp only
            congr 1
            funext b
            unfold setHeap
            by_cases hba : b = a <;> simp [hba]
          have hxy := (hend _ _ rfl).2
          rw [hu] at hxy ⊢
          refine Mid.toNext ?_ hxy (by dsimp only; rw [setHeap_self]; exact Int.le_refl 0)
          refine Mid.upd hm.inv hmt ha (doneFrame r t.pos) rfl rfl rfl ?_ hmt.pos hmt.memo.inv.pos ?_ rfl
          · refine ⟨by simp [doneFrame], by simp [doneFrame], ?_, by simp [doneFrame], by simp [doneFrame],
              fun _ _ _ h => h.elim⟩
            intro e he
            cases he
            show (t.heap a).pos ≤ _ ∧ _
            rw [hmt.frame a hia.1, hia.2.1]
            exact ⟨hmt.pos, hmt.memo.inv.pos⟩
          · intro _ e he
            cases he
            exact ⟨k + 1, d1 + 1, hrule.trans hval⟩
        · rw [if_neg ht1] at hend ⊢
          have ht2 : (t.heap a).loopstage = 2 := hst.1.resolve_left ht1
          rw [if_pos ht2] at hend ⊢
          have hmk := hft.mask (by omega)
          cases r with
          | none =>
            dsimp only at hend ⊢
            rw [hlog, Out.bind_ok] at hend ⊢
            have hval : ruleGrow (fun x => bodyRun E k d1 (some (id, x)) body s.pos) k = .ok none := by
              unfold ruleGrow
              dsimp only
              rw [h2]
              rfl
            rw [hval]
            refine SimR.of rfl rfl ?_
            refine Mid.toNext ?_ (hend _ _ rfl).2 (by
              show (setHeap t.heap a (idleFrame (t.heap a)) a).loopstage ≤ 0
              rw [setHeap_self]; exact Int.le_refl 0)
            refine Mid.upd hm.inv hmt ha idleFrame rfl rfl rfl ?_ hmt.pos hmt.memo.inv.pos ?_ rfl
            · exact ⟨by simp [idleFrame], by simp [idleFrame], hft.endpos, by simp [idleFrame], hft.result, hft.nn⟩
            · intro _ e he
              rw [show (idleFrame (t.heap a)).endpos = (t.heap a).endpos from rfl, hst.2.2] at he
              cases he
          | some v =>
            have hgrow : ruleGrow (fun x => bodyRun E k d1 (some (id, x)) body s.pos) k =
                growSeed (fun x => bodyRun E k d1 (some (id, .known x)) body s.pos) k v t.pos := by
              unfold ruleGrow
              dsimp only
              rw [h2]
              rfl
            rw [hgrow] at hoof hrule ⊢
            simp only [hq.2, Bool.false_and, Bool.false_eq_true, if_false] at hend ⊢
            have hmt3 : Mid E env a s (setStage a 3 t) := by
              refine Mid.upd hm.inv hmt ha (fun f => { f with loopstage := 3 }) rfl rfl rfl ?_ hmt.pos
                hmt.memo.inv.pos ?_ rfl
              · exact ⟨by dsimp only; omega, by dsimp only; omega, hft.endpos, fun _ => hmk, hft.result, hft.nn⟩
              · intro h; dsimp only at h; omega
            have hst3 : ((setStage a 3 t).heap a).loopstage = 3 := by
              show (setHeap t.heap a _ a).loopstage = 3
              rw [setHeap_self]
            have hloop := growLoop_sim (B := B) (fp := fp)
              (run := fun x => bodyRun E k d1 (some (id, .known x)) body s.pos) hm.inv ha (by
                intro v e u hmu hpu hsu
                have := hf d1 (some (id, .known (some (v, e)))) u hd1 (hmu.ml ha hbz1 ho1k hl hsu hb hskf hd') hpu
                exact SimR.imp this fun _ h => h.1) k v (setStage a 3 t) hmt3 hst3
            rw [show (setStage a 3 t).pos = t.pos from rfl] at hloop
            rcases hloop with h | ⟨hB, h⟩ | ⟨e, h, h'⟩ | ⟨v', e', t', h5, h6, h7, h8, h9, h10⟩
            · exact absurd h hoof
            · rw [h]; exact Or.inl ⟨hB, rfl⟩
            · rw [h, h']; exact .panic
            · rw [h6, Out.bind_ok] at hend ⊢
              rw [h5] at hrule ⊢
              dsimp only at hend ⊢
              have hat' := h7.keep _ _ _ ha
              have hft' := h7.memo.inv.frame a (h7.memo.inv.table _ _ _ hat').1
              rw [Out.bind_ok, wipeWith_noMask (h7.memo.mask _ _ _ hat') (hft'.mask (by rw [h8.1]; omega)), Out.bind_ok]
                at hend ⊢
              dsimp only at hend ⊢
              rw [restoreWith_none, setPos_eq env h10, Out.bind_ok, hlog, Out.bind_ok] at hend ⊢
              refine SimR.of rfl rfl ?_
              refine Mid.toNext ?_ (hend _ _ rfl).2 (by
                show (setHeap t'.heap a (idleFrame (t'.heap a)) a).loopstage ≤ 0
                rw [setHeap_self]; exact Int.le_refl 0)
              refine Mid.upd hm.inv h7 ha idleFrame rfl rfl rfl ?_ h9 h10 ?_ rfl
              · exact ⟨by simp [idleFrame], by simp [idleFrame], hft'.endpos, by simp [idleFrame], hft'.result, hft'.nn⟩
              · intro _ e he
                rw [show (idleFrame (t'.heap a)).endpos = (t'.heap a).endpos from rfl, h8.2.2] at he
                cases he
                refine ⟨k + 1, d1 + 1, hrule.trans ?_⟩
                rw [show (idleFrame (t'.heap a)).result = (t'.heap a).result from rfl, h8.2.1]
                rfl

end
end Joeson
