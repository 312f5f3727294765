import Verif.Proofs.LeftRank3
import Verif.Proofs.LeftRec3
/-! # The engine refines `gpeg`: growing the seed, rules -/

namespace Joeson
variable {V H : Type}

section
variable {X : Privacy} {E : PegEnv V} {env : Env V H} {B : Prop} {k d q : Nat} {c : Ctx V}

/-- Private rules of `id` are not in progress in the middle of it. -/
theorem MidG.privIdle {id a : Nat} {s t : St V H} (h : MidG X E env id a s t) (hpub : X.pv id = false)
    (hnb : ∀ i b, X.pv i = true → X.boss i = id → s.table s.pos i = some b → (s.heap b).loopstage ≤ 0)
    {i b : Nat} (hpv : X.pv i = true) (hbi : X.boss i = id) (hib : t.table s.pos i = some b) :
    b ≠ a ∧ (t.heap b).loopstage ≤ 0 := by
  have hba : b ≠ a := by
    rintro rfl
    have h1 := (h.memo.inv.table _ _ _ hib).2.2.1
    rw [(h.memo.inv.table _ _ _ h.here).2.2.1] at h1
    rw [h1, hpv] at hpub
    cases hpub
  refine ⟨hba, ?_⟩
  by_cases hc : (t.heap b).loopstage ≤ 0
  · exact hc
  · obtain ⟨h1, h2⟩ := h.busy _ _ _ hib hba (by omega)
    have := hnb i b hpv hbi h1
    omega

/-- The growing loop does what `growSeed` says. -/
theorem growLoop_simG (hX : X.Ok E.g) {run : Option (V × Nat) → Out (Option (V × Nat))} {fp : Run V H} {a id : Nat}
    {s : St V H} (hi : Inv env (fun _ => False) s) (ha : s.table s.pos id = some a) (hpub : X.pv id = false)
    (hca : E.g.cached id = true)
    (hnb : ∀ i b, X.pv i = true → X.boss i = id → s.table s.pos i = some b → (s.heap b).loopstage ≤ 0)
    (hf : ∀ v e t, MidG X E env id a s t → t.pos = s.pos → SeedOk (t.heap a) (.known (some (v, e))) →
      SimR B (NextG X E env t) (run (some (v, e))) (fp t)) :
    ∀ (n : Nat) (v : V) (t : St V H), MidG X E env id a s t → (t.heap a).loopstage = 3 →
      growSeed run n v t.pos = .oof ∨ (B ∧ growLoop env false fp a s.pos n v t = .panic .stackOverflow) ∨
      (∃ e, growSeed run n v t.pos = .panic e ∧ growLoop env false fp a s.pos n v t = .panic e) ∨
      ∃ v' e' st t', growSeed run n v t.pos = .ok (some (v', e')) ∧
        growLoop env false fp a s.pos n v t = .ok ((st, e', v'), t') ∧ MidG X E env id a s t' ∧
        SeedOk (t'.heap a) (.known (some (v', e'))) ∧ s.pos ≤ e' ∧ e' ≤ env.st.len ∧
        ∀ i b, st i = some b → X.pv i = true ∧ X.boss i = id ∧ (t'.heap b).pos = s.pos ∧ (t'.heap b).loopstage ≤ 0
  | 0, _, _, _, _ => Or.inl rfl
  | n + 1, v, t, hmid, hst => by
    have hia := hmid.memo.inv.table _ _ _ hmid.here
    have hfo := hmid.memo.inv.frame a hia.1
    obtain ⟨m, hm⟩ := Option.isSome_iff_exists.mp (hfo.mask (by omega))
    have hwe := wipeWith_eq hm
    rw [hia.2.1] at hwe
    rw [growSeed, growLoop, hwe, Out.bind_ok]
    dsimp only
    rw [show (wiped t s.pos m).pos = t.pos from rfl,
      show logIf env false (cacheSet a (some v) (some t.pos) (wiped t s.pos m)) = .ok () from rfl, Out.bind_ok,
      setPos_eq env hi.pos, Out.bind_ok]
    have hmw := hmid.wipe hX hpub hnb hm
    have hheap : (wiped t s.pos m).heap a = t.heap a := rfl
    have hmid2 : MidG X E env id a s { cacheSet a (some v) (some t.pos) (wiped t s.pos m) with pos := s.pos } := by
      refine MidG.upd hX hi hmw ha hca (seedFrame v t.pos) rfl rfl rfl ?_ (Nat.le_refl _) hi.pos ?_ ?_ ?_ ?_ ?_ rfl
      · rw [hheap]
        refine ⟨hfo.lo, hfo.hi, ?_, hfo.mask, fun _ => rfl, fun _ _ _ h => h.elim⟩
        intro e he
        cases he
        show (t.heap a).pos ≤ _ ∧ _
        rw [hia.2.1]
        exact ⟨hmid.pos, hmid.memo.inv.pos⟩
      · intro h; rw [hpub] at h; cases h
      · intro _ h
        have : (t.heap a).loopstage ≤ 0 := h
        omega
      · intro _ h
        have : (t.heap a).loopstage ≤ 0 := h
        omega
      · intro h; rw [hpub] at h; cases h
      · intro _
        refine Or.inr ⟨fun h => ?_, Or.inr fun i hp hb hmk => ?_⟩
        · have : (t.heap a).loopstage ≤ 0 := h.1
          omega
        · obtain ⟨m', hm1, hm2⟩ := hmk
          rw [hheap, hm] at hm1
          cases hm1
          show (if s.pos = s.pos ∧ m i = true then none else t.table s.pos i) = none
          rw [if_pos ⟨rfl, hm2⟩]
    have hseed : SeedOk (({ cacheSet a (some v) (some t.pos) (wiped t s.pos m) with pos := s.pos } : St V H).heap a)
        (.known (some (v, t.pos))) := by
      show SeedOk (setHeap t.heap a (seedFrame v t.pos (t.heap a)) a) _
      rw [setHeap_self]
      exact ⟨hst, rfl, rfl⟩
    have hrun := hf v t.pos _ hmid2 rfl hseed
    by_cases ho : run (some (v, t.pos)) = .oof
    · rw [ho]; exact Or.inl rfl
    rcases hrun.cases ho with ⟨hB, h1⟩ | ⟨e, h1, h2⟩ | ⟨r, u, h1, h2, h3⟩
    · rw [h1]; exact Or.inr (Or.inl ⟨hB, rfl⟩)
    · rw [h1, h2]; exact Or.inr (Or.inr (Or.inl ⟨e, rfl, rfl⟩))
    · rw [h1, h2, Out.bind_ok, Out.bind_ok]
      dsimp only
      have hmu := hmid2.step hi (Or.inl hpub) h3
      have hsu : SeedOk (u.heap a) (.known (some (v, t.pos))) := hseed.ext (h3.ext.frame a hia.1)
      have hstash : ∀ i b, (fun i => if m i then t.table s.pos i else none) i = some b →
          X.pv i = true ∧ X.boss i = id ∧ (u.heap b).pos = s.pos ∧ (u.heap b).loopstage ≤ 0 := by
        intro i b hib
        dsimp only at hib
        split at hib
        case isFalse => cases hib
        rename_i hmi
        have hpi := hmid.memo.mask a hia.1 i ⟨m, hm, hmi⟩
        rw [hia.2.2.1] at hpi
        obtain ⟨h4, h5⟩ := hmid.privIdle hpub hnb hpi.1 hpi.2 hib
        have hib' := hmid.memo.inv.table _ _ _ hib
        have hfe := h3.ext.frame b hib'.1
        have hheq : ({ cacheSet a (some v) (some t.pos) (wiped t s.pos m) with pos := s.pos } : St V H).heap b = t.heap b :=
          setHeap_ne _ _ h4
        rw [hheq] at hfe
        exact ⟨hpi.1, hpi.2, hfe.pos.trans hib'.2.1, hfe.st0 h5⟩
      cases r with
      | none =>
        refine Or.inr (Or.inr (Or.inr ⟨v, t.pos, _, u, rfl, ?_, hmu, hsu, hmid.pos, hmid.memo.inv.pos, hstash⟩))
        by_cases hc : u.pos ≤ t.pos
        · rw [if_pos hc]
        · rw [if_neg hc]
      | some v' =>
        dsimp only [Option.map_some]
        by_cases hc : u.pos ≤ t.pos
        · rw [if_pos hc, if_pos hc]
          exact Or.inr (Or.inr (Or.inr ⟨v, t.pos, _, u, rfl, rfl, hmu, hsu, hmid.pos, hmid.memo.inv.pos, hstash⟩))
        · rw [if_neg hc, if_neg hc]
          exact growLoop_simG hX hi ha hpub hca hnb hf n v' u hmu hsu.1

theorem gpeg_least (pv : Nat → Bool) (E : PegEnv V) {k id q p : Nat} {body : Node} (hb : E.g.rules[id]? = some body) :
    ∀ d, gpeg pv E (k + 1) d c (.rule id) q p ≠ .oof → ∃ d1, d1 < d ∧
      gpeg pv E (k + 1) d1 c (.rule id) q p = .oof ∧ gpeg pv E (k + 1) (d1 + 1) c (.rule id) q p ≠ .oof
  | 0, h => absurd (gpeg_rule_zero pv E k c q p hb) h
  | d + 1, h => by
    by_cases h' : gpeg pv E (k + 1) d c (.rule id) q p = .oof
    · exact ⟨d, by omega, h', h⟩
    · obtain ⟨d1, h1, h2⟩ := gpeg_least pv E hb d h'
      exact ⟨d1, by omega, h2⟩

/-- What the body of a rule, started at `p`, means in context `c`. -/
def bodyRunG (pv : Nat → Bool) (E : PegEnv V) (k d : Nat) (c : Ctx V) (body : Node) (p : Nat) : Out (Option (V × Nat)) :=
  ruleBody E (fun n p' => gpeg pv E k d c n p p') k body p

theorem bodyRunG_mono (pv : Nat → Bool) (E : PegEnv V) (k d : Nat) {c c' : Ctx V} (h : Ctx.le c c') (body : Node) (p : Nat) :
    Out.le (bodyRunG pv E k d c body p) (bodyRunG pv E k d c' body p) :=
  ruleBody_mono E (fun n p' => gpeg_mono pv E k k d d c c' (by omega) (by omega) h n p p') (Nat.le_refl _) body p

theorem seedOf_idle {f : Frame V} (h : f.loopstage ≠ 3) : seedOf f = none := by
  unfold seedOf
  rw [if_neg h]

/-- Inside the body of a rule that is not private. -/
theorem MidG.mg (hX : X.Ok E.g) {a id d1 : Nat} {s t : St V H} {x : Option (V × Nat)} (hi : Inv env (fun _ => False) s)
    (h : MidG X E env id a s t) (hpub : X.pv id = false) (hca : E.g.cached id = true)
    (hbz : BusyG X E k d1 s) (hoof : gpeg X.pv E k d1 none (.rule id) 0 s.pos = .oof) {l : List Nat}
    (hstk : s.stack = a :: l) (hx : SeedOk (t.heap a) (.known x)) (hd : B ∨ s.stack.length + d1 ≤ stackCap) :
    MG X E env B k d1 (some (id, .known x)) s.pos id t := by
  have hia := h.memo.inv.table _ _ _ h.here
  have hsd : seedAt t s.pos id = x := by
    unfold seedAt
    rw [h.here]
    exact hx.seedOf
  refine ⟨h.memo, ?_, ⟨id, a, ?_, ?_, fun _ => ⟨h.here, ?_⟩⟩, ?_⟩
  · exact h.busyG hX hi hbz (fun _ => hoof) fun h => by rw [hpub] at h; cases h
  · rw [h.stack, hstk]
    exact .pub hpub hia.2.2.1 hia.2.1
  · unfold ctxAt
    rw [if_pos hca, hsd]
  · rw [hsd]; exact hx
  · rw [h.stack]; exact hd

theorem loopify_simG (hX : X.Ok E.g) (hq : QuietL env) (hg : env.g = E.g) {id a : Nat} {body : Node}
    (hb : env.g.rules[id]? = some body) (hpub : X.pv id = false) {fp : Run V H}
    {s : St V H} (hm : MemoG X E env s) (hbz : BusyG X E (k + 1) d s) (ha : s.table s.pos id = some a)
    (hstk : ∃ l, s.stack = a :: l) (hd : B ∨ s.stack.length + (d - 1) ≤ stackCap)
    (hf : ∀ (d1 : Nat) (c : Ctx V) (t : St V H), d1 < d → MG X E env B k d1 c s.pos id t → t.pos = s.pos →
      SimT B (NextG X E env t) (HitG X) False (bodyRunG X.pv E k d1 c.low body s.pos) (bodyRunG X.pv E k d1 c body s.pos)
        (fp t))
    (hpost : (loopify env k id body.info fp s).Holds True (OkPanic env) (Post env (fun _ => False) False s)) :
    SimR B (NextG X E env s) (gpeg X.pv E (k + 1) d none (.rule id) 0 s.pos) (loopify env k id body.info fp s) := by
  have hbm : body ∈ env.g.rules := List.mem_of_getElem? hb
  have hid : id < env.g.numRules := by
    unfold Grammar.numRules
    exact (List.getElem?_eq_some_iff.mp hb).1
  have hshow : (env.trace.stack || body.info.debug) = false := by rw [hq.1.1, hq.1.2 body hbm]; rfl
  have hlog : ∀ t : St V H, logIf env false t = .ok () := fun t => rfl
  have hia := hm.inv.table _ _ _ ha
  have hnpv : ∀ {P : Prop}, X.pv id = true → P := fun h => by rw [hpub] at h; cases h
  obtain ⟨l, hl⟩ := hstk
  by_cases hoof : gpeg X.pv E (k + 1) d none (.rule id) 0 s.pos = .oof
  · rw [hoof]; exact .oof
  have hbE : E.g.rules[id]? = some body := by rw [← hg]; exact hb
  obtain ⟨d1, hd1, ho1, ho2⟩ := gpeg_least X.pv E hbE d hoof
  have ho1k : gpeg X.pv E k d1 none (.rule id) 0 s.pos = .oof := by
    rcases gpeg_mono X.pv E k (k + 1) d1 d1 none none (by omega) (by omega) trivial (.rule id) 0 s.pos with h | h
    · exact h
    · rw [h]; exact ho1
  have hbz1 : BusyG X E k d1 s := hbz.mono (by omega) (by omega)
  have hd' : B ∨ s.stack.length + d1 ≤ stackCap := hd.imp_right fun h => by omega
  have hres := gpeg_unique X.pv E hoof ho2
  have hrule := gpeg_pub X.pv E k d1 none 0 s.pos hbE hpub
  dsimp only [lrSeed] at hrule
  -- what happens to the memo table follows from the rest
  have hend : ∀ (r : Option V) (u : St V H), loopify env k id body.info fp s = .ok (r, u) →
      Inv env (fun _ => False) u ∧ Ext env s u := by
    intro r u hx
    rw [hx] at hpost
    exact ⟨hpost.1, hpost.2.1⟩
  rw [hres] at hoof ⊢
  unfold loopify at hend ⊢
  rw [hshow] at hend ⊢
  dsimp only at hend ⊢
  rw [hlog, Out.bind_ok] at hend ⊢
  by_cases hsk : body.info.skipCache = true
  · rw [if_pos hsk] at hrule hend ⊢
    rw [hrule] at hoof ⊢
    have hca : E.g.cached id = false := by unfold Grammar.cached; rw [hbE]; simp [hsk]
    have hbody := hf d1 none s hd1 ⟨hm, hbz1, ⟨id, a, by rw [hl]; exact .pub hpub hia.2.2.1 hia.2.1, by
      unfold ctxAt; rw [hca]; rfl, fun h => by rw [hca] at h; cases h⟩, hd'⟩ rfl
    unfold bodyRunG at hbody
    rcases SimR.cases hbody hoof with ⟨hB, h1⟩ | ⟨e, h1, h2⟩ | ⟨r, t, h1, h2, h3⟩
    · rw [h1]; exact Or.inl ⟨hB, rfl⟩
    · rw [h1, h2]; exact .panic
    · rw [h1, Out.bind_ok]
      exact SimR.of rfl h2 h3.1
  · rw [if_neg hsk] at hrule hend ⊢
    rw [hrule] at hoof ⊢
    have hca : E.g.cached id = true := by unfold Grammar.cached; rw [hbE]; simp [hsk]
    have hgf : getFrame env id s = .ok (a, s) := by
      unfold getFrame
      rw [if_pos ⟨hm.inv.pos, hid⟩, ha]
    rw [hgf, Out.bind_ok] at hend ⊢
    dsimp only at hend ⊢
    have hstage : (s.heap a).loopstage ≤ 0 := by
      by_cases h : (s.heap a).loopstage ≤ 0
      · exact h
      · exact absurd (hbz.pub _ _ _ hpub ha (by omega)) (by rw [hres, hrule]; exact hoof)
    have hnb : ∀ i b, X.pv i = true → X.boss i = id → s.table s.pos i = some b → (s.heap b).loopstage ≤ 0 :=
      fun i b h1 h2 h3 => hbz.idle ha hstage hca h1 h2 h3
    have hdone := hm.good _ _ _ hpub ha hstage
    have hrefl := MidG.refl hm ha hstage
    have hst0 : (if (s.heap a).loopstage < 0 then setStage a 0 s else s) =
        { s with heap := setHeap s.heap a (idleFrame (s.heap a)) } := by
      split
      · rfl
      · have h0 : (s.heap a).loopstage = 0 := by omega
        have : setHeap s.heap a (idleFrame (s.heap a)) = s.heap := by
          funext b
          unfold setHeap
          split
          · rename_i hba
            subst hba
            unfold idleFrame
            rw [← h0]
          · rfl
        rw [this]
    rw [hst0] at hend ⊢
    dsimp only at hend ⊢
    simp only [setHeap_self, idleFrame_loopstage, idleFrame_endpos, idleFrame_result, if_true] at hend ⊢
    have hfo := hm.inv.frame a hia.1
    cases he : (s.heap a).endpos with
    | some e =>
      rw [he] at hend
      dsimp only at hend ⊢
      have hle := hfo.endpos e he
      rw [hlog, Out.bind_ok, setPos_eq env hle.2, Out.bind_ok] at hend ⊢
      obtain ⟨k', d', hk'⟩ := hdone e he
      refine SimR.of rfl ?_ ?_
      · dsimp only
        rw [← hk', ← hrule]
        exact gpeg_unique X.pv E ho2 (by rw [hk']; simp)
      · have hmid : MidG X E env id a s { s with heap := setHeap s.heap a (idleFrame (s.heap a)), pos := e } := by
          refine MidG.upd hX hm.inv hrefl ha hca idleFrame rfl rfl rfl ?_ (by rw [← hia.2.1]; exact hle.1) hle.2
            hnpv ?_ ?_ hnpv ?_ rfl
          · exact ⟨by simp [idleFrame], by simp [idleFrame], hfo.endpos, by simp [idleFrame], hfo.result, hfo.nn⟩
          · intro _ _; exact hdone
          · intro _ _ h
            rw [show (idleFrame (s.heap a)).endpos = (s.heap a).endpos from rfl, he] at h
            cases h
          · intro _
            exact Or.inl ⟨Int.le_refl 0, by show (s.heap a).endpos ≠ none; rw [he]; simp⟩
        exact hmid.toNext hm.inv (hend _ _ rfl).2 (by dsimp only; rw [setHeap_self]; exact Int.le_refl 0)
    | none =>
      rw [he] at hend
      dsimp only at hend ⊢
      have hs2 : cacheSet a none none (setStage a 1
          { s with heap := setHeap s.heap a (idleFrame (s.heap a)) }) =
          { s with heap := setHeap s.heap a (busyFrame (s.heap a)) } := by
        unfold cacheSet setStage updFrame busyFrame idleFrame
        dsimp only
        congr 1
        funext b
        unfold setHeap
        by_cases hba : b = a <;> simp [hba]
      rw [hs2] at hend ⊢
      have hmid2 : MidG X E env id a s { s with heap := setHeap s.heap a (busyFrame (s.heap a)) } := by
        refine MidG.upd hX hm.inv hrefl ha hca busyFrame rfl rfl rfl ?_ (Nat.le_refl _) hm.inv.pos hnpv ?_ ?_ hnpv ?_ rfl
        · exact ⟨by simp [busyFrame], by simp [busyFrame], by simp [busyFrame], by simp [busyFrame],
            by simp [busyFrame], by simp [busyFrame]⟩
        · intro _ h; simp [busyFrame] at h
        · intro _ h; simp [busyFrame] at h
        · intro _
          refine Or.inr ⟨fun h => h.2 he, Or.inl ?_⟩
          rw [seedOf_idle (f := s.heap a) (by omega), seedOf_idle (by simp [busyFrame])]
      have hseed2 : SeedOk (({ s with heap := setHeap s.heap a (busyFrame (s.heap a)) } : St V H).heap a)
          (.known none) := by
        dsimp only
        rw [setHeap_self]
        exact ⟨Or.inl rfl, rfl, rfl⟩
      have hbody := hf d1 (some (id, .known none)) _ hd1
        (hmid2.mg hX hm.inv hpub hca hbz1 ho1k hl hseed2 hd') rfl
      rw [show (fun x => ruleBody E (fun n p' => gpeg X.pv E k d1 (some (id, x)) n s.pos p') k body s.pos) =
        fun x => bodyRunG X.pv E k d1 (some (id, x)) body s.pos from rfl] at hoof hrule ⊢
      by_cases hoof0 : bodyRunG X.pv E k d1 (some (id, .known none)) body s.pos = .oof
      · rw [ruleGrow, hoof0] at hoof; exact absurd rfl hoof
      rcases SimR.cases hbody hoof0 with ⟨hB, h1⟩ | ⟨e, h1, h2⟩ | ⟨r, t, h1, h2, h3, h4⟩
      · rw [h1]; exact Or.inl ⟨hB, rfl⟩
      · rw [h2, ruleGrow, h1]; exact .panic
      · rw [h1, Out.bind_ok] at hend ⊢
        dsimp only at hend ⊢
        have hmt := hmid2.step hm.inv (Or.inl hpub) h3
        have hst := hseed2.ext (h3.ext.frame a hia.1)
        have hit := hmt.memo.inv.table _ _ _ hmt.here
        have hft := hmt.memo.inv.frame a hit.1
        by_cases ht1 : (t.heap a).loopstage = 1
        · -- not left recursive, or known to fail
          rw [if_pos ht1, hlog, Out.bind_ok] at hend ⊢
          have hmask : (t.heap a).wipemask = (s.heap a).wipemask := by
            have := h3.same a hia.1 (by dsimp only; rw [setHeap_self]; rfl) ht1
            dsimp only at this
            rw [setHeap_self] at this
            exact this
          have hval : ruleGrow (fun x => bodyRunG X.pv E k d1 (some (id, x)) body s.pos) k = .ok (r.map (·, t.pos)) := by
            by_cases hlow : bodyRunG X.pv E k d1 (some (id, .unknown)) body s.pos = .oof
            · obtain ⟨q', j', b', ab', hu, hm1, -⟩ := h4 (Or.inl hlow)
              have hu2 : Under X t.heap s.pos t.stack id id a := by
                rw [hmt.stack, hl]
                exact .pub hpub hit.2.2.1 hit.2.1
              obtain ⟨-, -, -, rfl⟩ := hu.det hu2
              rw [hmask] at hm1
              obtain ⟨k', d', hk'⟩ := hm.nil _ _ _ hpub ha hstage he hm1
              have := gpeg_unique X.pv E (n := .rule id) (c := none) (q := 0) (p := s.pos) (k := k + 1) (d := d1 + 1) ho2
                (by rw [hk']; simp)
              rw [hk', hrule] at this
              rw [this]
              unfold ruleGrow at this
              dsimp only at this
              rw [h2, Out.bind_ok] at this
              cases r with
              | none => rfl
              | some v =>
                exfalso
                dsimp only [Option.map_some] at this
                have hg : ∀ (run : Option (V × Nat) → Out (Option (V × Nat))) k v e, growSeed run k v e ≠ .ok none := by
                  intro run k
                  induction k with
                  | zero => intro v e h; cases h
                  | succ k ih =>
                    intro v e h
                    rw [growSeed] at h
                    cases hr : run (some (v, e)) with
                    | oof => rw [hr] at h; cases h
                    | panic e => rw [hr] at h; cases h
                    | ok x =>
                      rw [hr, Out.bind_ok] at h
                      match x, h with
                      | none, h => cases h
                      | some (v', e'), h =>
                        dsimp only at h
                        split at h
                        · cases h
                        · exact ih v' e' h
                exact hg _ _ _ _ this
            · have hall : ∀ x, bodyRunG X.pv E k d1 (some (id, x)) body s.pos =
                  bodyRunG X.pv E k d1 (some (id, .unknown)) body s.pos := fun x =>
                Out.le_eq (bodyRunG_mono X.pv E k d1 (c := some (id, .unknown)) (c' := some (id, x))
                  ⟨rfl, Seed.unknown_le x⟩ body s.pos) hlow
              have h2' := h2
              rw [hall] at h2'
              unfold ruleGrow at hoof ⊢
              simp only [hall, h2'] at hoof ⊢
              cases r with
              | none => rfl
              | some v =>
                simp only [Option.map_some] at hoof ⊢
                rw [Out.bind_ok] at hoof ⊢
                dsimp only at hoof ⊢
                cases k with
                | zero => exact absurd rfl hoof
                | succ k =>
                  rw [growSeed, Out.bind_ok]
                  dsimp only
                  rw [if_pos (Nat.le_refl _)]
          rw [hval]
          refine SimR.of rfl rfl ?_
          have hu : cacheSet a r (some t.pos) (setStage a 0 t) =
              { t with heap := setHeap t.heap a (doneFrame r t.pos (t.heap a)), pos := t.pos } := by
            unfold cacheSet setStage updFrame doneFrame
            dsimp only
            congr 1
            funext b
            unfold setHeap
            by_cases hba : b = a <;> simp [hba]
          have hxy := (hend _ _ rfl).2
          rw [hu] at hxy ⊢
          refine MidG.toNext (id := id) ?_ hm.inv hxy (by dsimp only; rw [setHeap_self]; exact Int.le_refl 0)
          refine MidG.upd hX hm.inv hmt ha hca (doneFrame r t.pos) rfl rfl rfl ?_ hmt.pos hmt.memo.inv.pos hnpv ?_ ?_ hnpv ?_ rfl
          · refine ⟨by simp [doneFrame], by simp [doneFrame], ?_, by simp [doneFrame], by simp [doneFrame],
              fun _ _ _ h => h.elim⟩
            intro e he
            cases he
            show (t.heap a).pos ≤ _ ∧ _
            rw [hit.2.1]
            exact ⟨hmt.pos, hmt.memo.inv.pos⟩
          · intro _ _ e he
            cases he
            exact ⟨k + 1, d1 + 1, hrule.trans hval⟩
          · intro _ _ h; cases h
          · intro _
            exact Or.inl ⟨Int.le_refl 0, by simp [doneFrame]⟩
        · rw [if_neg ht1] at hend ⊢
          have ht2 : (t.heap a).loopstage = 2 := hst.1.resolve_left ht1
          rw [if_pos ht2] at hend ⊢
          have hmk := hft.mask (by omega)
          cases r with
          | none =>
            dsimp only at hend ⊢
            rw [hlog, Out.bind_ok] at hend ⊢
            have hval : ruleGrow (fun x => bodyRunG X.pv E k d1 (some (id, x)) body s.pos) k = .ok none := by
              unfold ruleGrow
              dsimp only
              rw [h2]
              rfl
            rw [hval]
            refine SimR.of rfl rfl ?_
            refine MidG.toNext (id := id) ?_ hm.inv (hend _ _ rfl).2 (by
              show (setHeap t.heap a (idleFrame (t.heap a)) a).loopstage ≤ 0
              rw [setHeap_self]; exact Int.le_refl 0)
            refine MidG.upd hX hm.inv hmt ha hca idleFrame rfl rfl rfl ?_ hmt.pos hmt.memo.inv.pos hnpv ?_ ?_ hnpv ?_ rfl
            · exact ⟨by simp [idleFrame], by simp [idleFrame], hft.endpos, by simp [idleFrame], hft.result, hft.nn⟩
            · intro _ _ e he
              rw [show (idleFrame (t.heap a)).endpos = (t.heap a).endpos from rfl, hst.2.2] at he
              cases he
            · intro _ _ _ _
              exact ⟨k + 1, d1 + 1, hrule.trans hval⟩
            · intro _
              refine Or.inr ⟨fun h => ?_, Or.inl ?_⟩
              · have := h.1; omega
              · rw [seedOf_idle (f := t.heap a) (by omega), seedOf_idle (by simp [idleFrame])]
          | some v =>
            have hgrow : ruleGrow (fun x => bodyRunG X.pv E k d1 (some (id, x)) body s.pos) k =
                growSeed (fun x => bodyRunG X.pv E k d1 (some (id, .known x)) body s.pos) k v t.pos := by
              unfold ruleGrow
              dsimp only
              rw [h2]
              rfl
            rw [hgrow] at hoof hrule ⊢
            simp only [hq.2, Bool.false_and, Bool.false_eq_true, if_false] at hend ⊢
            have hmt3 : MidG X E env id a s (setStage a 3 t) := by
              refine MidG.upd hX hm.inv hmt ha hca (fun f => { f with loopstage := 3 }) rfl rfl rfl ?_ hmt.pos
                hmt.memo.inv.pos hnpv ?_ ?_ hnpv ?_ rfl
              · exact ⟨by dsimp only; omega, by dsimp only; omega, hft.endpos, fun _ => hmk, hft.result, hft.nn⟩
              · intro _ h; dsimp only at h; omega
              · intro _ h; dsimp only at h; omega
              · intro _
                refine Or.inr ⟨fun h => ?_, Or.inl ?_⟩
                · have := h.1; omega
                · rw [seedOf_idle (f := t.heap a) (by omega)]
                  unfold seedOf
                  dsimp only
                  rw [hst.2.1]
                  rfl
            have hst3 : ((setStage a 3 t).heap a).loopstage = 3 := by
              show (setHeap t.heap a _ a).loopstage = 3
              rw [setHeap_self]
            have hloop := growLoop_simG (B := B) (fp := fp) hX
              (run := fun x => bodyRunG X.pv E k d1 (some (id, .known x)) body s.pos) hm.inv ha hpub hca hnb (by
                intro v e u hmu hpu hsu
                have := hf d1 (some (id, .known (some (v, e)))) u hd1
                  (hmu.mg hX hm.inv hpub hca hbz1 ho1k hl hsu hd') hpu
                exact SimR.imp this fun _ h => h.1) k v (setStage a 3 t) hmt3 hst3
            rw [show (setStage a 3 t).pos = t.pos from rfl] at hloop
            rcases hloop with h | ⟨hB, h⟩ | ⟨e, h, h'⟩ | ⟨v', e', st, t', h5, h6, h7, h8, h9, h10, h11⟩
            · exact absurd h hoof
            · rw [h]; exact Or.inl ⟨hB, rfl⟩
            · rw [h, h']; exact .panic
            · rw [h6, Out.bind_ok] at hend ⊢
              rw [h5] at hrule ⊢
              dsimp only at hend ⊢
              have hit' := h7.memo.inv.table _ _ _ h7.here
              have hft' := h7.memo.inv.frame a hit'.1
              obtain ⟨m, hmm⟩ := Option.isSome_iff_exists.mp (hft'.mask (by rw [h8.1]; omega))
              have hwe := wipeWith_eq hmm
              rw [hit'.2.1] at hwe
              rw [Out.bind_ok, hwe, Out.bind_ok] at hend ⊢
              dsimp only at hend ⊢
              rw [setPos_eq env h10, Out.bind_ok, hlog, Out.bind_ok] at hend ⊢
              refine SimR.of rfl rfl ?_
              obtain ⟨hinv, hext⟩ := hend _ _ rfl
              refine MidG.toNext (id := id) ?_ hm.inv hext (by
                show (setHeap t'.heap a (idleFrame (t'.heap a)) a).loopstage ≤ 0
                rw [setHeap_self]; exact Int.le_refl 0)
              refine MidG.finish hX h7 hpub hca hnb hmm h11 idleFrame rfl rfl rfl h9 ?_ ?_ hinv rfl
              · refine ⟨Int.le_refl 0, ?_⟩
                show (t'.heap a).endpos ≠ none
                rw [h8.2.2]
                simp
              · intro e he
                rw [show (idleFrame (t'.heap a)).endpos = (t'.heap a).endpos from rfl, h8.2.2] at he
                cases he
                refine ⟨k + 1, d1 + 1, hrule.trans ?_⟩
                rw [show (idleFrame (t'.heap a)).result = (t'.heap a).result from rfl, h8.2.1]
                rfl

end
end Joeson
