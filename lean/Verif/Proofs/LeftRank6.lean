import Verif.Proofs.LeftRank5
import Verif.Proofs.LeftRec4
/-! # The engine refines `gpeg`: the whole parser -/

namespace Joeson
variable {V H : Type}

theorem Node.All.both {P Q : Node → Prop} {n : Node} (h : n.All P) (h' : n.All Q) : n.All fun n => P n ∧ Q n := by
  induction h with
  | str h => cases h' with | str h' => exact .str ⟨h, h'⟩
  | regex h => cases h' with | regex h' => exact .regex ⟨h, h'⟩
  | choice h _ ih => cases h' with | choice h' hl => exact .choice ⟨h, h'⟩ fun c hc => ih c hc (hl c hc)
  | seq h _ ih => cases h' with | seq h' hl => exact .seq ⟨h, h'⟩ fun c hc => ih c hc (hl c hc)
  | exist h _ ih => cases h' with | exist h' hl => exact .exist ⟨h, h'⟩ (ih hl)
  | look h _ ih => cases h' with | look h' hl => exact .look ⟨h, h'⟩ (ih hl)
  | not h _ ih => cases h' with | not h' hl => exact .not ⟨h, h'⟩ (ih hl)
  | pattern h _ _ ih ih' =>
    cases h' with | pattern h' hv hj => exact .pattern ⟨h, h'⟩ (ih hv) fun c hc => ih' c hc (hj c hc)
  | ref h => cases h' with | ref h' => exact .ref ⟨h, h'⟩
  | rule h => cases h' with | rule h' => exact .rule ⟨h, h'⟩

section
variable {X : Privacy} {E : PegEnv V} {env : Env V H} {B : Prop} {k d q j : Nat} {c : Ctx V}

/-- The wipe mask of a left recursive call: the private rules between the call and its rule. -/
theorem collectMask_under (hX : X.Ok E.g) {heap : Nat → Frame V} {l : List Nat} {b ab : Nat}
    (h : Under X heap q l j b ab) : ∀ m : Nat → Bool, ∃ M, collectMask heap q b l m = .ok M ∧
      (∀ i, m i = true → M i = true) ∧
      (∀ i, M i = true → m i = true ∨ (X.pv i = true ∧ X.boss i = b ∧ (X.pv (X.owner i) = true → M (X.owner i) = true))) ∧
      (X.pv j = true → M j = true) := by
  induction h with
  | pub h1 h2 h3 =>
    intro m
    refine ⟨m, ?_, fun _ h => h, fun _ h => Or.inl h, fun h => by rw [h1] at h; cases h⟩
    unfold collectMask
    rw [if_neg (by omega), if_pos (Or.inr h2)]
  | @priv a l i j b ab hu h1 h2 h3 h4 ih =>
    intro m
    obtain ⟨M, hM, hM1, hM2, hM3⟩ := ih fun i' => if i' = (heap a).id then true else m i'
    refine ⟨M, ?_, ?_, ?_, ?_⟩
    · unfold collectMask
      rw [if_neg (by omega), if_neg]
      · exact hM
      · rintro (h | h)
        · omega
        · rw [h2] at h
          have := hu.boss_mem.2.2.2
          rw [← h, h1] at this
          cases this
    · intro i' hi'
      refine hM1 i' ?_
      split
      · rfl
      · exact hi'
    · intro i' hi'
      rcases hM2 i' hi' with h | h
      · split at h
        · rename_i hii
          rw [h2] at hii
          subst hii
          refine Or.inr ⟨h1, ?_, ?_⟩
          · subst h4
            exact hu.owner hX h1
          · rw [h4]; exact hM3
        · exact Or.inl h
      · exact Or.inr h
    · intro _
      refine hM1 i ?_
      rw [h2, if_pos rfl]

/-- A left recursive call answers with the seed. -/
theorem hit_simG (hX : X.Ok E.g) (hq : QuietL env) (hg : env.g = E.g) {id : Nat} {x : Option (V × Nat)} {s : St V H}
    (hm : MemoG X E env s) (ht : TopG X E s (some (id, .known x)) s.pos j)
    (hd : B ∨ s.stack.length + (d + 1) ≤ stackCap) :
    SimR B (fun s' => NextG X E env s s' ∧ HitG X s') (.ok x) (parse env (k + 1) (.rule id) s) := by
  obtain ⟨b, top, hun, hctx, hbc⟩ := ht
  obtain ⟨hca, rfl, hsd⟩ : E.g.cached b = true ∧ b = id ∧ seedAt s s.pos b = x := by
    unfold ctxAt at hctx
    split at hctx
    · rename_i h
      simp only [Option.some.injEq, Prod.mk.injEq, Seed.known.injEq] at hctx
      exact ⟨h, hctx.1.symm, hctx.2.symm⟩
    · cases hctx
  obtain ⟨h4, h5⟩ := hbc hca
  rw [hsd] at h5
  have hia := hm.inv.table _ _ _ h4
  have hfo := hm.inv.frame top hia.1
  have hid := hia.2.2.2.2
  have hpub := hun.boss_mem.2.2.2
  obtain ⟨body, hb⟩ : ∃ body, env.g.rules[b]? = some body := by
    unfold Grammar.numRules at hid
    exact ⟨_, List.getElem?_eq_getElem hid⟩
  have hsk : body.info.skipCache = false := by
    unfold Grammar.cached at hca
    rw [← hg, hb] at hca
    simpa using hca
  rw [parse]
  unfold wrap
  dsimp only
  rw [hb]
  dsimp only
  have hgf : ∀ l, getFrame env b { s with stack := l } = .ok (top, { s with stack := l }) := by
    intro l
    unfold getFrame
    rw [if_pos ⟨hm.inv.pos, hid⟩]
    dsimp only
    rw [h4]
  unfold stackPush
  rw [show getFrame env b s = .ok (top, s) from hgf s.stack, Out.bind_ok]
  dsimp only
  by_cases hlt : s.stack.length < stackCap
  case neg =>
    rw [if_neg hlt]
    exact Or.inl ⟨hd.resolve_right (by omega), rfl⟩
  rw [if_pos hlt, Out.bind_ok]
  have hshow : (env.trace.stack || body.info.debug) = false := by
    rw [hq.1.1, hq.1.2 body (List.mem_of_getElem? hb)]; rfl
  have hlog : ∀ t : St V H, logIf env false t = .ok () := fun t => rfl
  have hge : 1 ≤ (s.heap top).loopstage ∧ (s.heap top).loopstage ≤ 3 := ⟨h5.ge1, hfo.hi⟩
  obtain ⟨m, hcm0, hm1, hm2, hm3⟩ := collectMask_under hX hun ((s.heap top).wipemask.getD fun _ => false)
  have hupd : updFrame top (fun f => { f with wipemask := some m })
      (if (s.heap top).loopstage = 1 then setStage top 2 { s with stack := top :: s.stack }
        else { s with stack := top :: s.stack }) =
      { s with stack := top :: s.stack, heap := setHeap s.heap top (hitFrame m (s.heap top)) } := by
    have : ∀ u : St V H, u = { s with stack := top :: s.stack, heap := u.heap } → (∀ b, b ≠ top → u.heap b = s.heap b) →
        { u.heap top with wipemask := some m } = hitFrame m (s.heap top) →
        updFrame top (fun f => { f with wipemask := some m }) u =
        { s with stack := top :: s.stack, heap := setHeap s.heap top (hitFrame m (s.heap top)) } := by
      intro u h1 h2 h3
      unfold updFrame
      dsimp only at h3 ⊢
      rw [h3]
      obtain ⟨a1, a2, a3, a4, a5, a6, a7, a8, a9⟩ := u
      dsimp only at h1 h2 ⊢
      cases h1
      congr 1
      funext b
      unfold setHeap
      by_cases hba : b = top
      · simp [hba]
      · simp [hba, h2 b hba]
    apply this
    · split <;> rfl
    · intro b hb'
      split
      · exact setHeap_ne _ _ hb'
      · rfl
    · unfold hitFrame
      split
      · unfold setStage updFrame
        dsimp only
        rw [setHeap_self]
      · rfl
  have hcmh : ∀ (heap : Nat → Frame V), (∀ a, (heap a).pos = (s.heap a).pos ∧ (heap a).id = (s.heap a).id) →
      ∀ l m, collectMask heap s.pos b l m = collectMask s.heap s.pos b l m := by
    intro heap hh l
    induction l with
    | nil => intro m; rfl
    | cons a l ih =>
      intro m
      unfold collectMask
      rw [(hh a).1, (hh a).2, ih]
  have hloop : loopify env k b body.info
      (prepareResult env true body.info (parseKind env (parse env k) k body)) { s with stack := top :: s.stack } =
      (match (s.heap top).endpos with
      | some e => do
        let t ← setPos env e { s with stack := top :: s.stack, heap := setHeap s.heap top (hitFrame m (s.heap top)) }
        .ok ((s.heap top).result, t)
      | none => .ok ((s.heap top).result,
          { s with stack := top :: s.stack, heap := setHeap s.heap top (hitFrame m (s.heap top)) })) := by
    unfold loopify
    rw [hshow, hsk]
    dsimp only
    rw [hlog, Out.bind_ok]
    simp only [Bool.false_eq_true, if_false]
    rw [hgf, Out.bind_ok]
    dsimp only
    rw [if_neg (show ¬ (s.heap top).loopstage < 0 by omega)]
    dsimp only
    rw [if_neg (show ¬ (s.heap top).loopstage = 0 by omega), if_pos (show (s.heap top).loopstage = 1 ∨
      (s.heap top).loopstage = 2 ∨ (s.heap top).loopstage = 3 by omega), hlog, Out.bind_ok]
    have hcm : collectMask (if (s.heap top).loopstage = 1 then setStage top 2 { s with stack := top :: s.stack }
        else { s with stack := top :: s.stack }).heap s.pos b
        (if (s.heap top).loopstage = 1 then setStage top 2 { s with stack := top :: s.stack }
        else { s with stack := top :: s.stack }).stack.tail
        (((if (s.heap top).loopstage = 1 then setStage top 2 { s with stack := top :: s.stack }
        else { s with stack := top :: s.stack }).heap top).wipemask.getD fun _ => false) = .ok m := by
      have : ∀ t : St V H, (∀ a, (t.heap a).pos = (s.heap a).pos ∧ (t.heap a).id = (s.heap a).id) →
          (t.heap top).wipemask = (s.heap top).wipemask → t.stack = top :: s.stack →
          collectMask t.heap s.pos b t.stack.tail ((t.heap top).wipemask.getD fun _ => false) = .ok m := by
        intro t a1 a3 a4
        rw [a3, a4, List.tail_cons, hcmh _ a1]
        exact hcm0
      apply this
      · intro a
        split
        · show (setHeap _ _ _ a).pos = _ ∧ (setHeap _ _ _ a).id = _
          by_cases ha : a = top
          · subst ha; rw [setHeap_self]; exact ⟨rfl, rfl⟩
          · rw [setHeap_ne _ _ ha]; exact ⟨rfl, rfl⟩
        · exact ⟨rfl, rfl⟩
      · split
        · show (setHeap _ _ _ top).wipemask = _
          rw [setHeap_self]
        · rfl
      · split <;> rfl
    rw [hcm, Out.bind_ok, hupd]
    dsimp only
    rw [setHeap_self]
    rfl
  rw [hloop]
  have hfe : FrameExt (s.heap top) (hitFrame m (s.heap top)) := by
    constructor
    · rfl
    · rfl
    · intro h; omega
    · intro h; right; unfold hitFrame; simp [h]
    · intro h; unfold hitFrame; simp [h]
    · intro h; unfold hitFrame; simp [h]
    · intro h; unfold hitFrame; dsimp only; split <;> omega
    · intro h; omega
    · intro _; exact ⟨rfl, rfl⟩
    · intro _; rfl
  have hst1 : 1 ≤ (hitFrame m (s.heap top)).loopstage := hfe.ge1 hge.1
  have hgrow : ∀ i, Masked (s.heap top) i → Masked (hitFrame m (s.heap top)) i := by
    rintro i ⟨m0, h6, h7⟩
    refine ⟨m, rfl, hm1 i ?_⟩
    rw [h6]
    exact h7
  have hold : ∀ i, ((s.heap top).wipemask.getD fun _ => false) i = true → Masked (s.heap top) i := by
    intro i hi
    cases hw : (s.heap top).wipemask with
    | none => rw [hw] at hi; cases hi
    | some m0 => rw [hw] at hi; exact ⟨m0, hw, hi⟩
  -- the state afterwards
  have hsame : ∀ p i, SameAt E s { s with heap := setHeap s.heap top (hitFrame m (s.heap top)) } p i := by
    intro p i
    by_cases hpi : p = s.pos ∧ i = b
    · obtain ⟨rfl, rfl⟩ := hpi
      refine ⟨fun _ => Or.inr fun a ha hdn => ?_, ?_, ?_⟩
      · rw [h4] at ha
        cases ha
        have := hdn.1
        omega
      · unfold ctxAt seedAt
        dsimp only
        rw [h4]
        dsimp only
        rw [setHeap_self, seedOf_ext hge.1 hge.2 hfe]
      · rintro i ⟨a, ha, hmk⟩
        refine ⟨a, ha, ?_⟩
        rw [h4] at ha
        cases ha
        dsimp only
        rw [setHeap_self]
        exact hgrow i hmk
    · refine SameAt.of_entry rfl fun a ha => setHeap_ne _ _ ?_
      rintro rfl
      have h' := hm.inv.table _ _ _ ha
      exact hpi ⟨h'.2.1.symm.trans hia.2.1, h'.2.2.1.symm.trans hia.2.2.1⟩
  have hnext : NextG X E env s { s with heap := setHeap s.heap top (hitFrame m (s.heap top)) } := by
    refine ⟨Ext.upd s top (hitFrame m) hfe, fun hm' => ⟨?_, ?_, ?_, ?_, ?_, ?_, ?_⟩, fun _ _ _ h _ => h, ?_, ?_, ?_, ?_⟩
    · refine Inv.upd hm'.inv top (hitFrame m) rfl rfl ?_
      refine ⟨by omega, by unfold hitFrame; dsimp only; split <;> omega, hfo.endpos, fun _ => rfl, hfo.result, hfo.nn⟩
    · intro a ha i
      dsimp only
      by_cases hbt : a = top
      · subst hbt
        rw [setHeap_self]
        rintro ⟨m', hm', hi'⟩
        cases hm'
        show _ ∧ _ = (s.heap a).id
        rcases hm2 i hi' with h | h
        · exact hm.mask a ha i (hold i h)
        · rw [hia.2.2.1]; exact ⟨h.1, h.2.1⟩
      · rw [setHeap_ne _ _ hbt]; exact hm'.mask a ha i
    · intro a ha i
      dsimp only
      by_cases hbt : a = top
      · subst hbt
        rw [setHeap_self]
        rintro ⟨m', hm', hi'⟩ hpo
        cases hm'
        refine ⟨m, rfl, ?_⟩
        rcases hm2 i hi' with h | h
        · obtain ⟨m0, h6, h7⟩ := hm.up a ha i (hold i h) hpo
          refine hm1 _ ?_
          rw [h6]
          exact h7
        · exact h.2.2 hpo
      · rw [setHeap_ne _ _ hbt]; exact hm'.up a ha i
    · intro a ha
      dsimp only
      by_cases hbt : a = top
      · subst hbt
        rw [setHeap_self]
        show X.pv (s.heap a).id = true → _
        rw [hia.2.2.1, hpub]
        intro h; cases h
      · rw [setHeap_ne _ _ hbt]; exact hm'.low a ha
    · intro p i a hpv ha hle
      dsimp only at ha hle ⊢
      by_cases hbt : a = top
      · subst hbt; rw [setHeap_self] at hle; omega
      · rw [setHeap_ne _ _ hbt] at hle ⊢; exact hm'.good p i a hpv ha hle
    · intro p i a hpv ha hle
      dsimp only at ha hle ⊢
      by_cases hbt : a = top
      · subst hbt; rw [setHeap_self] at hle; omega
      · rw [setHeap_ne _ _ hbt] at hle ⊢; exact hm'.nil p i a hpv ha hle
    · intro p i a hpv ha
      dsimp only at ha
      have hbt : a ≠ top := by
        rintro rfl
        have h' := hm.inv.table _ _ _ ha
        rw [hia.2.2.1] at h'
        rw [← h'.2.2.1, hpub] at hpv
        cases hpv
      show PrivOk X E _ p i (setHeap s.heap top _ a)
      rw [setHeap_ne _ _ hbt]
      exact (hm'.priv p i a hpv ha).same (hsame _ _)
    · intro p i a ha h
      dsimp only
      by_cases hbt : a = top
      · subst hbt; rw [setHeap_self]; exact hst1
      · rw [setHeap_ne _ _ hbt]; exact h
    · intro p i a ha hle
      dsimp only at ha hle
      by_cases hbt : a = top
      · subst hbt; exact ⟨ha, hge.1⟩
      · rw [setHeap_ne _ _ hbt] at hle; exact ⟨ha, hle⟩
    · intro a ha i hmk
      dsimp only
      by_cases hbt : a = top
      · subst hbt; rw [setHeap_self]; exact hgrow i hmk
      · rw [setHeap_ne _ _ hbt]; exact hmk
    · intro a ha h6 h7
      dsimp only at h7 ⊢
      by_cases hbt : a = top
      · subst hbt
        rw [setHeap_self] at h7
        unfold hitFrame at h7
        simp [h6] at h7
      · rw [setHeap_ne _ _ hbt]
  have hhit : HitG X { s with heap := setHeap s.heap top (hitFrame m (s.heap top)) } := by
    refine ⟨s.pos, j, b, top, ?_, ?_, fun hp => ?_⟩
    · refine hun.of_eq fun a ha => ?_
      dsimp only
      by_cases hbt : a = top
      · subst hbt; rw [setHeap_self]; exact ⟨rfl, rfl⟩
      · rw [setHeap_ne _ _ hbt]; exact ⟨rfl, rfl⟩
    · dsimp only; rw [setHeap_self]; rfl
    · dsimp only; rw [setHeap_self]; exact ⟨m, rfl, hm3 hp⟩
  match x, h5 with
  | none, ⟨h5, h6, h7⟩ =>
    rw [h7, h6]
    exact SimR.fail ⟨hnext, hhit⟩
  | some (v, e), ⟨h5, h6, h7⟩ =>
    rw [h7]
    dsimp only
    have hle := hfo.endpos e h7
    rw [setPos_eq env hle.2, h6]
    exact SimR.val rfl ⟨hnext.reset (s' := { s with heap := setHeap s.heap top (hitFrame m (s.heap top)) })
      (by rw [← hia.2.1]; exact hle.1) hle.2, hhit⟩

/-- Leaving a private rule. -/
theorem HitG.pop {t : St V H} (hm : MemoG X E env t) {a : Nat} {l : List Nat} (hl : t.stack = a :: l)
    (hp : X.pv (t.heap a).id = true) (h : HitG X t) : HitG X (stackPop t) := by
  obtain ⟨q, j, b, ab, hu, h1, h2⟩ := h
  rw [hl] at hu
  cases hu with
  | pub h3 h4 _ => rw [h4, h3] at hp; cases hp
  | @priv _ _ i j' _ _ hu h3 h4 h5 h6 =>
    have hs : (stackPop t).stack = l := by unfold stackPop; dsimp only; rw [hl]; rfl
    refine ⟨q, j', b, ab, ?_, h1, fun hpj => ?_⟩
    · rw [hs]; exact hu
    · rw [← h6] at hpj ⊢
      exact hm.up ab (hm.inv.stack ab (by rw [hl]; exact List.mem_cons_of_mem _ hu.boss_mem.1)).1 _ (h2 h3) hpj

/-- A rule, whether called left recursively or not, private or not. -/
theorem rule_simG (hX : X.Ok E.g) (hq : QuietL env) (hval : env.st.Valid)
    (hg : env.g = E.g) (hwf : env.g.WfT (fun _ => False) True) (hal : env.g.NoAlias)
    (hops : env.ops = E.P.ops H) (hst : env.st = E.st)
    (hrec : ∀ d c q j, RecSimT B (MG X E env B k d c q j) (NextG X E env) (HitG X)
      (Node.All fun n => Node.Ok env.g (fun _ => False) True n ∧ X.owned env.g j n)
      (parse env k) (fun n p => gpeg X.pv E k d c.low n q p) (fun n p => gpeg X.pv E k d c n q p))
    {D : Nat} (hD : SizeBound env.g D) {id : Nat} (hid : id < env.g.numRules) {s : St V H} (hm : MemoG X E env s)
    (hbz : BusyG X E (k + 1) d s)
    (htop : (c = none ∧ X.pv id = false) ∨ (TopG X E s c q j ∧ (X.pv id = true → X.owner id = j)))
    (hd : B ∨ s.stack.length + d ≤ stackCap) :
    SimT B (NextG X E env s) (HitG X) False (gpeg X.pv E (k + 1) d c.low (.rule id) q s.pos)
      (gpeg X.pv E (k + 1) d c (.rule id) q s.pos) (parse env (k + 1) (.rule id) s) := by
  obtain ⟨body, hb⟩ : ∃ b, env.g.rules[id]? = some b := by
    unfold Grammar.numRules at hid
    exact ⟨_, List.getElem?_eq_getElem hid⟩
  have hbE : E.g.rules[id]? = some body := by rw [← hg]; exact hb
  have hmem := List.mem_of_getElem? hb
  have hbody : body.All fun n => Node.Ok env.g (fun _ => False) True n ∧ X.owned env.g id n :=
    (hwf.rules _ hmem).both (by rw [hg]; exact hX.rules id body hbE)
  -- the body of the rule
  have hk : ∀ (d1 : Nat) (c1 : Ctx V) (p : Nat) (t : St V H), MG X E env B k d1 c1 p id t → t.pos = p →
      SimT B (NextG X E env t) (HitG X) False (bodyRunG X.pv E k d1 c1.low body p) (bodyRunG X.pv E k d1 c1 body p)
        (prepareResult env true body.info (parseKind env (parse env k) k body) t) := by
    intro d1 c1 p t hmt hpt
    have hle := fun n p' => gpeg_mono X.pv E k k d1 d1 c1.low c1 (by omega) (by omega) c1.low_le n p p'
    have hk : ∀ u : St V H, u.pos = p → MG X E env B k d1 c1 p id u → SimT B (NextG X E env u) (HitG X) False
        (pegKind E (fun n p' => gpeg X.pv E k d1 c1.low n p p') k body p)
        (pegKind E (fun n p' => gpeg X.pv E k d1 c1 n p p') k body p)
        (parseKind env (parse env k) k body u) := by
      intro u hu hmu
      have := kind_simP (k := k) (q := p) hops hst hval hg
        (fun _ nm id' h hl => ⟨⟨hwf.lookup nm id' hl, Or.inr trivial⟩, h.2 id' hl⟩) (MG.setup hX) MG.topPos hle
        (hrec d1 c1 p id) body u False hbody hmu (fun h => h.elim) (hal _ hmem)
      rw [hu] at this
      exact this
    exact prepare_simT hops hst (MG.setup hX) MG.topPos hmt (pegKind_mono E hle (Nat.le_refl _) body p)
      (SimT.of_next (MG.setup hX) (M := MG X E env B k d1 c1 p id) (NextG.aux t (t.counter + 1) t.h t.calls)
        (hk { t with counter := t.counter + 1 } hpt (hmt.next hX (NextG.aux t (t.counter + 1) t.h t.calls))))
  cases d with
  | zero => rw [gpeg_rule_zero X.pv E k c q s.pos hbE]; exact SimR.oof
  | succ d =>
    obtain ⟨a, s1, h1, h2, h3, h4, h5, -⟩ := getFrame_nextG (E := E) hX hm.inv hid
    have hm1 := h2.memo hm
    rw [← h3] at h4
    have hmp := hm1.push h4
    have hbz1 : BusyG X E (k + 1) (d + 1) { s1 with stack := a :: s1.stack } := by
      have := hbz.next hX hm.inv h2
      exact ⟨this.pub, this.priv⟩
    have hpost := loopify_holds (L := s1.stack.length + 1) (T := True) (nn := fun _ => False) hb
      (f := prepareResult env true body.info (parseKind env (parse env k) k body))
      (cons := Consumes env.g (fun _ => False) body) (by
        intro t ht htne
        refine prepareResult_holds _ _ t ht (by omega) htne ?_
        intro u hu hune
        exact parseKind_holds (D := D) hval hwf (parse_holds hval hwf hal hD (fun _ _ h => h.elim) k) body u
          (hwf.rules body hmem) hu (by omega) (hal body hmem) (Or.inl trivial))
      (fun h => h.elim) k (Or.inl trivial) _ hmp.inv (by simp)
    have hdp : B ∨ ({ s1 with stack := a :: s1.stack } : St V H).stack.length + (d + 1 - 1) ≤ stackCap :=
      hd.imp_right fun h => by show s1.stack.length + 1 + d ≤ _; rw [h5]; omega
    have hparse : parse env (k + 1) (.rule id) s =
        if s1.stack.length < stackCap then do
          let (r, t) ← loopify env k id body.info (prepareResult env true body.info (parseKind env (parse env k) k body))
            { s1 with stack := a :: s1.stack }
          .ok (r, stackPop t)
        else .panic .stackOverflow := by
      rw [parse]
      unfold wrap
      dsimp only
      rw [hb]
      dsimp only
      unfold stackPush
      rw [h1, Out.bind_ok]
      dsimp only
      split <;> rfl
    by_cases hpv : X.pv id = true
    · -- private
      obtain ⟨htop, hown⟩ := htop.resolve_left fun h => by rw [h.2] at hpv; cases hpv
      by_cases hqp : q = s.pos
      case neg =>
        rw [gpeg_priv_ne X.pv E (k + 1) (d + 1) c hqp hbE hpv]
        exact SimR.oof
      subst hqp
      have htop1 := htop.next hm h2
      rw [← hown hpv, ← h3] at htop1
      obtain ⟨b, ab, hu, hc, hbc⟩ := htop1
      rw [hparse]
      by_cases hlt : s1.stack.length < stackCap
      case neg =>
        rw [if_neg hlt]
        rw [h5] at hlt
        exact Or.inl ⟨hd.resolve_right (by omega), rfl⟩
      rw [if_pos hlt, ← h3]
      have hls := loopify_simP (B := B) (k := k) (d := d + 1) (a := a) hX hq hg hb hpv
        (fp := prepareResult env true body.info (parseKind env (parse env k) k body))
        (s := { s1 with stack := a :: s1.stack }) hmp hbz1 h4 rfl hu hc hbc hdp
        (fun d1 t _ hmt hpt => hk d1 c _ t hmt hpt) hpost
      by_cases hoof : gpeg X.pv E (k + 1) (d + 1) c (.rule id) s1.pos s1.pos = .oof
      · rw [hoof]; exact SimR.oof
      rcases SimR.cases hls hoof with ⟨hB, h6⟩ | ⟨e, h6, h7⟩ | ⟨r, t, h6, h7, h8, h9⟩
      · rw [h6]; exact Or.inl ⟨hB, rfl⟩
      · rw [h7]
        rw [show gpeg X.pv E (k + 1) (d + 1) c (.rule id) s1.pos s1.pos = .panic e from h6]
        exact SimR.panic
      · rw [h6, Out.bind_ok]
        refine SimR.of rfl h7 ⟨h2.trans (NextG.pop h4 h8), fun h => ?_⟩
        have hmt := h8.memo hmp
        refine HitG.pop hmt h8.ext.stack ?_ (h9 h)
        rw [(h8.ext.frame a (hm1.inv.table _ _ _ h4).1).id]
        rw [show (({ s1 with stack := a :: s1.stack } : St V H).heap a).id = id from (hm1.inv.table _ _ _ h4).2.2.1]
        exact hpv
    · have hpub : X.pv id = false := by simpa using hpv
      by_cases hhit : ∃ x, c = some (id, x) ∧ q = s.pos
      · obtain ⟨x, rfl, rfl⟩ := hhit
        obtain ⟨htop, -⟩ := htop.resolve_left (by simp)
        rw [gpeg_pub X.pv E k d (some (id, x)) _ _ hbE hpub]
        cases x with
        | unknown =>
          obtain ⟨b, ab, -, hc, -⟩ := htop
          unfold ctxAt at hc
          split at hc <;> simp at hc
        | known x =>
          have : lrSeed (some (id, Seed.known x)) s.pos id s.pos = some (.known x) := by simp [lrSeed]
          rw [this]
          exact SimR.imp (hit_simG hX hq hg hm htop hd) fun t ht => ⟨ht.1, fun _ => ht.2⟩
      · have hls : lrSeed c q id s.pos = none := by
          unfold lrSeed
          match c with
          | none => rfl
          | some (i, x) =>
            dsimp only
            rw [if_neg]
            rintro ⟨rfl, rfl⟩
            exact hhit ⟨x, rfl, rfl⟩
        have hls0 : lrSeed c.low q id s.pos = none := by
          match c, hls with
          | none, _ => rfl
          | some (i, x), h =>
            unfold lrSeed at h
            dsimp only at h
            simp only [lrSeed, Ctx.low]
            split at h
            · cases h
            · rename_i hn; rw [if_neg hn]
        rw [gpeg_rule_ctx X.pv E (k + 1) (d + 1) hpub hls (c' := none) (q' := 0) rfl,
          gpeg_rule_ctx X.pv E (k + 1) (d + 1) hpub hls0 (c' := none) (q' := 0) rfl]
        by_cases hoof : gpeg X.pv E (k + 1) (d + 1) none (.rule id) 0 s.pos = .oof
        · rw [hoof]; exact SimR.oof
        refine SimR.imp (R := NextG X E env s) ?_ fun t ht => ⟨ht, fun h => absurd (h.resolve_right fun h => h) hoof⟩
        rw [hparse]
        by_cases hlt : s1.stack.length < stackCap
        case neg =>
          rw [if_neg hlt]
          rw [h5] at hlt
          exact Or.inl ⟨hd.resolve_right (by omega), rfl⟩
        rw [if_pos hlt]
        rw [← h3] at hoof ⊢
        have hls := loopify_simG (B := B) (k := k) (d := d + 1) (a := a) hX hq hg hb hpub
          (fp := prepareResult env true body.info (parseKind env (parse env k) k body))
          (s := { s1 with stack := a :: s1.stack }) hmp hbz1 h4 ⟨_, rfl⟩ hdp
          (fun d1 c1 t _ hmt hpt => hk d1 c1 _ t hmt hpt) hpost
        rcases hls.cases hoof with ⟨hB, h6⟩ | ⟨e, h6, h7⟩ | ⟨r, t, h6, h7, h8⟩
        · rw [h6]; exact Or.inl ⟨hB, rfl⟩
        · rw [h7]
          rw [show gpeg X.pv E (k + 1) (d + 1) none (.rule id) 0 s1.pos = .panic e from h6]; exact .panic
        · rw [h6, Out.bind_ok]
          exact SimR.of rfl h7 (h2.trans (NextG.pop h4 h8))

/-- The engine refines the evaluator with left recursion through alternatives. -/
theorem parse_simG (hX : X.Ok E.g) (hq : QuietL env) (hval : env.st.Valid)
    (hg : env.g = E.g) (hwf : env.g.WfT (fun _ => False) True) (hal : env.g.NoAlias)
    (hops : env.ops = E.P.ops H) (hst : env.st = E.st) {D : Nat} (hD : SizeBound env.g D) :
    ∀ k d c q j, RecSimT B (MG X E env B k d c q j) (NextG X E env) (HitG X)
      (Node.All fun n => Node.Ok env.g (fun _ => False) True n ∧ X.owned env.g j n)
      (parse env k) (fun n p => gpeg X.pv E k d c.low n q p) (fun n p => gpeg X.pv E k d c n q p)
  | 0, _, _, _, _ => fun _ _ _ _ => SimR.oof
  | k + 1, d, c, q, j => by
    intro n s hn hm
    by_cases hrule : ∃ id, n = .rule id
    · obtain ⟨id, rfl⟩ := hrule
      have hid : id < env.g.numRules ∧ (X.pv id = true → X.owner id = j) := by
        cases hn with | rule h => exact ⟨h.1.1, h.2⟩
      exact rule_simG hX hq hval hg hwf hal hops hst (parse_simG hX hq hval hg hwf hal hops hst hD k) hD hid.1 hm.memo
        hm.busy (Or.inr ⟨hm.top, hid.2⟩) hm.depth
    · have hnr : ∀ id, n ≠ .rule id := fun id h => hrule ⟨id, h⟩
      have hmk : MG X E env B k d c q j s := hm.mono (by omega)
      have hle := fun n p => gpeg_mono X.pv E k k d d c.low c (by omega) (by omega) c.low_le n q p
      have hkind : ∀ t : St V H, MG X E env B k d c q j t → SimT B (NextG X E env t) (HitG X) False
          (pegKind E (fun n p => gpeg X.pv E k d c.low n q p) k n t.pos)
          (pegKind E (fun n p => gpeg X.pv E k d c n q p) k n t.pos)
          (parseKind env (parse env k) k n t) := fun t ht =>
        kind_simP (q := q) hops hst hval hg
          (fun _ nm id' h hl => ⟨⟨hwf.lookup nm id' hl, Or.inr trivial⟩, h.2 id' hl⟩) (MG.setup hX) MG.topPos hle
          (parse_simG hX hq hval hg hwf hal hops hst hD k d c q j) n t False hn ht (fun h => h.elim) hnr
      have hw : parse env (k + 1) n s = if n.info.ownLabel || n.info.cb.isSome then
          prepareResult env false n.info (parseKind env (parse env k) k n) s
          else parseKind env (parse env k) k n s := by
        rw [parse]
        unfold wrap
        cases n <;> first | rfl | exact absurd rfl (hnr _)
      rw [hw]
      show SimT B (NextG X E env s) (HitG X) False (gpeg X.pv E (k + 1) d c.low n q s.pos)
        (gpeg X.pv E (k + 1) d c n q s.pos) _
      rw [gpeg_node X.pv E k d c.low q s.pos hnr, gpeg_node X.pv E k d c q s.pos hnr]
      split
      · exact prepare_simT hops hst (MG.setup hX) MG.topPos hmk (pegKind_mono E hle (Nat.le_refl _) n s.pos)
          (SimT.of_next (MG.setup hX) (M := MG X E env B k d c q j) (NextG.aux s (s.counter + 1) s.h s.calls)
            (hkind { s with counter := s.counter + 1 } (hmk.next hX (NextG.aux s (s.counter + 1) s.h s.calls))))
      · exact hkind s hmk

end
end Joeson
