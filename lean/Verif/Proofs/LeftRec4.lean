import Verif.Proofs.LeftRec3
/-! # The engine refines `lpeg`: the whole parser -/

namespace Joeson
variable {V H : Type}

section
variable {E : PegEnv V} {env : Env V H} {B : Prop} {k d q : Nat} {c : Ctx V}

/-- packrat.go:220-247: the entry after a left recursive call. -/
def hitFrame (m : Nat → Bool) (f : Frame V) : Frame V :=
  { f with loopstage := if f.loopstage = 1 then 2 else f.loopstage, wipemask := some m }

/-- A left recursive call answers with the seed. -/
theorem hit_sim (hq : QuietL env) {id : Nat} {x : Option (V × Nat)} {s : St V H}
    (hm : MemoL E env s) (ht : TopCtx env s (some (id, .known x)) s.pos) (hd : B ∨ s.stack.length + (d + 1) ≤ stackCap) :
    SimR B (fun s' => NextL E env s s' ∧ HitTop s') (.ok x) (parse env (k + 1) (.rule id) s) := by
  obtain ⟨top, rest, h1, h2, h3, h4, h5, body, hb, hsk⟩ := ht
  have hia := hm.inv.table _ _ _ h4
  have hfo := hm.inv.frame top hia.1
  have hid := hia.2.2.2.2
  rw [parse]
  unfold wrap
  dsimp only
  rw [hb]
  dsimp only
  have hgf : ∀ l, getFrame env id { s with stack := l } = .ok (top, { s with stack := l }) := by
    intro l
    unfold getFrame
    rw [if_pos ⟨hm.inv.pos, hid⟩]
    dsimp only
    rw [h4]
  unfold stackPush
  rw [show getFrame env id s = .ok (top, s) from hgf s.stack, Out.bind_ok]
  dsimp only
  by_cases hlt : s.stack.length < stackCap
  case neg =>
    rw [if_neg hlt]
    exact Or.inl ⟨hd.resolve_right (by omega), rfl⟩
  rw [if_pos hlt, Out.bind_ok]
  have hshow : (env.trace.stack || body.info.debug) = false := by
    rw [hq.1.1, hq.1.2 body (List.mem_of_getElem? hb)]; rfl
  have hlog : ∀ t : St V H, logIf env false t = .ok () := fun t => rfl
  have hge : 1 ≤ (s.heap top).loopstage ∧ (s.heap top).loopstage ≤ 3 := by
    refine ⟨?_, hfo.hi⟩
    match x, h5 with
    | none, h => rcases h.1 with h | h <;> omega
    | some (v, e), h => have := h.1; omega
  obtain ⟨m, hmask, hmf⟩ : ∃ m : Nat → Bool, ((s.heap top).wipemask.getD fun _ => false) = m ∧ ∀ i, m i = false := by
    refine ⟨_, rfl, ?_⟩
    have := hm.mask _ _ _ h4
    cases hw : (s.heap top).wipemask with
    | none => intro i; rfl
    | some m => exact this m hw
  have hupd : updFrame top (fun f => { f with wipemask := some m })
      (if (s.heap top).loopstage = 1 then setStage top 2 { s with stack := top :: s.stack }
        else { s with stack := top :: s.stack }) =
      { s with stack := top :: s.stack, heap := setHeap s.heap top (hitFrame m (s.heap top)) } := by
    have : ∀ u : St V H, u = { s with stack := top :: s.stack, heap := u.heap } → (∀ b, b ≠ top → u.heap b = s.heap b) →
        { u.heap top with wipemask := some m } = hitFrame m (s.heap top) →
        updFrame top (fun f => { f with wipemask := some m }) u =
        { s with stack := top :: s.stack, heap := setHeap s.heap top (hitFrame m (s.heap top)) } := by
      intro u h1 h2 h3
      unfold updFrame
      dsimp only at h3 ⊢
      rw [h3]
      obtain ⟨a1, a2, a3, a4, a5, a6, a7, a8, a9⟩ := u
      dsimp only at h1 h2 ⊢
      cases h1
      congr 1
      funext b
      unfold setHeap
      by_cases hba : b = top
      · simp [hba]
      · simp [hba, h2 b hba]
    apply this
    · split <;> rfl
    · intro b hb'
      split
      · exact setHeap_ne _ _ hb'
      · rfl
    · unfold hitFrame
      split
      · unfold setStage updFrame
        dsimp only
        rw [setHeap_self]
      · rfl
  have hloop : loopify env k id body.info
      (prepareResult env true body.info (parseKind env (parse env k) k body)) { s with stack := top :: s.stack } =
      (match (s.heap top).endpos with
      | some e => do
        let t ← setPos env e { s with stack := top :: s.stack, heap := setHeap s.heap top (hitFrame m (s.heap top)) }
        .ok ((s.heap top).result, t)
      | none => .ok ((s.heap top).result,
          { s with stack := top :: s.stack, heap := setHeap s.heap top (hitFrame m (s.heap top)) })) := by
    unfold loopify
    rw [hshow, hsk]
    dsimp only
    rw [hlog, Out.bind_ok]
    simp only [Bool.false_eq_true, if_false]
    rw [hgf, Out.bind_ok]
    dsimp only
    rw [if_neg (show ¬ (s.heap top).loopstage < 0 by omega)]
    dsimp only
    rw [if_neg (show ¬ (s.heap top).loopstage = 0 by omega), if_pos (show (s.heap top).loopstage = 1 ∨
      (s.heap top).loopstage = 2 ∨ (s.heap top).loopstage = 3 by omega), hlog, Out.bind_ok]
    have hcm : collectMask (if (s.heap top).loopstage = 1 then setStage top 2 { s with stack := top :: s.stack }
        else { s with stack := top :: s.stack }).heap s.pos id
        (if (s.heap top).loopstage = 1 then setStage top 2 { s with stack := top :: s.stack }
        else { s with stack := top :: s.stack }).stack.tail
        (((if (s.heap top).loopstage = 1 then setStage top 2 { s with stack := top :: s.stack }
        else { s with stack := top :: s.stack }).heap top).wipemask.getD fun _ => false) = .ok m := by
      have : ∀ t : St V H, (t.heap top).pos = s.pos → (t.heap top).id = id →
          ((t.heap top).wipemask.getD fun _ => false) = m → t.stack = top :: s.stack →
          collectMask t.heap s.pos id t.stack.tail ((t.heap top).wipemask.getD fun _ => false) = .ok m := by
        intro t a1 a2 a3 a4
        rw [a3, a4, List.tail_cons, h1]
        unfold collectMask
        rw [if_neg (by omega), if_pos (Or.inr a2)]
      apply this
      · split
        · show (setHeap _ _ _ top).pos = _
          rw [setHeap_self]; exact h2
        · exact h2
      · split
        · show (setHeap _ _ _ top).id = _
          rw [setHeap_self]; exact h3
        · exact h3
      · split
        · show ((setHeap _ _ _ top).wipemask.getD _) = _
          rw [setHeap_self]; exact hmask
        · exact hmask
      · split <;> rfl
    rw [hcm, Out.bind_ok, hupd]
    dsimp only
    rw [setHeap_self]
    rfl
  rw [hloop]
  -- the state afterwards
  have hnext : NextL E env s { s with heap := setHeap s.heap top (hitFrame m (s.heap top)) } := by
    have hfe : FrameExt (s.heap top) (hitFrame m (s.heap top)) := by
      constructor
      · rfl
      · rfl
      · intro h; omega
      · intro h; right; unfold hitFrame; simp [h]
      · intro h; unfold hitFrame; simp [h]
      · intro h; unfold hitFrame; simp [h]
      · intro h; unfold hitFrame; dsimp only; split <;> omega
      · intro h; omega
      · intro _; exact ⟨rfl, rfl⟩
      · intro _; rfl
    have hst1 : 1 ≤ (hitFrame m (s.heap top)).loopstage := hfe.ge1 hge.1
    refine ⟨Ext.upd s top (hitFrame m) hfe, fun hm' => ⟨?_, ?_, ?_⟩, fun _ _ _ h => h, ?_⟩
    · refine Inv.upd hm'.inv top (hitFrame m) rfl rfl ?_
      refine ⟨by omega, by unfold hitFrame; dsimp only; split <;> omega, hfo.endpos, fun _ => rfl, hfo.result, hfo.nn⟩
    · intro p i b hb'
      dsimp only at hb' ⊢
      by_cases hbt : b = top
      · subst hbt
        rw [setHeap_self]
        intro m' hm''
        cases hm''
        exact hmf
      · rw [setHeap_ne _ _ hbt]; exact hm'.mask p i b hb'
    · intro p i b hb' hle
      dsimp only at hb' hle ⊢
      by_cases hbt : b = top
      · subst hbt; rw [setHeap_self] at hle; omega
      · rw [setHeap_ne _ _ hbt] at hle ⊢; exact hm'.good p i b hb' hle
    · intro p i b hb' hle
      dsimp only at hb' hle
      by_cases hbt : b = top
      · subst hbt; exact ⟨hb', hge.1⟩
      · rw [setHeap_ne _ _ hbt] at hle; exact ⟨hb', hle⟩
  have hhit : HitTop { s with heap := setHeap s.heap top (hitFrame m (s.heap top)) } := by
    refine ⟨top, rest, h1, ?_⟩
    dsimp only
    rw [setHeap_self]
    unfold hitFrame
    dsimp only
    split <;> omega
  match x, h5 with
  | none, ⟨h5, h6, h7⟩ =>
    rw [h7, h6]
    exact SimR.fail ⟨hnext, hhit⟩
  | some (v, e), ⟨h5, h6, h7⟩ =>
    rw [h7]
    dsimp only
    have hle := hfo.endpos e h7
    rw [setPos_eq env hle.2, h6]
    exact SimR.val rfl ⟨hnext.reset (s' := { s with heap := setHeap s.heap top (hitFrame m (s.heap top)) })
      (by rw [← hia.2.1]; exact hle.1) hle.2, hhit⟩

/-- A rule, whether called left recursively or not. -/
theorem rule_simL (hq : QuietL env) (hval : env.st.Valid)
    (hg : env.g = E.g) (hwf : env.g.WfT (fun _ => False) True) (hal : env.g.NoAlias)
    (hops : env.ops = E.P.ops H) (hst : env.st = E.st)
    (hrec : ∀ d c q, RecSimT B (ML E env B k d c q) (NextL E env) HitTop (Node.All (Node.Ok env.g (fun _ => False) True))
      (parse env k) (fun n p => lpeg E k d c.low n q p) (fun n p => lpeg E k d c n q p))
    {D : Nat} (hD : SizeBound env.g D) {id : Nat} (hid : id < env.g.numRules) {s : St V H} (hm : MemoL E env s)
    (hbz : BusyOof E (k + 1) d s) (htop : c = none ∨ TopCtx env s c q) (hd : B ∨ s.stack.length + d ≤ stackCap) :
    SimT B (NextL E env s) HitTop False (lpeg E (k + 1) d c.low (.rule id) q s.pos)
      (lpeg E (k + 1) d c (.rule id) q s.pos) (parse env (k + 1) (.rule id) s) := by
  obtain ⟨body, hb⟩ : ∃ b, env.g.rules[id]? = some b := by
    unfold Grammar.numRules at hid
    exact ⟨_, List.getElem?_eq_getElem hid⟩
  have hbE : E.g.rules[id]? = some body := by rw [← hg]; exact hb
  cases d with
  | zero => rw [lpeg_rule_zero E k c q s.pos hbE]; exact SimR.oof
  | succ d =>
    by_cases hhit : ∃ x, c = some (id, x) ∧ q = s.pos
    · obtain ⟨x, rfl, rfl⟩ := hhit
      have htop := htop.resolve_left (by simp)
      rw [lpeg_rule_succ E k d (some (id, x)) _ _ hbE]
      cases x with
      | unknown =>
        obtain ⟨_, _, _, _, _, _, h, _⟩ := htop
        exact h.elim
      | known x =>
        have : lrSeed (some (id, Seed.known x)) s.pos id s.pos = some (.known x) := by simp [lrSeed]
        rw [this]
        exact SimR.imp (hit_sim hq hm htop hd) fun t ht => ⟨ht.1, fun _ => ht.2⟩
    · have hls : lrSeed c q id s.pos = none := by
        unfold lrSeed
        match c with
        | none => rfl
        | some (i, x) =>
          dsimp only
          rw [if_neg]
          rintro ⟨rfl, rfl⟩
          exact hhit ⟨x, rfl, rfl⟩
      have hls0 : lrSeed c.low q id s.pos = none := by
        match c, hls with
        | none, _ => rfl
        | some (i, x), h =>
          unfold lrSeed at h
          dsimp only at h
          simp only [lrSeed, Ctx.low]
          split at h
          · cases h
          · rename_i hn; rw [if_neg hn]
      rw [lpeg_rule_ctx E (k + 1) (d + 1) hls (c' := none) (q' := 0) rfl,
        lpeg_rule_ctx E (k + 1) (d + 1) hls0 (c' := none) (q' := 0) rfl]
      by_cases hoof : lpeg E (k + 1) (d + 1) none (.rule id) 0 s.pos = .oof
      · rw [hoof]; exact SimR.oof
      refine SimR.imp (R := NextL E env s) ?_ fun t ht => ⟨ht, fun h => absurd (h.resolve_right fun h => h) hoof⟩
      rw [parse]
      unfold wrap
      dsimp only
      rw [hb]
      dsimp only
      obtain ⟨a, s1, h1, h2, h3, h4, h5⟩ := getFrame_nextL (E := E) hm.inv hid
      have hm1 := h2.memo hm
      unfold stackPush
      rw [h1, Out.bind_ok]
      dsimp only
      by_cases hlt : s1.stack.length < stackCap
      case neg =>
        rw [if_neg hlt]
        rw [h5] at hlt
        exact Or.inl ⟨hd.resolve_right (by omega), rfl⟩
      rw [if_pos hlt, Out.bind_ok]
      rw [← h3] at h4 hoof ⊢
      have hmp := hm1.push h4
      have hbz1 : BusyOof E (k + 1) (d + 1) { s1 with stack := a :: s1.stack } := by
        have := hbz.next h2
        exact this
      have hmem := List.mem_of_getElem? hb
      have hls := loopify_simL (B := B) (k := k) (d := d + 1) (a := a) hq hg hb
        (fp := prepareResult env true body.info (parseKind env (parse env k) k body))
        (s := { s1 with stack := a :: s1.stack }) hmp hbz1 h4 ⟨_, rfl⟩
        (hd.imp_right fun h => by show s1.stack.length + 1 + d ≤ _; rw [h5]; omega) (by
          intro d1 c1 t hd1 hmt hpt
          have hp : t.pos = s1.pos := hpt
          have hk : ∀ u : St V H, u.pos = s1.pos → ML E env B k d1 c1 s1.pos u → SimT B (NextL E env u) HitTop False
              (pegKind E (fun n p' => lpeg E k d1 c1.low n s1.pos p') k body s1.pos)
              (pegKind E (fun n p' => lpeg E k d1 c1 n s1.pos p') k body s1.pos)
              (parseKind env (parse env k) k body u) := by
            intro u hu hmu
            have := kind_simT (k := k) (q := s1.pos) hops hst hval hg hwf ML.setup ML.topPos
              (fun n p => lpeg_mono E k k d1 d1 c1.low c1 (by omega) (by omega) c1.low_le n s1.pos p)
              (hrec d1 c1 s1.pos) body u False (hwf.rules _ hmem) hmu (fun h => h.elim) (hal _ hmem)
            rw [hu] at this
            exact this
          exact prepare_simT hops hst ML.setup ML.topPos hmt
            (pegKind_mono E (fun n p => lpeg_mono E k k d1 d1 c1.low c1 (by omega) (by omega) c1.low_le n s1.pos p)
              (Nat.le_refl _) body s1.pos) (SimT.of_next ML.setup
              (M := ML E env B k d1 c1 s1.pos) (NextL.aux t (t.counter + 1) t.h t.calls)
              (hk { t with counter := t.counter + 1 } hp (hmt.next (NextL.aux t (t.counter + 1) t.h t.calls)))))
        (loopify_holds (L := s1.stack.length + 1) (T := True) (nn := fun _ => False) hb
          (cons := Consumes env.g (fun _ => False) body) (by
            intro t ht htne
            refine prepareResult_holds _ _ t ht (by omega) htne ?_
            intro u hu hune
            exact parseKind_holds (D := D) hval hwf (parse_holds hval hwf hal hD (fun _ _ h => h.elim) k) body u
              (hwf.rules body hmem) hu (by omega) (hal body hmem) (Or.inl trivial))
          (fun h => h.elim) k (Or.inl trivial) _ hmp.inv (by simp))
      rcases hls.cases hoof with ⟨hB, h6⟩ | ⟨e, h6, h7⟩ | ⟨r, t, h6, h7, h8⟩
      · rw [h6]; exact Or.inl ⟨hB, rfl⟩
      · rw [h7]
        rw [show lpeg E (k + 1) (d + 1) none (.rule id) 0 s1.pos = .panic e from h6]; exact .panic
      · rw [h6, Out.bind_ok]
        exact SimR.of rfl h7 (h2.trans (NextL.pop h4 h8))

/-- The engine refines the evaluator with left recursion. -/
theorem parse_simL (hq : QuietL env) (hval : env.st.Valid)
    (hg : env.g = E.g) (hwf : env.g.WfT (fun _ => False) True) (hal : env.g.NoAlias)
    (hops : env.ops = E.P.ops H) (hst : env.st = E.st) {D : Nat} (hD : SizeBound env.g D) :
    ∀ k d c q, RecSimT B (ML E env B k d c q) (NextL E env) HitTop (Node.All (Node.Ok env.g (fun _ => False) True))
      (parse env k) (fun n p => lpeg E k d c.low n q p) (fun n p => lpeg E k d c n q p)
  | 0, _, _, _ => fun _ _ _ _ => SimR.oof
  | k + 1, d, c, q => by
    intro n s hn hm
    by_cases hrule : ∃ id, n = .rule id
    · obtain ⟨id, rfl⟩ := hrule
      have hid : id < env.g.numRules := by cases hn with | rule h => exact h.1
      exact rule_simL hq hval hg hwf hal hops hst (parse_simL hq hval hg hwf hal hops hst hD k) hD hid hm.memo hm.busy
        (Or.inr hm.top) hm.depth
    · have hnr : ∀ id, n ≠ .rule id := fun id h => hrule ⟨id, h⟩
      have hmk : ML E env B k d c q s := hm.mono (by omega)
      have hle := fun n p => lpeg_mono E k k d d c.low c (by omega) (by omega) c.low_le n q p
      have hkind : ∀ t : St V H, ML E env B k d c q t → SimT B (NextL E env t) HitTop False
          (pegKind E (fun n p => lpeg E k d c.low n q p) k n t.pos) (pegKind E (fun n p => lpeg E k d c n q p) k n t.pos)
          (parseKind env (parse env k) k n t) := fun t ht =>
        kind_simT (q := q) hops hst hval hg hwf ML.setup ML.topPos hle
          (parse_simL hq hval hg hwf hal hops hst hD k d c q) n t False hn ht (fun h => h.elim) hnr
      have hw : parse env (k + 1) n s = if n.info.ownLabel || n.info.cb.isSome then
          prepareResult env false n.info (parseKind env (parse env k) k n) s
          else parseKind env (parse env k) k n s := by
        rw [parse]
        unfold wrap
        cases n <;> first | rfl | exact absurd rfl (hnr _)
      rw [hw]
      show SimT B (NextL E env s) HitTop False (lpeg E (k + 1) d c.low n q s.pos) (lpeg E (k + 1) d c n q s.pos) _
      rw [lpeg_node E k d c.low q s.pos hnr, lpeg_node E k d c q s.pos hnr]
      split
      · exact prepare_simT hops hst ML.setup ML.topPos hmk (pegKind_mono E hle (Nat.le_refl _) n s.pos)
          (SimT.of_next ML.setup (M := ML E env B k d c q) (NextL.aux s (s.counter + 1) s.h s.calls)
            (hkind { s with counter := s.counter + 1 } (hmk.next (NextL.aux s (s.counter + 1) s.h s.calls))))
      · exact hkind s hmk

end
end Joeson
