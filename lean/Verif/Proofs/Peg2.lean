import Verif.Proofs.Peg
/-! # The engine refines `peg`: rules, memo table and callbacks -/

namespace Joeson
variable {V H : Type}

section
variable {E : PegEnv V} {env : Env V H} {B : Prop} {k d q : Nat}

/-- The state after `prepareResult`: what the parser did, then a change of store and at most one more
call in the log. -/
def Finished (E : PegEnv V) (env : Env V H) (ofRule : Bool) (s s' : St V H) : Prop :=
  ∃ (t : St V H) (h : H) (l : List Call), Next E env s t ∧ s' = { t with h := h, calls := l ++ t.calls } ∧
    (l = [] ∨ ∃ c, l = [mkCall c ofRule t])

theorem prepareResult_sim (hops : env.ops = E.P.ops H) (hst : env.st = E.st) {ofRule : Bool} {i : Info}
    {f : Run V H} {s : St V H} {o : Out (Option (V × Nat))} (hm : Memo E env k d s) (ht : TopPos s q)
    (h : ∀ n, SimR B (Next E env { s with counter := n }) o (f { s with counter := n })) :
    SimR B (Finished E env ofRule s) (o >>= pegFinish E i q) (prepareResult env ofRule i f s) := by
  unfold prepareResult
  dsimp only
  have h := h (s.counter + 1)
  by_cases ho : o = .oof
  · subst ho; exact .oof
  rcases h.cases ho with ⟨hB, h2⟩ | ⟨e, rfl, h2⟩ | ⟨r, s', h2, h3, h4⟩
  · rw [h2]; exact Or.inl ⟨hB, rfl⟩
  · rw [h2]; exact .panic
  · have hn : Next E env s s' := Next.trans (t := { s with counter := s.counter + 1 }) (Next.aux rfl rfl rfl rfl rfl rfl rfl) h4
    rw [h2, h3, Out.bind_ok, Out.bind_ok]
    cases r with
    | none => exact SimR.fail ⟨s', s'.h, [], hn, rfl, Or.inl rfl⟩
    | some v =>
      obtain ⟨top, rest, hs, htop⟩ := ht.next hm hn
      simp only [Option.map_some, pegFinish]
      have hl : (if i.ownLabel = true then env.ops.newMap i.label v s'.h else (v, s'.h)) =
          (if i.ownLabel = true then E.P.newMap i.label v else v, s'.h) := by
        rw [hops]
        split <;> rfl
      rw [hl]
      dsimp only
      generalize (if i.ownLabel = true then E.P.newMap i.label v else v) = v'
      cases i.cb with
      | none =>
        have hp : ∀ x : H, stackPeek { s' with h := x } = .ok top := fun x => by simp [stackPeek, hs]
        rw [hp, Out.bind_ok]
        dsimp only [Out.bind_ok, Option.map_some]
        rw [htop, hops, hst]
        exact SimR.val rfl ⟨s', s'.h, [], hn, rfl, Or.inl rfl⟩
      | some c =>
        dsimp only
        have hcb : env.ops.cb c v' s'.pos s'.h = (E.P.cb c v' s'.pos).map (·, s'.h) := by
          rw [hops]; rfl
        rw [hcb]
        cases hr : E.P.cb c v' s'.pos with
        | error e => exact .panic
        | ok r =>
          rw [Out.ofExcept_ok, Out.bind_ok]
          cases r with
          | none => exact SimR.fail ⟨s', s'.h, [mkCall c ofRule s'], hn, rfl, Or.inr ⟨c, rfl⟩⟩
          | some w =>
            dsimp only [Except.map, Out.ofExcept_ok, Out.bind_ok]
            have hp : ∀ (x : H) l, stackPeek { s' with h := x, calls := l } = .ok top :=
              fun x l => by simp [stackPeek, hs]
            rw [hp, Out.bind_ok]
            dsimp only [Out.bind_ok, Option.map_some]
            rw [htop, hops, hst]
            exact SimR.val rfl ⟨s', s'.h, [mkCall c ofRule s'], hn, rfl, Or.inr ⟨c, rfl⟩⟩

/-- A finished inner node. -/
theorem Finished.next {s s' : St V H} (h : Finished E env false s s') : Next E env s s' := by
  obtain ⟨t, x, l, h1, rfl, h3⟩ := h
  refine h1.trans (Next.aux rfl rfl rfl rfl rfl rfl ?_)
  rcases h3 with rfl | ⟨c, rfl⟩
  · rfl
  · show ruleCalls env.g (mkCall c false t :: t.calls) = _
    have : (mkCall c false t).ofRule = false := by unfold mkCall; split <;> rfl
    unfold ruleCalls
    rw [List.filter_cons, this]
    rfl

theorem mkCall_top {c : Nat} {b : Bool} {s : St V H} {a : Nat} {l : List Nat} (h : s.stack = a :: l) :
    mkCall c b s = ⟨c, b, (s.heap a).id, (s.heap a).pos⟩ := by simp [mkCall, h]

/-- Creating the memo entry. -/
theorem getFrame_next {s : St V H} (hi : Inv env (fun _ => False) s) {id : Nat} (hid : id < env.g.numRules) :
    ∃ a s1, getFrame env id s = .ok (a, s1) ∧ Next E env s s1 ∧ s1.pos = s.pos ∧
      s1.table s.pos id = some a ∧ s1.stack = s.stack := by
  have h0 := fun (h : Inv env (fun _ => False) s) => getFrame_ok h hid
  unfold getFrame at *
  rw [if_pos ⟨hi.pos, hid⟩] at *
  cases ht : s.table s.pos id with
  | some a => exact ⟨a, s, rfl, Next.refl _ _ _, rfl, ht, rfl⟩
  | none =>
    rw [ht] at h0
    refine ⟨_, _, rfl, ?_, rfl, by simp [setTable], rfl⟩
    obtain ⟨a, s1, h1, h2, h3, h4, h5⟩ := h0 hi
    have hlt : ∀ p i b, s.table p i = some b →
        setHeap s.heap s.next (newFrame V s.pos id) b = s.heap b := fun p i b hb =>
      setHeap_ne _ _ (by have := (hi.table p i b hb).1; omega)
    have hne : ∀ p i b, s.table p i = some b → setTable s.table s.pos id (some s.next) p i = some b := by
      intro p i b hb
      unfold setTable
      rw [if_neg]
      · exact hb
      · rintro ⟨rfl, rfl⟩; rw [ht] at hb; cases hb
    refine ⟨fun k d hm => ⟨?_, ?_, ?_, ?_⟩, ?_, ?_, ?_⟩
    · obtain ⟨a, s1, h1, h2, -⟩ := h0 hm.inv
      cases h1; exact h2
    · intro p i b hb
      simp only [setTable] at hb
      split at hb
      · rename_i hpi
        injection hb with hb
        subst hb
        dsimp only
        rw [setHeap_self]
        exact Or.inl ⟨by simp [newFrame], by simp [newFrame]⟩
      · dsimp only
        rw [hlt p i b hb]
        exact hm.good p i b hb
    · refine ⟨fun c hc => ?_, hm.calls.once⟩
      obtain ⟨b, hb, h⟩ := hm.calls.done c hc
      refine ⟨b, hne _ _ _ hb, ?_⟩
      dsimp only
      rw [hlt _ _ b hb]
      exact h
    · intro b hb
      dsimp only at hb ⊢
      by_cases hbn : b = s.next
      · rw [hbn, setHeap_self]; rfl
      · rw [setHeap_ne _ _ hbn]; exact hm.masks b (by omega)
    · cases h1; exact h3
    · exact hne
    · intro p i b hb hst
      dsimp only at hb hst
      simp only [setTable] at hb
      split at hb
      · injection hb with hb
        subst hb
        rw [setHeap_self] at hst
        simp [newFrame] at hst
      · rw [hlt p i b hb] at hst
        exact ⟨hb, hst⟩

/-- Pushing a memo entry on the rule stack. -/
theorem Memo.push {s : St V H} (hm : Memo E env k d s) {id a : Nat} (ha : s.table s.pos id = some a) :
    Memo E env k d { s with stack := a :: s.stack } := by
  have h := hm.inv.table _ _ _ ha
  refine ⟨⟨hm.inv.pos, hm.inv.table, hm.inv.frame, ?_, ?_⟩, hm.good, ⟨hm.calls.done, hm.calls.once⟩, hm.masks⟩
  · intro b hb
    rcases List.mem_cons.mp hb with rfl | hb
    · exact ⟨h.1, Nat.le_of_eq h.2.1⟩
    · exact hm.inv.stack b hb
  · refine List.pairwise_cons.mpr ⟨fun b hb => ?_, hm.inv.sorted⟩
    dsimp only
    rw [h.2.1]
    exact (hm.inv.stack b hb).2

/-- Popping it. -/
theorem Next.pop {s t : St V H} {id a : Nat} (ha : s.table s.pos id = some a)
    (hn : Next E env { s with stack := a :: s.stack } t) : Next E env s (stackPop t) := by
  have hstk : t.stack.tail = s.stack := by rw [hn.ext.stack]; rfl
  refine ⟨fun k d hm => ?_, ⟨hn.ext.next, hn.ext.pos, hstk, hn.ext.loop, hn.ext.frame⟩, hn.keep, hn.busy⟩
  have h := hn.memo k d (hm.push ha)
  refine ⟨⟨h.inv.pos, h.inv.table, h.inv.frame, ?_, ?_⟩, h.good, ⟨h.calls.done, h.calls.once⟩, h.masks⟩
  · intro b hb
    exact h.inv.stack b (List.mem_of_mem_tail hb)
  · exact List.Pairwise.sublist (List.tail_sublist _) h.inv.sorted

/-- packrat.go:99-101: the entry is entered. -/
def idleFrame (f : Frame V) : Frame V := { f with loopstage := 0 }

theorem idleFrame_loopstage (f : Frame V) : (idleFrame f).loopstage = 0 := rfl
theorem idleFrame_endpos (f : Frame V) : (idleFrame f).endpos = f.endpos := rfl
theorem idleFrame_result (f : Frame V) : (idleFrame f).result = f.result := rfl

/-- packrat.go:120-121: a memo entry in progress. -/
def busyFrame (f : Frame V) : Frame V := { f with loopstage := 1, result := none, endpos := none }

/-- packrat.go:125-126: a finished memo entry. -/
def doneFrame (r : Option V) (e : Nat) (f : Frame V) : Frame V :=
  { f with loopstage := 0, result := r, endpos := some e }

/-- Marking a memo entry as in progress. -/
theorem Memo.begin {s : St V H} (hm : Memo E env k d s) {id p a : Nat} (ha : s.table p id = some a)
    (hoof : peg E k d (.rule id) 0 p = .oof) (he : (s.heap a).endpos = none) {s2 : St V H}
    (hs2 : s2 = { s with heap := setHeap s.heap a (busyFrame (s.heap a)) }) : Memo E env k d s2 := by
  subst hs2
  have h := hm.inv.table _ _ _ ha
  have hf := hm.inv.frame a h.1
  refine ⟨Inv.upd hm.inv a busyFrame rfl rfl
    ⟨by simp [busyFrame, doneFrame], by simp [busyFrame, doneFrame], by simp [busyFrame, doneFrame], by simp [busyFrame, doneFrame], by simp [busyFrame, doneFrame], by simp [busyFrame, doneFrame]⟩, ?_, ?_, ?_⟩
  · intro p' i b hb
    dsimp only at hb ⊢
    by_cases hba : b = a
    · subst hba
      have h' := hm.inv.table _ _ _ hb
      rw [setHeap_self]
      obtain rfl : p' = p := h'.2.1.symm.trans h.2.1
      obtain rfl : i = id := h'.2.2.1.symm.trans h.2.2.1
      exact Or.inr ⟨rfl, hoof⟩
    · rw [setHeap_ne _ _ hba]
      exact hm.good p' i b hb
  · refine ⟨fun c hc => ?_, hm.calls.once⟩
    obtain ⟨b, hb, h1, h2⟩ := hm.calls.done c hc
    refine ⟨b, hb, ?_⟩
    have hba : b ≠ a := by rintro rfl; rw [he] at h2; cases h2
    dsimp only
    rw [setHeap_ne _ _ hba]
    exact ⟨h1, h2⟩
  · intro b hb
    dsimp only
    by_cases hba : b = a
    · subst hba; rw [setHeap_self]; exact hm.masks b hb
    · rw [setHeap_ne _ _ hba]; exact hm.masks b hb

/-- Finishing a memo entry. -/
theorem Next.finish {s s2 t : St V H} {id a : Nat} (hm : Memo E env k d s) (hcached : env.g.cached id = true)
    (ha : s.table s.pos id = some a)
    (hstk : ∃ l, s.stack = a :: l)
    (hst : (s.heap a).loopstage ≤ 0) (he : (s.heap a).endpos = none)
    (hs2 : s2 = { s with heap := setHeap s.heap a (busyFrame (s.heap a)) })
    (hoof : peg E k d (.rule id) 0 s.pos = .oof) (hn : Next E env s2 t) {r : Option V} {h : H} {l : List Call}
    (hl : l = [] ∨ ∃ c, l = [mkCall c true t]) {k' d' : Nat}
    (hr : peg E k' d' (.rule id) 0 s.pos = .ok (r.map (·, t.pos))) {u : St V H}
    (hu : u = { t with h := h, calls := l ++ t.calls, heap := setHeap t.heap a (doneFrame r t.pos (t.heap a)) }) : Next E env s u := by
  have hm2 := hm.begin ha hoof he hs2
  have ht := hn.memo _ _ hm2
  have hinv := hm.inv.table _ _ _ ha
  have ha2 : s2.table s.pos id = some a := by rw [hs2]; exact ha
  have hat : t.table s.pos id = some a := hn.keep _ _ _ ha2
  have hia := ht.inv.table _ _ _ hat
  have hnx : s2.next = s.next := by rw [hs2]
  have h2a : s2.heap a = busyFrame (s.heap a) := by
    rw [hs2]; exact setHeap_self _ _ _
  have h2b : ∀ b, b ≠ a → s2.heap b = s.heap b := by
    intro b hb; rw [hs2]; exact setHeap_ne _ _ hb
  have hta : (t.heap a).loopstage = 1 := by
    have hx := (hn.ext.frame a (by rw [hnx]; exact hinv.1)).st1 (by rw [h2a]; rfl)
    rcases ht.good _ _ _ hat with h | h
    · omega
    · exact h.1
  have hpos : s.pos ≤ t.pos := by
    have := hn.ext.pos
    rw [hs2] at this; exact this
  have hua : u.heap a = doneFrame r t.pos (t.heap a) := by
    rw [hu]; exact setHeap_self _ _ _
  have hub : ∀ b, b ≠ a → u.heap b = t.heap b := by
    intro b hb; rw [hu]; exact setHeap_ne _ _ hb
  have hutab : u.table = t.table := by rw [hu]
  have hcall : ∀ c ∈ ruleCalls env.g t.calls, ¬ (c.id = id ∧ c.pos = s.pos) := by
    rintro c hc ⟨rfl, hp⟩
    obtain ⟨b, hb, h1, -⟩ := ht.calls.done c hc
    rw [hp, hat] at hb
    cases hb
    omega
  refine ⟨fun k1 d1 hk => ⟨?_, ?_, ?_, ?_⟩, ?_, ?_, ?_⟩
  · have hi := Inv.upd ht.inv a (doneFrame r t.pos) rfl rfl
      ⟨by simp [busyFrame, doneFrame], by simp [busyFrame, doneFrame], by
        intro e he; cases he; show (t.heap a).pos ≤ _ ∧ _; rw [hia.2.1]; exact ⟨hpos, ht.inv.pos⟩,
        by simp [busyFrame, doneFrame], by simp [busyFrame, doneFrame], by simp [busyFrame, doneFrame]⟩
    rw [hu]
    exact ⟨hi.pos, hi.table, hi.frame, hi.stack, hi.sorted⟩
  · intro p i b hb
    rw [hutab] at hb
    by_cases hba : b = a
    · subst hba
      have h' := ht.inv.table _ _ _ hb
      obtain rfl : p = s.pos := h'.2.1.symm.trans hia.2.1
      obtain rfl : i = id := h'.2.2.1.symm.trans hia.2.2.1
      rw [hua]
      refine Or.inl ⟨by simp [busyFrame, doneFrame], ?_⟩
      intro e he
      cases he
      exact ⟨k', d', hr⟩
    · rw [hub b hba]
      rcases ht.good p i b hb with hg | ⟨hg, -⟩
      · exact Or.inl hg
      · obtain ⟨h1, h3⟩ := hn.busy p i b hb hg
        rw [h2b b hba] at h3
        rw [hs2] at h1
        rcases hk.good p i b h1 with hg' | ⟨-, hg'⟩
        · omega
        · exact Or.inr ⟨hg, hg'⟩
  · have hold : ∀ c ∈ ruleCalls env.g t.calls, ∃ a_1, u.table c.pos c.id = some a_1 ∧
        (u.heap a_1).loopstage ≤ 0 ∧ (u.heap a_1).endpos.isSome := by
      intro c hc
      obtain ⟨b, hb, h1, h3⟩ := ht.calls.done c hc
      refine ⟨b, by rw [hutab]; exact hb, ?_⟩
      have hba : b ≠ a := by rintro rfl; omega
      rw [hub b hba]
      exact ⟨h1, h3⟩
    have huc : u.calls = l ++ t.calls := by rw [hu]
    rcases hl with rfl | ⟨c, rfl⟩
    · refine ⟨?_, ?_⟩
      · rw [huc]; exact hold
      · rw [huc]; exact ht.calls.once
    · obtain ⟨rest, hstk⟩ := hstk
      have htst : t.stack = a :: rest := by rw [hn.ext.stack, hs2]; exact hstk
      have hc : mkCall c true t = ⟨c, true, id, s.pos⟩ := by
        rw [mkCall_top htst, hia.2.1, hia.2.2.1]
      have hrc : ruleCalls env.g u.calls = ⟨c, true, id, s.pos⟩ :: ruleCalls env.g t.calls := by
        rw [huc, hc]
        show List.filter _ (_ :: t.calls) = _
        rw [List.filter_cons, if_pos (by simp [hcached])]
        rfl
      refine ⟨?_, ?_⟩
      · rw [hrc]
        intro c' hc'
        rcases List.mem_cons.mp hc' with rfl | hc'
        · refine ⟨a, by rw [hutab]; exact hat, ?_⟩
          rw [hua]
          exact ⟨by simp [busyFrame, doneFrame], by simp [busyFrame, doneFrame]⟩
        · exact hold c' hc'
      · rw [hrc]
        refine List.pairwise_cons.mpr ⟨fun c' hc' => ?_, ht.calls.once⟩
        have := hcall c' hc'
        rintro ⟨h1, h2⟩
        exact this ⟨h1.symm, h2.symm⟩
  · intro b hb
    rw [show u.next = t.next by rw [hu]] at hb
    by_cases hba : b = a
    · subst hba; rw [hua]; exact ht.masks b hb
    · rw [hub b hba]; exact ht.masks b hb
  · refine ⟨?_, ?_, ?_, ?_, ?_⟩
    · have := hn.ext.next; rw [hnx] at this; rw [hu]; exact this
    · rw [hu]; exact hpos
    · have := hn.ext.stack; rw [hu]; rw [hs2] at this; exact this
    · intro hx; have := hn.ext.loop hx; rw [hu]; rw [hs2] at this; exact this
    · intro b hb
      by_cases hba : b = a
      · subst hba
        have hx := hn.ext.frame b (by rw [hnx]; exact hb)
        rw [hua]
        constructor
        · have := hx.pos; rw [h2a] at this; exact this
        · have := hx.id; rw [h2a] at this; exact this
        · intro _; simp [doneFrame]
        · intro h; omega
        · intro h; omega
        · intro h; omega
        · intro h; omega
        · intro _ h; rw [he] at h; cases h
        · intro h; omega
        · intro h; have := hx.mask (by rw [h2a]; exact h); exact this
      · rw [hub b hba, ← h2b b hba]
        exact hn.ext.frame b (by rw [hnx]; exact hb)
  · intro p i b hb
    rw [hutab]
    exact hn.keep p i b (by rw [hs2]; exact hb)
  · intro p i b hb hb1
    rw [hutab] at hb
    by_cases hba : b = a
    · subst hba; rw [hua] at hb1; simp [doneFrame] at hb1
    · rw [hub b hba] at hb1
      obtain ⟨h1, h3⟩ := hn.busy p i b hb hb1
      rw [h2b b hba] at h3
      rw [hs2] at h1
      exact ⟨h1, h3⟩


theorem peg_rule_succ (E : PegEnv V) (k d q p : Nat) {id : Nat} {body : Node}
    (hb : E.g.rules[id]? = some body) : peg E (k + 1) (d + 1) (.rule id) q p =
      (pegKind E (fun n p' => peg E k d n p p') k body p >>= pegFinish E body.info p) := by
  conv => lhs; unfold peg
  rw [hb]

/-- No tracing. -/
def Quiet (env : Env V H) : Prop :=
  env.trace.stack = false ∧ ∀ n ∈ env.g.rules, n.info.debug = false

/-- The state in which the body of a rule is parsed, with its memo entry `a` on top of the stack. -/
theorem loopify_sim (hops : env.ops = E.P.ops H) (hst : env.st = E.st) (hq : Quiet env) (hval : env.st.Valid)
    (hg : env.g = E.g) {id a : Nat} {body : Node} (hb : env.g.rules[id]? = some body) {f : Run V H}
    {s : St V H} (hm : Memo E env (k + 1) d s) (ha : s.table s.pos id = some a) (hstk : ∃ l, s.stack = a :: l)
    (hd : B ∨ s.stack.length + (d - 1) ≤ stackCap)
    (hf : ∀ (d1 : Nat) (t : St V H), d1 < d → Memo E env k d1 t → TopPos t s.pos → t.pos = s.pos →
      (B ∨ t.stack.length + d1 ≤ stackCap) →
      SimR B (Next E env t) (pegKind E (fun n p => peg E k d1 n s.pos p) k body s.pos) (f t)) :
    SimR B (Next E env s) (peg E (k + 1) d (.rule id) 0 s.pos)
      (loopify env k id body.info (prepareResult env true body.info f) s) := by
  have hbm : body ∈ env.g.rules := List.mem_of_getElem? hb
  have hid : id < env.g.numRules := by
    unfold Grammar.numRules
    exact (List.getElem?_eq_some_iff.mp hb).1
  have hshow : (env.trace.stack || body.info.debug) = false := by rw [hq.1, hq.2 body hbm]; rfl
  have hlog : ∀ t : St V H, logIf env false t = .ok () := fun t => rfl
  have hia := hm.inv.table _ _ _ ha
  by_cases hoof : peg E (k + 1) d (.rule id) 0 s.pos = .oof
  · rw [hoof]; exact .oof
  -- the least depth at which there is an answer
  have hpeg : ∀ d0, peg E (k + 1) (d0 + 1) (.rule id) 0 s.pos =
      (pegKind E (fun n p => peg E k d0 n s.pos p) k body s.pos >>= pegFinish E body.info s.pos) := by
    intro d0
    exact peg_rule_succ E k d0 0 s.pos (by rw [← hg]; exact hb)
  have hpeg0 : peg E (k + 1) 0 (.rule id) 0 s.pos = .oof := by
    unfold peg
    rw [← hg, hb]
  have hleast : ∀ n, n ≤ d → peg E (k + 1) n (.rule id) 0 s.pos ≠ .oof → ∃ d1, d1 < d ∧
      peg E (k + 1) d1 (.rule id) 0 s.pos = .oof ∧ peg E (k + 1) (d1 + 1) (.rule id) 0 s.pos ≠ .oof := by
    intro n
    induction n with
    | zero => intro _ h; exact absurd hpeg0 h
    | succ n ih =>
      intro hn h
      by_cases h' : peg E (k + 1) n (.rule id) 0 s.pos = .oof
      · exact ⟨n, by omega, h', h⟩
      · exact ih (by omega) h'
  obtain ⟨d1, hd1, ho1, ho2⟩ := hleast d (Nat.le_refl _) hoof
  have ho1k : peg E k d1 (.rule id) 0 s.pos = .oof := by
    rcases peg_mono E k (k + 1) d1 d1 (by omega) (by omega) (.rule id) 0 s.pos with h | h
    · exact h
    · rw [h]; exact ho1
  have htop : TopPos s s.pos := by
    obtain ⟨l, hl⟩ := hstk
    exact ⟨a, l, hl, hia.2.1⟩
  have hres : peg E (k + 1) d (.rule id) 0 s.pos =
      (pegKind E (fun n p => peg E k d1 n s.pos p) k body s.pos >>= pegFinish E body.info s.pos) := by
    rw [← hpeg d1]; exact peg_unique E hoof ho2
  unfold loopify
  rw [hshow]
  dsimp only
  rw [hlog, Out.bind_ok]
  by_cases hsk : body.info.skipCache = true
  · rw [if_pos hsk, hres]
    have hbody := prepareResult_sim (k := k) (d := d1) (i := body.info) (ofRule := true) (f := f)
      (o := pegKind E (fun n p => peg E k d1 n s.pos p) k body s.pos) hops hst
      (hm.mono (by omega) (by omega)) htop (fun n => hf d1 { s with counter := n } hd1
        ((Next.aux (E := E) (env := env) (s := s) (s' := { s with counter := n }) rfl rfl rfl rfl rfl rfl rfl).memo _ _
          (hm.mono (by omega) (by omega))) htop rfl (hd.imp_right fun h => by show s.stack.length + d1 ≤ _; omega))
    rw [← hres] at hbody ⊢
    rcases hbody.cases hoof with ⟨hB, h1⟩ | ⟨e, h1, h2⟩ | ⟨r, t, h1, h2, h3⟩
    · rw [h1]; exact Or.inl ⟨hB, rfl⟩
    · rw [h1, h2]; exact .panic
    · rw [h1, Out.bind_ok]
      refine SimR.of rfl h2 ?_
      obtain ⟨u, x, l, hu, rfl, hl⟩ := h3
      refine hu.trans (Next.aux rfl rfl rfl rfl rfl rfl ?_)
      rcases hl with rfl | ⟨c, rfl⟩
      · rfl
      · show ruleCalls env.g (mkCall c true u :: u.calls) = _
        obtain ⟨l, hl⟩ := hstk
        have hm2 := hu.memo _ _ hm
        have hiu := hm2.inv.table _ _ _ (hu.keep _ _ _ ha)
        have : env.g.cached (mkCall c true u).id = false := by
          rw [mkCall_top (show u.stack = a :: l from hu.ext.stack.trans hl)]
          dsimp only
          rw [hiu.2.2.1]
          unfold Grammar.cached
          rw [hb]
          simp [hsk]
        unfold ruleCalls
        rw [List.filter_cons, this, Bool.and_false]
        rfl
  · rw [if_neg hsk]
    have hcached : env.g.cached id = true := by
      unfold Grammar.cached
      rw [hb]
      simp [hsk]
    have hgf : getFrame env id s = .ok (a, s) := by
      unfold getFrame
      rw [if_pos ⟨hm.inv.pos, hid⟩, ha]
    rw [hgf, Out.bind_ok]
    dsimp only
    obtain ⟨hstage, hdone⟩ := (hm.good _ _ _ ha).resolve_right fun h => hoof h.2
    have hst0 : (if (s.heap a).loopstage < 0 then setStage a 0 s else s) =
        { s with heap := setHeap s.heap a (idleFrame (s.heap a)) } := by
      split
      · rfl
      · have h0 : (s.heap a).loopstage = 0 := by omega
        have : setHeap s.heap a (idleFrame (s.heap a)) = s.heap := by
          funext b
          unfold setHeap
          split
          · rename_i hba
            subst hba
            unfold idleFrame
            rw [← h0]
          · rfl
        rw [this]
    rw [hst0]
    dsimp only
    simp only [setHeap_self, idleFrame_loopstage, idleFrame_endpos, idleFrame_result, if_true]
    cases he : (s.heap a).endpos with
    | some e =>
      dsimp only
      have hle := (hm.inv.frame a hia.1).endpos e he
      rw [hlog, Out.bind_ok, setPos_eq env hle.2, Out.bind_ok]
      obtain ⟨k', d', hk'⟩ := hdone e he
      refine SimR.of rfl ?_ ?_
      · dsimp only
        rw [← hk']
        exact peg_unique E hoof (by rw [hk']; simp)
      · -- only the stage of the entry changed
        refine Next.reset (s' := { s with heap := setHeap s.heap a (idleFrame (s.heap a)) })
          ?_ (by rw [← hia.2.1]; exact hle.1) hle.2
        have hfr : ∀ b, FrameExt (s.heap b) (setHeap s.heap a (idleFrame (s.heap a)) b) := by
          intro b
          by_cases hba : b = a
          · subst hba
            rw [setHeap_self]
            exact ⟨rfl, rfl, fun _ => by simp [idleFrame], fun h => by omega, fun h => by omega, fun h => by omega,
              fun h => by omega, fun _ _ => ⟨rfl, rfl⟩, fun h => by omega, fun h => h⟩
          · rw [setHeap_ne _ _ hba]; exact FrameExt.refl _
        refine ⟨fun k1 d1 hk => ⟨Inv.upd hk.inv a idleFrame rfl rfl ?_, ?_, ?_, ?_⟩,
          ⟨Nat.le_refl _, Nat.le_refl _, rfl, fun _ => rfl, fun b _ => hfr b⟩, fun _ _ _ h => h, ?_⟩
        · have ho := hk.inv.frame a hia.1
          exact ⟨by simp [idleFrame], by simp [idleFrame], ho.endpos, by simp [idleFrame], ho.result, ho.nn⟩
        · intro p i b hb
          dsimp only at hb ⊢
          by_cases hba : b = a
          · subst hba
            rw [setHeap_self]
            rcases hk.good p i b hb with h | ⟨h, -⟩
            · exact Or.inl ⟨by simp [idleFrame], h.2⟩
            · omega
          · rw [setHeap_ne _ _ hba]; exact hk.good p i b hb
        · refine ⟨fun c hc => ?_, hk.calls.once⟩
          obtain ⟨b, h1, h2, h3⟩ := hk.calls.done c hc
          refine ⟨b, h1, ?_⟩
          dsimp only
          by_cases hba : b = a
          · subst hba; rw [setHeap_self]; exact ⟨by simp [idleFrame], h3⟩
          · rw [setHeap_ne _ _ hba]; exact ⟨h2, h3⟩
        · intro b hb
          dsimp only
          by_cases hba : b = a
          · subst hba; rw [setHeap_self]; exact hk.masks b hb
          · rw [setHeap_ne _ _ hba]; exact hk.masks b hb
        · intro p i b hb hb1
          dsimp only at hb hb1
          by_cases hba : b = a
          · subst hba; rw [setHeap_self] at hb1; simp [idleFrame] at hb1
          · rw [setHeap_ne _ _ hba] at hb1; exact ⟨hb, hb1⟩
    | none =>
      dsimp only
      have hs2 : cacheSet a none none (setStage a 1
          { s with heap := setHeap s.heap a (idleFrame (s.heap a)) }) =
          { s with heap := setHeap s.heap a (busyFrame (s.heap a)) } := by
        unfold cacheSet setStage updFrame busyFrame idleFrame
        dsimp only
        congr 1
        funext b
        unfold setHeap
        by_cases hba : b = a <;> simp [hba]
      rw [hs2]
      have hm0 : Memo E env k d1 s := hm.mono (by omega) (by omega)
      have hm2 : Memo E env k d1 { s with heap := setHeap s.heap a (busyFrame (s.heap a)) } :=
        hm0.begin ha ho1k he rfl
      have htop2 : TopPos { s with heap := setHeap s.heap a (busyFrame (s.heap a)) } s.pos := by
        obtain ⟨l, hl⟩ := hstk
        refine ⟨a, l, hl, ?_⟩
        dsimp only
        rw [setHeap_self]
        exact hia.2.1
      have hbody := prepareResult_sim (k := k) (d := d1) (i := body.info) (ofRule := true) (f := f)
        (o := pegKind E (fun n p => peg E k d1 n s.pos p) k body s.pos) hops hst hm2 htop2
        (fun n => hf d1 _ hd1 ((Next.aux (E := E) (env := env)
          (s := { s with heap := setHeap s.heap a (busyFrame (s.heap a)) })
          (s' := { s with heap := setHeap s.heap a (busyFrame (s.heap a)), counter := n })
            rfl rfl rfl rfl rfl rfl rfl).memo _ _ hm2) htop2 rfl (hd.imp_right fun h => by show s.stack.length + d1 ≤ _; omega))
      rw [← hres] at hbody
      rcases hbody.cases hoof with ⟨hB, h1⟩ | ⟨e, h1, h2⟩ | ⟨r, t, h1, h2, h3⟩
      · rw [h1]; exact Or.inl ⟨hB, rfl⟩
      · rw [h1, h2]; exact .panic
      · rw [h1, Out.bind_ok]
        obtain ⟨u, x, l, hu, rfl, hl⟩ := h3
        dsimp only
        have hua : (u.heap a).loopstage = 1 := by
          have hx := (hu.ext.frame a hia.1).st1 (by dsimp only; rw [setHeap_self]; rfl)
          rcases (hu.memo _ _ hm2).good _ _ _ (hu.keep _ _ _ ha) with h | h
          · omega
          · exact h.1
        rw [if_pos hua, hlog, Out.bind_ok]
        refine SimR.of rfl (by rw [h2]; rfl) ?_
        refine Next.finish hm0 hcached ha hstk hstage he rfl ho1k hu hl (r := r) (by rw [h2]) (h := x) ?_
        unfold cacheSet setStage updFrame doneFrame
        dsimp only
        congr 1
        funext b
        unfold setHeap
        by_cases hba : b = a <;> simp [hba]

/-- The engine refines the reference evaluator. -/
theorem parse_sim (hops : env.ops = E.P.ops H) (hst : env.st = E.st) (hq : Quiet env) (hval : env.st.Valid)
    (hg : env.g = E.g) (hwf : env.g.WfT (fun _ => False) True) (hal : env.g.NoAlias) :
    ∀ k d q, RecSim E env B k d q (parse env k) (fun n p => peg E k d n q p)
  | 0, _, _ => fun _ _ _ _ _ _ => SimR.oof
  | k + 1, d, q => by
    intro n s hn hm ht hd
    rw [parse]
    by_cases hrule : ∃ id, n = .rule id
    · obtain ⟨id, rfl⟩ := hrule
      have hid : id < env.g.numRules := by cases hn with | rule h => exact h.1
      obtain ⟨body, hb⟩ : ∃ b, env.g.rules[id]? = some b := by
        unfold Grammar.numRules at hid
        exact ⟨_, List.getElem?_eq_getElem hid⟩
      unfold wrap
      dsimp only
      rw [hb]
      dsimp only
      cases d with
      | zero =>
        have : peg E (k + 1) 0 (.rule id) q s.pos = .oof := by unfold peg; rw [← hg, hb]
        rw [this]; exact SimR.oof
      | succ d =>
        obtain ⟨a, s1, h1, h2, h3, h4, h5⟩ := getFrame_next (E := E) hm.inv hid
        have hm1 := h2.memo _ _ hm
        unfold stackPush
        rw [h1, Out.bind_ok]
        dsimp only
        by_cases hlt : s1.stack.length < stackCap
        case neg =>
          rw [if_neg hlt]
          rw [h5] at hlt
          exact Or.inl ⟨hd.resolve_right (by omega), rfl⟩
        rw [if_pos hlt, Out.bind_ok]
        rw [← h3] at h4
        have hls := loopify_sim (B := B) (k := k) (d := d + 1) (a := a) hops hst hq hval hg hb
          (f := parseKind env (parse env k) k body) (s := { s1 with stack := a :: s1.stack })
          (hm1.push h4) h4 ⟨_, rfl⟩ (hd.imp_right fun h => by show s1.stack.length + 1 + d ≤ _; rw [h5]; omega) (by
            intro d1 t hd1 hmt htt hpt hdt
            have hp : t.pos = s1.pos := hpt
            have := parseKind_sim (d := d1) (q := s1.pos) hops hst hval hg hwf
              (parse_sim hops hst hq hval hg hwf hal k d1 s1.pos) body t
              (hwf.rules _ (List.mem_of_getElem? hb)) hmt htt hdt (hal _ (List.mem_of_getElem? hb))
            rw [hp] at this
            exact this)
        rw [peg_rule E _ _ _ _ 0, ← h3]
        by_cases hoof : peg E (k + 1) (d + 1) (.rule id) 0 s1.pos = .oof
        · rw [hoof]; exact .oof
        rcases hls.cases hoof with ⟨hB, h6⟩ | ⟨e, h6, h7⟩ | ⟨r, t, h6, h7, h8⟩
        · rw [h6]; exact Or.inl ⟨hB, rfl⟩
        · rw [h6, h7]; exact .panic
        · rw [h6, Out.bind_ok]
          refine SimR.of rfl h7 ?_
          exact h2.trans (Next.pop h4 h8)
    · have hnr : ∀ id, n ≠ .rule id := fun id h => hrule ⟨id, h⟩
      have ht' : TopPos s q := by
        rcases ht with h | ⟨id, rfl⟩
        · exact h
        · exact absurd rfl (hnr id)
      have hkind : ∀ t : St V H, Memo E env k d t → TopPos t q → t.pos = s.pos → t.stack = s.stack →
          Sim E env B t (pegKind E (fun n p => peg E k d n q p) k n s.pos) (parseKind env (parse env k) k n t) := by
        intro t hmt htt hpt hst'
        rw [← hpt]
        exact parseKind_sim (d := d) (q := q) hops hst hval hg hwf
          (parse_sim hops hst hq hval hg hwf hal k d q) n t hn hmt htt (by rw [hst']; exact hd) hnr
      have hmk : Memo E env k d s := hm.mono (by omega) (Nat.le_refl _)
      have hw : wrap env (parse env k) k n s = if n.info.ownLabel || n.info.cb.isSome then
          prepareResult env false n.info (parseKind env (parse env k) k n) s
          else parseKind env (parse env k) k n s := by
        unfold wrap
        cases n <;> first | rfl | exact absurd rfl (hnr _)
      have hp : peg E (k + 1) d n q s.pos = if n.info.ownLabel || n.info.cb.isSome then
          (pegKind E (fun n p' => peg E k d n q p') k n s.pos >>= pegFinish E n.info q)
          else pegKind E (fun n p' => peg E k d n q p') k n s.pos := by
        cases n <;> first | rfl | exact absurd rfl (hnr _)
      rw [hw]
      show Sim E env B s (peg E (k + 1) d n q s.pos) _
      rw [hp]
      split
      · refine SimR.imp (prepareResult_sim (k := k) (d := d) hops hst hmk ht' fun m => ?_)
          fun s' h => Finished.next h
        exact hkind _ ((Next.aux (E := E) (env := env) (s := s) (s' := { s with counter := m })
          rfl rfl rfl rfl rfl rfl rfl).memo _ _ hmk) ht' rfl rfl
      · exact hkind s hmk ht' rfl rfl

end
end Joeson
