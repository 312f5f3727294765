import Verif.Proofs.Invariant
import Verif.Proofs.GrammarParse
import Verif.Spec.Tracing
/-!
# Tracing does not change what the engine does

Two environments that differ only in tracing (trace options, rule level Debug, SkipLog, how the context
is rendered) and possibly in line numbers, when the values do not record them.
-/

namespace Joeson
variable {V H : Type}

theorem Grammar.setDebug_rules (g : Grammar) (f : Nat → Bool) (id : Nat) :
    (g.setDebug f).rules[id]? = (g.rules[id]?).map (Node.setDebug (f id)) := by
  simp [Grammar.setDebug, List.getElem?_mapIdx]

/-- `env` is `env0` with tracing. -/
structure Traced (env env0 : Env V H) (f : Nat → Bool) : Prop where
  ops : env.ops = env0.ops
  len : env.st.len = env0.st.len
  string : env.st.matchString = env0.st.matchString
  regexp : env.st.matchRegexp = env0.st.matchRegexp
  line : env.st.line = env0.st.line ∨ ∀ v o h l, env.ops.origin v { o with line := l } h = env.ops.origin v o h
  g : env.g = env0.g.setDebug f
  stack : env0.trace.stack = false
  loop : env0.trace.loop = false
  debug : ∀ n ∈ env0.g.rules, n.info.debug = false

/-- Panics raised by the tracing code. -/
def TracePanic (env : Env V H) (e : Panic) : Prop :=
  ((env.trace.stack = true ∨ ∃ n ∈ env.g.rules, n.info.debug = true) ∧
    ((env.skipLog = false ∧ ∃ p, p ≤ env.st.len ∧ env.st.render p = .error e) ∨
      ((∃ n ∈ env.g.rules, n.info.skipCache = true) ∧ e = .nilDeref))) ∨
  (env.trace.loop = true ∧ 0 ≤ env.trace.filterLine ∧ e = .loopStackEmpty)

/-- The same state with another loop stack, which is only used for tracing. -/
def St.at (l : List String) (s : St V H) : St V H := { s with loopStack := l }

/-- The state is inside the text, and its loop stack is `L` unless lines are filtered. -/
structure Good (env : Env V H) (L : List String) (s : St V H) : Prop where
  pos : s.pos ≤ env.st.len
  loop : env.trace.filterLine < 0 → s.loopStack = L

/-- The traced outcome `x` is a panic of the tracing code, or the same as the untraced outcome. -/
def TSim (env : Env V H) (l0 : List String) {α : Type} (L : List String) (x x0 : Out (α × St V H)) : Prop :=
  (∃ e, x = .panic e ∧ TracePanic env e) ∨ (x = .oof ∧ x0 = .oof) ∨ (∃ e, x = .panic e ∧ x0 = .panic e) ∨
    ∃ r s, x = .ok (r, s) ∧ x0 = .ok (r, s.at l0) ∧ Good env L s

section
variable {env env0 : Env V H} {f : Nat → Bool} {l0 L : List String} {α β : Type}

theorem TSim.ok {r : α} {s : St V H} (h : Good env L s) : TSim env l0 L (.ok (r, s)) (.ok (r, s.at l0)) :=
  Or.inr (Or.inr (Or.inr ⟨r, s, rfl, rfl, h⟩))

theorem TSim.same {e : Panic} : TSim (V := V) (α := α) env l0 L (.panic e) (.panic e) :=
  Or.inr (Or.inr (Or.inl ⟨e, rfl, rfl⟩))

theorem TSim.oof : TSim (V := V) (α := α) env l0 L .oof .oof := Or.inr (Or.inl ⟨rfl, rfl⟩)

theorem TSim.traced {e : Panic} {x0 : Out (α × St V H)} (h : TracePanic env e) : TSim env l0 L (.panic e) x0 :=
  Or.inl ⟨e, rfl, h⟩

theorem TSim.bind {L' : List String} {x x0 : Out (α × St V H)} {k k0 : α × St V H → Out (β × St V H)}
    (h : TSim env l0 L x x0) (hk : ∀ r s, Good env L s → TSim env l0 L' (k (r, s)) (k0 (r, s.at l0))) :
    TSim env l0 L' (x >>= k) (x0 >>= k0) := by
  rcases h with ⟨e, rfl, h⟩ | ⟨rfl, rfl⟩ | ⟨e, rfl, rfl⟩ | ⟨r, s, rfl, rfl, h⟩
  · exact TSim.traced h
  · exact TSim.oof
  · exact TSim.same
  · exact hk r s h

/-- `SetPos`. -/
theorem setPos_tsim (T : Traced env env0 f) {n : Nat} {s : St V H} (h : Good env L s)
    {k k0 : St V H → Out (β × St V H)} (hk : ∀ s', s' = { s with pos := n } → Good env L s' → TSim env l0 L (k s') (k0 (s'.at l0))) :
    TSim env l0 L (setPos env n s >>= k) (setPos env0 n (s.at l0) >>= k0) := by
  unfold setPos
  rw [← T.len]
  by_cases hn : n ≤ env.st.len
  · rw [if_pos hn, if_pos hn, Out.bind_ok, Out.bind_ok]
    exact hk { s with pos := n } rfl ⟨hn, h.loop⟩
  · rw [if_neg hn, if_neg hn]
    exact TSim.same

/-- Logging. -/
theorem log_tsim {sh : Bool} (hsh : sh = true → env.trace.stack = true ∨ ∃ n ∈ env.g.rules, n.info.debug = true)
    {s s0 : St V H} (h : s.pos ≤ env.st.len) {k k0 : Unit → Out (β × St V H)} (hk : TSim env l0 L (k ()) (k0 ())) :
    TSim env l0 L (logIf env sh s >>= k) (logIf env0 false s0 >>= k0) := by
  have h0 : logIf env0 false s0 = .ok () := rfl
  rw [h0, Out.bind_ok]
  have key : logIf env sh s = .ok () ∨ ∃ e, logIf env sh s = .panic e ∧ TracePanic env e := by
    unfold logIf
    split
    · rename_i hs
      unfold logHook
      split
      · exact Or.inl rfl
      · rename_i hl
        split
        · cases hr : env.st.render s.pos with
          | ok _ => exact Or.inl rfl
          | error e =>
            exact Or.inr ⟨e, rfl, Or.inl ⟨hsh hs, Or.inl ⟨by simpa using hl, s.pos, h, hr⟩⟩⟩
        · exact Or.inl rfl
    · exact Or.inl rfl
  rcases key with h1 | ⟨e, h1, h2⟩
  · rw [h1, Out.bind_ok]; exact hk
  · rw [h1]; exact TSim.traced h2

theorem hook_tsim (hsh : env.trace.stack = true ∨ ∃ n ∈ env.g.rules, n.info.debug = true)
    {s : St V H} (h : s.pos ≤ env.st.len) {k : Unit → Out (β × St V H)} {x0 : Out (β × St V H)}
    (hk : TSim env l0 L (k ()) x0) : TSim env l0 L (logHook env s >>= k) x0 := by
  have := log_tsim (env0 := env) (s0 := s) (sh := true) (k0 := fun _ => x0) (fun _ => hsh) h hk
  exact this

theorem setDebug_info (g : Grammar) (f : Nat → Bool) (c : Node) :
    ((g.setDebug f).info c).label = (g.info c).label ∧ ((g.setDebug f).info c).capture = (g.info c).capture := by
  cases c with
  | rule id =>
    unfold Grammar.info
    dsimp only
    rw [Grammar.setDebug_rules]
    cases g.rules[id]? with
    | none => exact ⟨rfl, rfl⟩
    | some n => cases n <;> exact ⟨rfl, rfl⟩
  | _ => exact ⟨rfl, rfl⟩

theorem Traced.numRules (T : Traced env env0 f) : env.g.numRules = env0.g.numRules := by
  rw [T.g]; simp [Grammar.setDebug, Grammar.numRules]

theorem getFrame_tsim (T : Traced env env0 f) {id : Nat} {s : St V H} (h : Good env L s) :
    TSim env l0 L (getFrame env id s) (getFrame env0 id (s.at l0)) := by
  unfold getFrame
  rw [← T.len, ← T.numRules]
  show TSim env l0 L _ (if s.pos ≤ env.st.len ∧ id < env.g.numRules then _ else _)
  split
  · show TSim env l0 L _ (match s.table s.pos id with | some _ => _ | none => _)
    cases s.table s.pos id with
    | some a => exact TSim.ok h
    | none => exact TSim.ok ⟨h.pos, h.loop⟩
  · exact TSim.same

theorem wipe_tsim {a : Nat} {s : St V H} (h : Good env L s) :
    TSim env l0 L (wipeWith a s) (wipeWith a (s.at l0)) := by
  unfold wipeWith
  show TSim env l0 L _ (match (s.heap a).wipemask with | none => _ | some _ => _)
  cases (s.heap a).wipemask with
  | none => exact TSim.same
  | some m => exact TSim.ok ⟨h.pos, h.loop⟩

/-- What a parser does with and without tracing. -/
def RunSim (env : Env V H) (l0 : List String) (r r0 : Run V H) : Prop :=
  ∀ L s, Good env L s → TSim env l0 L (r s) (r0 (s.at l0))

theorem grow_tsim (T : Traced env env0 f) {sh : Bool}
    (hsh : sh = true → env.trace.stack = true ∨ ∃ n ∈ env.g.rules, n.info.debug = true) {fp fp0 : Run V H}
    (hf : RunSim env l0 fp fp0) (a start : Nat) : ∀ (k : Nat) (r : V) (s : St V H), Good env L s →
    TSim env l0 L (growLoop env sh fp a start k r s) (growLoop env0 false fp0 a start k r (s.at l0))
  | 0, _, _, _ => TSim.oof
  | k + 1, r, s, h => by
    rw [growLoop, growLoop]
    refine TSim.bind (wipe_tsim h) fun st s h => ?_
    refine log_tsim hsh (by exact h.pos) ?_
    refine setPos_tsim T (s := cacheSet a (some r) (some s.pos) s) ⟨h.pos, h.loop⟩ fun s' _ h' => ?_
    refine TSim.bind (hf L s' h') fun r' s2 h2 => ?_
    dsimp only
    show TSim env l0 L _ (if s2.pos ≤ s.pos then _ else _)
    split
    · exact TSim.ok h2
    · cases r' with
      | none => exact TSim.ok h2
      | some r' => exact grow_tsim T hsh hf a start k r' s2 h2

/-- The loop stack is pushed before growing and popped afterwards. -/
theorem pop_tsim (T : Traced env env0 f) {s : St V H} {nm : String} {k k0 : St V H → Out (β × St V H)} {L0 : List String}
    (hL : env.trace.loop = true → env.trace.filterLine < 0 → L0 = nm :: L) (hL' : env.trace.loop = false → L0 = L)
    (h : Good env L0 s) (hk : ∀ s', s'.at l0 = s.at l0 → Good env L s' → TSim env l0 L (k s') (k0 (s'.at l0))) :
    TSim env l0 L
      ((if env.trace.loop then
          match s.loopStack with
          | [] => .panic .loopStackEmpty
          | _ :: l => .ok { s with loopStack := l }
        else .ok s) >>= k)
      ((if env0.trace.loop then
          match (s.at l0).loopStack with
          | [] => .panic .loopStackEmpty
          | _ :: l => .ok { s.at l0 with loopStack := l }
        else .ok (s.at l0)) >>= k0) := by
  rw [T.loop]
  simp only [Bool.false_eq_true, if_false]
  rw [Out.bind_ok]
  cases hl : env.trace.loop with
  | false =>
    simp only [Bool.false_eq_true, if_false]
    rw [Out.bind_ok]
    exact hk s rfl ⟨h.pos, fun hf => by rw [h.loop hf, hL' hl]⟩
  | true =>
    simp only [if_true]
    by_cases hf : env.trace.filterLine < 0
    · rw [h.loop hf, hL hl hf]
      dsimp only
      rw [Out.bind_ok]
      exact hk { s with loopStack := L } rfl ⟨h.pos, fun _ => rfl⟩
    · cases hs : s.loopStack with
      | nil => exact TSim.traced (Or.inr ⟨hl, by omega, rfl⟩)
      | cons x l =>
        dsimp only
        rw [Out.bind_ok]
        exact hk { s with loopStack := l } rfl ⟨h.pos, fun h' => absurd h' hf⟩

theorem collectMask_at (heap : Nat → Frame V) (start id : Nat) (st : List Nat) (m : Nat → Bool) {s : St V H}
    (h : Good env L s) {k k0 : (Nat → Bool) → Out (β × St V H)}
    (hk : ∀ m, TSim env l0 L (k m) (k0 m)) :
    TSim env l0 L (collectMask heap start id st m >>= k) (collectMask heap start id st m >>= k0) := by
  cases collectMask heap start id st m with
  | ok m => exact hk m
  | panic e => exact TSim.same
  | oof => exact TSim.oof

/-- One rule. -/
theorem loopify_tsim (T : Traced env env0 f) {i i0 : Info} (hs : i.skipCache = i0.skipCache) (hd : i0.debug = false)
    (hr : (i.debug = true → ∃ n ∈ env.g.rules, n.info.debug = true) ∧
      (i.skipCache = true → ∃ n ∈ env.g.rules, n.info.skipCache = true)) (k id : Nat)
    {fp fp0 : Run V H} (hf : RunSim env l0 fp fp0) : RunSim env l0 (loopify env k id i fp) (loopify env0 k id i0 fp0) := by
  intro L s h
  have hsh : (env.trace.stack || i.debug) = true → env.trace.stack = true ∨ ∃ n ∈ env.g.rules, n.info.debug = true := by
    intro hx
    rcases Bool.or_eq_true _ _ ▸ hx with hx | hx
    · exact Or.inl hx
    · exact Or.inr (hr.1 hx)
  have h0 : (env0.trace.stack || i0.debug) = false := by rw [T.stack, hd]; rfl
  unfold loopify
  rw [h0]
  generalize (env.trace.stack || i.debug) = sh at hsh
  dsimp only
  refine log_tsim hsh h.pos ?_
  rw [← hs]
  cases hsk : i.skipCache with
  | true =>
    simp only [if_true]
    refine TSim.bind (hf L s h) fun r s1 h1 => ?_
    dsimp only
    cases sh with
    | false => exact TSim.ok h1
    | true =>
      simp only [if_true]
      have hx := hsh rfl
      cases r with
      | none => exact TSim.traced (Or.inl ⟨hx, Or.inr ⟨hr.2 hsk, rfl⟩⟩)
      | some v => exact hook_tsim hx h1.pos (TSim.ok h1)
  | false =>
    simp only [Bool.false_eq_true, if_false]
    refine TSim.bind (getFrame_tsim T h) fun a s1 h1 => ?_
    dsimp only
    have e1 : (if ((s1.at l0).heap a).loopstage < 0 then setStage a 0 (s1.at l0) else s1.at l0) =
        (if (s1.heap a).loopstage < 0 then setStage a 0 s1 else s1).at l0 := by
      show (if (s1.heap a).loopstage < 0 then _ else _) = _
      split <;> rfl
    rw [e1]
    have h2 : Good env L (if (s1.heap a).loopstage < 0 then setStage a 0 s1 else s1) := by
      split <;> exact ⟨h1.pos, h1.loop⟩
    have hpos : (s1.at l0).pos = s1.pos := rfl
    rw [hpos]
    generalize hst : s1.pos = start
    clear e1
    generalize (if (s1.heap a).loopstage < 0 then setStage a 0 s1 else s1) = s2 at h2
    show TSim env l0 L _ (if (s2.heap a).loopstage = 0 then _ else _)
    by_cases hz : (s2.heap a).loopstage = 0
    · rw [if_pos hz, if_pos hz]
      show TSim env l0 L _ (match (s2.heap a).endpos with | some _ => _ | none => _)
      cases (s2.heap a).endpos with
      | some e =>
        dsimp only
        refine log_tsim hsh h2.pos ?_
        refine setPos_tsim T h2 fun s' _ h' => TSim.ok h'
      | none =>
        dsimp only
        refine TSim.bind (hf L (cacheSet a none none (setStage a 1 s2)) ⟨h2.pos, h2.loop⟩) fun r s3 h3 => ?_
        dsimp only
        show TSim env l0 L _ (if (s3.heap a).loopstage = 1 then _ else if (s3.heap a).loopstage = 2 then _ else _)
        split
        · refine log_tsim hsh (by exact h3.pos) ?_
          exact TSim.ok (s := cacheSet a r (some s3.pos) (setStage a 0 s3)) ⟨h3.pos, h3.loop⟩
        · split
          · cases r with
            | none =>
              dsimp only
              refine log_tsim hsh h3.pos ?_
              exact TSim.ok (s := setStage a 0 s3) ⟨h3.pos, h3.loop⟩
            | some r =>
              dsimp only
              rw [T.loop]
              simp only [Bool.false_and, Bool.false_eq_true, if_false]
              have h4 : ∃ L0, Good env L0 (if (env.trace.loop && (decide (env.trace.filterLine < 0) ||
                  env.st.line (setStage a 3 s3).pos == env.trace.filterLine)) = true
                  then { setStage a 3 s3 with loopStack := i.name :: (setStage a 3 s3).loopStack } else setStage a 3 s3) ∧
                  (env.trace.loop = true → env.trace.filterLine < 0 → L0 = i.name :: L) ∧
                  (env.trace.loop = false → L0 = L) := by
                cases hlp : env.trace.loop with
                | false => exact ⟨L, ⟨h3.pos, h3.loop⟩, (fun h => by cases h), fun _ => rfl⟩
                | true =>
                  by_cases hfl : env.trace.filterLine < 0
                  · refine ⟨i.name :: L, ?_, fun _ _ => rfl, fun h => by cases h⟩
                    simp only [hfl, decide_true, Bool.true_or, Bool.and_true, if_true]
                    exact ⟨h3.pos, fun _ => by show i.name :: s3.loopStack = _; rw [h3.loop hfl]⟩
                  · refine ⟨L, ?_, fun _ h => absurd h hfl, fun h => by cases h⟩
                    split <;> exact ⟨h3.pos, fun h => absurd h hfl⟩
              obtain ⟨L0, h4, hL, hL'⟩ := h4
              have e4 : setStage a 3 (s3.at l0) = (if (env.trace.loop && (decide (env.trace.filterLine < 0) ||
                  env.st.line (setStage a 3 s3).pos == env.trace.filterLine)) = true
                  then { setStage a 3 s3 with loopStack := i.name :: (setStage a 3 s3).loopStack } else setStage a 3 s3).at l0 := by
                split <;> rfl
              rw [e4]
              generalize (if (env.trace.loop && (decide (env.trace.filterLine < 0) ||
                  env.st.line (setStage a 3 s3).pos == env.trace.filterLine)) = true
                  then { setStage a 3 s3 with loopStack := i.name :: (setStage a 3 s3).loopStack } else setStage a 3 s3) = s4 at h4
              refine TSim.bind (grow_tsim T hsh hf a start k r s4 h4) fun b s5 h5 => ?_
              obtain ⟨bs, be, br⟩ := b
              dsimp only
              have := pop_tsim (l0 := l0) T hL hL' h5 (k := fun s => do
                  let (_, s) ← wipeWith a s
                  let s := restoreWith bs s
                  let s ← setPos env be s
                  logIf env sh s
                  .ok (some br, setStage a 0 s)) (k0 := fun s => do
                  let (_, s) ← wipeWith a s
                  let s := restoreWith bs s
                  let s ← setPos env0 be s
                  logIf env0 false s
                  .ok (some br, setStage a 0 s)) (by
                intro s6 _ h6
                refine TSim.bind (wipe_tsim h6) fun _ s7 h7 => ?_
                dsimp only
                refine setPos_tsim T (s := restoreWith bs s7) ⟨h7.pos, h7.loop⟩ fun s' _ h' => ?_
                refine log_tsim hsh h'.pos ?_
                exact TSim.ok (s := setStage a 0 s') ⟨h'.pos, h'.loop⟩)
              rw [T.loop] at this
              simp only [Bool.false_eq_true, if_false] at this
              exact this
          · exact TSim.same
    · rw [if_neg hz, if_neg hz]
      show TSim env l0 L _ (if (s2.heap a).loopstage = 1 ∨ (s2.heap a).loopstage = 2 ∨ (s2.heap a).loopstage = 3 then _ else _)
      split
      · have e5 : (if ((s2.at l0).heap a).loopstage = 1 then setStage a 2 (s2.at l0) else s2.at l0) =
            (if (s2.heap a).loopstage = 1 then setStage a 2 s2 else s2).at l0 := by
          show (if (s2.heap a).loopstage = 1 then _ else _) = _
          split <;> rfl
        rw [e5]
        have h5 : Good env L (if (s2.heap a).loopstage = 1 then setStage a 2 s2 else s2) := by
          split <;> exact ⟨h2.pos, h2.loop⟩
        generalize (if (s2.heap a).loopstage = 1 then setStage a 2 s2 else s2) = s3 at h5
        refine log_tsim hsh h5.pos ?_
        refine collectMask_at s3.heap start id s3.stack.tail _ h5 fun m => ?_
        show TSim env l0 L _ (match ((updFrame a (fun f => { f with wipemask := some m }) s3).heap a).endpos with | some _ => _ | none => _)
        cases ((updFrame a (fun f => { f with wipemask := some m }) s3).heap a).endpos with
        | some e =>
          dsimp only
          exact setPos_tsim T (s := updFrame a (fun f => { f with wipemask := some m }) s3) ⟨h5.pos, h5.loop⟩
            fun s' _ h' => TSim.ok h'
        | none => exact TSim.ok (s := updFrame a (fun f => { f with wipemask := some m }) s3) ⟨h5.pos, h5.loop⟩
      · exact TSim.same

theorem origin_eq (T : Traced env env0 f) (v : V) (a b p : Nat) (nm : String) (h : H) :
    env.ops.origin v ⟨a, b, env.st.line p, nm⟩ h = env0.ops.origin v ⟨a, b, env0.st.line p, nm⟩ h := by
  rcases T.line with hl | hl
  · rw [T.ops, hl]
  · have := hl v ⟨a, b, env0.st.line p, nm⟩ h (env.st.line p)
    rw [T.ops] at this ⊢
    exact this

theorem peek_tsim {s : St V H} {k k0 : Nat → Out (β × St V H)}
    (hk : ∀ a, TSim env l0 L (k a) (k0 a)) :
    TSim env l0 L (stackPeek s >>= k) (stackPeek (s.at l0) >>= k0) := by
  unfold stackPeek
  show TSim env l0 L _ ((match s.stack with | _ :: _ => _ | [] => _) >>= k0)
  cases s.stack with
  | nil => exact TSim.same
  | cons a l => exact hk a

theorem except_tsim {γ : Type} {x : Except Panic γ} {k k0 : γ → Out (β × St V H)} (hk : ∀ a, x = .ok a → TSim env l0 L (k a) (k0 a)) :
    TSim env l0 L (Out.ofExcept x >>= k) (Out.ofExcept x >>= k0) := by
  cases x with
  | ok a => exact hk a rfl
  | error e => exact TSim.same

/-- Writing the origin. -/
theorem origin_tsim (T : Traced env env0 f) {v : V} {a p : Nat} {nm : String} {h : H} {s : St V H} {cl : List Call}
    (hs : Good env L s) :
    TSim env l0 L
      (let (v, h) := env.ops.origin v ⟨a, p, env.st.line p, nm⟩ h
       .ok (some v, { s with h := h, calls := cl }) : Out (Option V × St V H))
      (let (v, h) := env.ops.origin v ⟨a, p, env0.st.line p, nm⟩ h
       .ok (some v, { s.at l0 with h := h, calls := cl })) := by
  have e := origin_eq T v a p p nm h
  rw [← T.ops] at e
  rw [e]
  exact TSim.ok (s := { s with h := _, calls := cl }) ⟨hs.pos, hs.loop⟩

/-- Label, callback and origin. -/
theorem prepare_tsim (T : Traced env env0 f) {i i0 : Info} (hl : i.label = i0.label) (hp : i.parent = i0.parent)
    (hc : i.cb = i0.cb) (hn : i.ruleName = i0.ruleName) (b : Bool) {fp fp0 : Run V H} (hf : RunSim env l0 fp fp0) :
    RunSim env l0 (prepareResult env b i fp) (prepareResult env0 b i0 fp0) := by
  intro L s h
  unfold prepareResult
  have how : i.ownLabel = i0.ownLabel := by unfold Info.ownLabel; rw [hl, hp]
  rw [how, hl, hc, hn, ← T.ops]
  dsimp only
  refine TSim.bind (hf L { s with counter := s.counter + 1 } ⟨h.pos, h.loop⟩) fun r s1 h1 => ?_
  cases r with
  | none => exact TSim.ok h1
  | some v =>
    dsimp only
    have eh : (St.at l0 s1).h = s1.h := rfl
    rw [eh]
    generalize (if i0.ownLabel then env.ops.newMap i0.label v s1.h else (v, s1.h)) = x
    obtain ⟨v, hh⟩ := x
    dsimp only
    cases i0.cb with
    | none =>
      dsimp only
      refine peek_tsim (s := { s1 with h := hh }) fun a => ?_
      exact origin_tsim T (cl := s1.calls) h1
    | some c =>
      dsimp only
      refine except_tsim fun x _ => ?_
      obtain ⟨rv, h3⟩ := x
      dsimp only
      cases rv with
      | none => exact TSim.ok (s := { s1 with h := h3, calls := _ }) ⟨h1.pos, h1.loop⟩
      | some v =>
        dsimp only
        refine peek_tsim (s := { s1 with h := h3, calls := mkCall c b { s1 with h := hh } :: s1.calls }) fun a => ?_
        exact origin_tsim T (cl := mkCall c b { s1 with h := hh } :: s1.calls) h1

/-- Alternatives. -/
theorem parseAlts_tsim (T : Traced env env0 f) {rc rc0 : Node → Run V H} (hr : ∀ n, RunSim env l0 (rc n) (rc0 n)) :
    ∀ l, RunSim env l0 (parseAlts env rc l) (parseAlts env0 rc0 l)
  | [], L, s, h => by
    unfold parseAlts
    exact TSim.ok h
  | c :: cs, L, s, h => by
    unfold parseAlts
    refine TSim.bind (hr c L s h) fun r s1 h1 => ?_
    cases r with
    | none =>
      refine setPos_tsim T h1 fun s' _ h' => ?_
      exact parseAlts_tsim T hr cs L s' h'
    | some v => exact TSim.ok h1

theorem seqAdd_info (ops : Ops V H) (repr : SeqRepr) {i i0 : Info} (hl : i.label = i0.label) (hc : i.capture = i0.capture)
    (acc : SeqAcc V) (v : V) (h : H) : seqAdd ops repr i acc v h = seqAdd ops repr i0 acc v h := by
  unfold seqAdd
  rw [hl, hc]

/-- Sequences. -/
theorem parseItems_tsim (T : Traced env env0 f) {rc rc0 : Node → Run V H} (hr : ∀ n, RunSim env l0 (rc n) (rc0 n))
    (repr : SeqRepr) : ∀ l acc, RunSim env l0 (parseItems env rc repr l acc) (parseItems env0 rc0 repr l acc)
  | [], acc, L, s, h => by
    unfold parseItems
    rw [← T.ops]
    exact TSim.ok (s := { s with h := _ }) ⟨h.pos, h.loop⟩
  | c :: cs, acc, L, s, h => by
    unfold parseItems
    refine TSim.bind (hr c L s h) fun r s1 h1 => ?_
    cases r with
    | none => exact TSim.ok h1
    | some v =>
      dsimp only
      have hi := setDebug_info env0.g f c
      rw [← T.g] at hi
      rw [← T.ops, seqAdd_info env.ops repr hi.1 hi.2]
      refine except_tsim fun x _ => ?_
      obtain ⟨acc', hh⟩ := x
      exact parseItems_tsim T hr repr cs acc' L { s1 with h := hh } ⟨h1.pos, h1.loop⟩

/-- Repetitions. -/
theorem parseRep_tsim (T : Traced env env0 f) {rc rc0 : Node → Run V H} (hr : ∀ n, RunSim env l0 (rc n) (rc0 n))
    (value : Node) (join : Option Node) (mn mx : Int) (start : Nat) :
    ∀ k ms, RunSim env l0 (parseRep env rc value join mn mx start k ms) (parseRep env0 rc0 value join mn mx start k ms)
  | 0, ms, L, s, h => TSim.oof
  | k + 1, ms, L, s, h => by
    have fin : ∀ (ms : List V) (s1 : St V H), Good env L s1 → TSim env l0 L
        (if mn > -1 ∧ mn > (ms.length : Int) then do
            let s ← setPos env start s1
            .ok (none, s)
          else
            let (v, h) := env.ops.arr ms s1.h
            .ok (some v, { s1 with h := h }) : Out (Option V × St V H))
        (if mn > -1 ∧ mn > (ms.length : Int) then do
            let s ← setPos env0 start (s1.at l0)
            .ok (none, s)
          else
            let (v, h) := env0.ops.arr ms (s1.at l0).h
            .ok (some v, { s1.at l0 with h := h })) := by
      intro ms s1 h1
      split
      · exact setPos_tsim T h1 fun s' _ h' => TSim.ok h'
      · rw [← T.ops]
        exact TSim.ok (s := { s1 with h := _ }) ⟨h1.pos, h1.loop⟩
    unfold parseRep
    dsimp only
    have hj : TSim env l0 L
        (match join with
          | none => .ok (true, s)
          | some j => do
            let (r, s) ← rc j s
            .ok (r.isSome, s))
        (match join with
          | none => .ok (true, s.at l0)
          | some j => do
            let (r, s) ← rc0 j (s.at l0)
            .ok (r.isSome, s)) := by
      cases join with
      | none => exact TSim.ok h
      | some j => exact TSim.bind (hr j L s h) fun r s1 h1 => TSim.ok h1
    refine TSim.bind hj fun b s1 h1 => ?_
    cases b with
    | false =>
      refine setPos_tsim T h1 fun s' _ h' => ?_
      exact fin ms s' h'
    | true =>
      refine TSim.bind (hr value L s1 h1) fun r s2 h2 => ?_
      cases r with
      | none =>
        refine setPos_tsim T h2 fun s' _ h' => ?_
        exact fin ms s' h'
      | some v =>
        dsimp only
        split
        · exact fin (ms ++ [v]) s2 h2
        · exact parseRep_tsim T hr value join mn mx start k (ms ++ [v]) L s2 h2

/-- The operators. -/
theorem parseKind_tsim (T : Traced env env0 f) (hst : env.st.Valid) {rc rc0 : Node → Run V H}
    (hr : ∀ n, RunSim env l0 (rc n) (rc0 n)) (k : Nat) :
    ∀ n, RunSim env l0 (parseKind env rc k n) (parseKind env0 rc0 k n)
  | .str i b, L, s, h => by
    unfold parseKind
    rw [← T.string, ← T.ops]
    refine except_tsim fun x hx => ?_
    obtain ⟨m, p⟩ := x
    have hp : p ≤ env.st.len := by
      obtain ⟨_, _, he, _, hq, _⟩ := hst.string s.pos b h.pos
      cases hx.symm.trans he
      exact hq
    cases m <;> exact TSim.ok (s := { s with pos := p }) ⟨hp, h.loop⟩
  | .regex i b, L, s, h => by
    unfold parseKind
    rw [← T.regexp, ← T.ops]
    refine except_tsim fun x hx => ?_
    obtain ⟨m, p⟩ := x
    have hp : p ≤ env.st.len := by
      obtain ⟨_, _, he, _, hq, _⟩ := hst.regexp s.pos b h.pos
      cases hx.symm.trans he
      exact hq
    cases m <;> exact TSim.ok (s := { s with pos := p }) ⟨hp, h.loop⟩
  | .choice i l, L, s, h => parseAlts_tsim T hr l L s h
  | .seq i r l, L, s, h => parseItems_tsim T hr r l {} L s h
  | .exist i n, L, s, h => by
    unfold parseKind
    refine TSim.bind (hr n L s h) fun r s1 h1 => ?_
    cases r with
    | none =>
      refine setPos_tsim T h1 fun s' _ h' => ?_
      rw [← T.ops]
      exact TSim.ok h'
    | some v => exact TSim.ok h1
  | .look i n, L, s, h => by
    unfold parseKind
    refine TSim.bind (hr n L s h) fun r s1 h1 => ?_
    exact setPos_tsim T h1 fun s' _ h' => TSim.ok h'
  | .not i n, L, s, h => by
    unfold parseKind
    refine TSim.bind (hr n L s h) fun r s1 h1 => ?_
    refine setPos_tsim T h1 fun s' _ h' => ?_
    rw [← T.ops]
    cases r <;> exact TSim.ok h'
  | .pattern i v j mn mx, L, s, h => by
    unfold parseKind
    refine TSim.bind (hr v L s h) fun r s1 h1 => ?_
    cases r with
    | none =>
      refine setPos_tsim T h1 fun s' _ h' => ?_
      split
      · exact TSim.ok h'
      · rw [← T.ops]
        exact TSim.ok (s := { s' with h := _ }) ⟨h'.pos, h'.loop⟩
    | some v' => exact parseRep_tsim T hr v j mn mx s.pos k [v'] L s1 h1
  | .ref i nm, L, s, h => by
    unfold parseKind
    have hlk : env.g.lookup nm = env0.g.lookup nm := by rw [T.g]; rfl
    dsimp only
    rw [hlk]
    cases env0.g.lookup nm with
    | none => exact TSim.same
    | some id => exact peek_tsim fun _ => hr (.rule id) L s h
  | .rule id, L, s, h => hr (.rule id) L s h

theorem parseKind_setDebug (rc : Node → Run V H) (k : Nat) (b : Bool) (n : Node) :
    parseKind env rc k (n.setDebug b) = parseKind env rc k n := by
  cases n <;> rfl

theorem stackPush_tsim (T : Traced env env0 f) {id : Nat} {s : St V H} (h : Good env L s)
    {k k0 : St V H → Out (β × St V H)} (hk : ∀ s', Good env L s' → TSim env l0 L (k s') (k0 (s'.at l0))) :
    TSim env l0 L (stackPush env id s >>= k) (stackPush env0 id (s.at l0) >>= k0) := by
  unfold stackPush
  have assoc : ∀ {α β γ : Type} (x : Out α) (f : α → Out β) (g : β → Out γ), (x >>= f >>= g) = (x >>= fun a => f a >>= g) := by
    intro α β γ x f g
    cases x <;> rfl
  rw [assoc, assoc]
  refine TSim.bind (getFrame_tsim T h) fun a s1 h1 => ?_
  show TSim env l0 L ((if s1.stack.length < stackCap then _ else _) >>= k) ((if s1.stack.length < stackCap then _ else _) >>= k0)
  by_cases hc : s1.stack.length < stackCap
  · rw [if_pos hc, if_pos hc]
    exact hk { s1 with stack := a :: s1.stack } ⟨h1.pos, h1.loop⟩
  · rw [if_neg hc, if_neg hc]
    exact TSim.same

theorem wrap_tsim (T : Traced env env0 f) (hst : env.st.Valid) {rc rc0 : Node → Run V H}
    (hr : ∀ n, RunSim env l0 (rc n) (rc0 n)) (k : Nat) (n : Node) :
    RunSim env l0 (wrap env rc k n) (wrap env0 rc0 k n) := by
  have hk := parseKind_tsim T hst hr k
  intro L s h
  unfold wrap
  split
  · rename_i id
    rw [T.g, Grammar.setDebug_rules]
    cases hb : env0.g.rules[id]? with
    | none => exact TSim.same
    | some body =>
      dsimp only [Option.map]
      have hmem : body.setDebug (f id) ∈ env.g.rules := by
        have : env.g.rules[id]? = some (body.setDebug (f id)) := by
          rw [T.g, Grammar.setDebug_rules, hb]; rfl
        exact List.mem_of_getElem? this
      have hd := T.debug body (List.mem_of_getElem? hb)
      refine stackPush_tsim T h fun s1 h1 => ?_
      rw [parseKind_setDebug]
      refine TSim.bind (loopify_tsim T (by cases body <;> rfl) hd ⟨fun hx => ⟨_, hmem, hx⟩, fun hx => ⟨_, hmem, hx⟩⟩ k id
        (prepare_tsim T (by cases body <;> rfl) (by cases body <;> rfl) (by cases body <;> rfl) (by cases body <;> rfl)
          true (hk body)) L s1 h1) fun r s2 h2 => ?_
      exact TSim.ok (s := stackPop s2) ⟨h2.pos, h2.loop⟩
  · split
    · exact prepare_tsim T rfl rfl rfl rfl false (hk n) L s h
    · exact hk n L s h

/-- **Tracing only adds panics of the tracing code.** -/
theorem parse_tsim (T : Traced env env0 f) (hst : env.st.Valid) :
    ∀ k n, RunSim env l0 (parse env k n) (parse env0 k n)
  | 0, n, L, s, h => TSim.oof
  | k + 1, n, L, s, h => wrap_tsim T hst (parse_tsim T hst k) k n L s h

theorem scanRow_at (s : St V H) (l : List String) (pos : Nat) : ∀ n, scanRow (s.at l) pos n = scanRow s pos n
  | 0 => rfl
  | n + 1 => by
    rw [scanRow, scanRow, scanRow_at s l pos n]
    rfl

theorem scanRows_at (s : St V H) (l : List String) (n : Nat) : ∀ cnt pos acc,
    scanRows (s.at l) n pos cnt acc = scanRows s n pos cnt acc
  | 0, _, _ => by rw [scanRows, scanRows]
  | cnt + 1, pos, (a, b) => by
    rw [scanRows, scanRows, scanRow_at]
    obtain ⟨x, y⟩ := scanRow s pos n
    exact scanRows_at s l n cnt _ _

/-- The environment of a parse call. -/
def parseEnv (ops : Ops V H) (st : Stream) (g : Grammar) (tr : Trace) (o : CtxOptions) : Env V H :=
  { ops := ops, st := st, g := g, trace := if o.debug then { tr with stack := true } else tr, skipLog := o.skipLog }

/-- Two calls whose environments are related give the same, or the traced one panics in the tracing code. -/
theorem grammarParse_tsim {ops : Ops V H} {st : Stream} {g : Grammar} {tr : Trace} {o : CtxOptions}
    (hst : st.Valid) (report : Nat → Nat → Nat → Except Panic Report) (f : Nat → Bool) (k : Nat) (h : H)
    {start : Nat} (hstart : start ≤ st.len) :
    (grammarParse ops st report (g.setDebug f) tr o k h start).1.seen =
      (grammarParse ops st report (g.setDebug fun _ => false) {} {} k h start).1.seen ∨
    ∃ e, (grammarParse ops st report (g.setDebug f) tr o k h start).1 = .panic e ∧
      TracePanic (parseEnv ops st (g.setDebug f) tr o) e := by
  have hg : g.setDebug f = (g.setDebug fun _ => false).setDebug f := by
    unfold Grammar.setDebug
    congr 1
    dsimp only
    rw [List.mapIdx_mapIdx]
    congr 1
    funext id n
    cases n <;> rfl
  have T : Traced (parseEnv ops st (g.setDebug f) tr o) (parseEnv ops st (g.setDebug fun _ => false) {} {}) f := by
    refine ⟨rfl, rfl, rfl, rfl, Or.inl rfl, hg, rfl, rfl, ?_⟩
    intro n hn
    have hn : n ∈ (g.setDebug fun _ => false).rules := hn
    obtain ⟨i, hi, he⟩ := List.getElem_of_mem hn
    have : (g.setDebug fun _ => false).rules[i]? = some n := by rw [List.getElem?_eq_getElem hi, he]
    rw [Grammar.setDebug_rules] at this
    cases hb : g.rules[i]? with
    | none => rw [hb] at this; cases this
    | some b =>
      rw [hb] at this
      cases this
      cases b with
      | rule j => rfl
      | _ => rfl
  have hroot : (g.setDebug f).root = g.root ∧ (g.setDebug fun _ => false).root = g.root := ⟨rfl, rfl⟩
  have key := parse_tsim (l0 := []) T hst k g.root [] (newState h start) ⟨hstart, fun _ => rfl⟩
  have hat : St.at [] (newState (V := V) h start) = newState h start := rfl
  rw [hat] at key
  unfold grammarParse
  rw [hroot.1, hroot.2]
  show (Out.seen (Prod.fst (match parse (parseEnv ops st (g.setDebug f) tr o) k g.root (newState h start) with
    | .panic e => _ | .oof => _ | .ok (r, s) => _))) = Out.seen (Prod.fst (match
      parse (parseEnv ops st (g.setDebug fun _ => false) {} {}) k g.root (newState h start) with
    | .panic e => _ | .oof => _ | .ok (r, s) => _)) ∨ ∃ e, Prod.fst (match parse (parseEnv ops st (g.setDebug f) tr o) k g.root (newState h start) with
    | .panic e => _ | .oof => _ | .ok (r, s) => _) = _ ∧ _
  have hn : (g.setDebug f).numRules = (g.setDebug fun _ => false).numRules := by simp [Grammar.setDebug, Grammar.numRules]
  rcases key with ⟨e, h1, h2⟩ | ⟨h1, h2⟩ | ⟨e, h1, h2⟩ | ⟨r, s, h1, h2, h3⟩
  · rw [h1]
    exact Or.inr ⟨e, rfl, h2⟩
  · rw [h1, h2]
    exact Or.inl rfl
  · rw [h1, h2]
    exact Or.inl rfl
  · rw [h1, h2]
    refine Or.inl ?_
    dsimp only
    have hp : (s.at []).pos = s.pos := rfl
    rw [hp, hn, scanRows_at]
    split
    · cases report s.pos (scanRows s (g.setDebug fun _ => false).numRules s.pos (st.len + 1 - s.pos) (s.pos, s.pos)).2
        (scanRows s (g.setDebug fun _ => false).numRules s.pos (st.len + 1 - s.pos) (s.pos, s.pos)).1 with
      | error e => rfl
      | ok rep => rfl
    · cases r <;> rfl

/-- Rendering the context of an ASCII text never panics. -/
theorem renderRune_ascii (text : Bytes) (ha : ∀ b ∈ text, b < 0x80) {p : Nat} (hp : p ≤ text.length) (e : Panic) :
    renderRune text p ≠ .error e := by
  intro h
  have he := renderRune_error text hp e h
  have hv := runeAt_valid text hp
  unfold renderRune at h
  extract_lets c at h
  subst c
  have hcol := (C02_line_col (runeAt text p) hv p hp).2
  have hcol' : (runeAt text p).col = .ok ((Spec.afterLastNewline (text.take p)).length : Int) := hcol
  rw [hcol'] at h
  simp only [C14_sliceString_js, bind, Except.bind] at h
  obtain ⟨b, hb⟩ := peekRunes_nonneg_ok _ hv 20 (by omega)
  rw [hb] at h
  have hasc : ∀ t : Bytes, (∀ b ∈ t, b < 0x80) → t = Spec.utf8 (t.map UInt8.toNat) := by
    intro t ht
    induction t with
    | nil => rfl
    | cons b t ih =>
      have hb : b.toNat < 0x80 := UInt8.lt_iff_toNat_lt.mp (ht b (by simp))
      rw [List.map_cons, utf8_cons, ← ih fun x hx => ht x (by simp [hx])]
      have : (Spec.utf8Nat b.toNat).map UInt8.ofNat = [b] := by
        unfold Spec.utf8Nat
        rw [if_pos hb]
        simp
      rw [this]; rfl
  have hpk : ∃ t, (runeAt text p).peekRunes (-5) = .ok t := by
    unfold RuneStream.peekRunes
    have hs : goSlice (runeAt text p).text 0 ((runeAt text p).pos : Int) = .ok ((runeAt text p).text.take (runeAt text p).pos) := by
      have := goSlice_ok (runeAt text p).text 0 (runeAt text p).pos (by omega) hv.inside
      simpa using this
    rw [if_pos (by omega), hs]
    simp only [bind, Except.bind]
    have hta := hasc (text.take p) fun x hx => ha x (List.mem_of_mem_take hx)
    show ∃ t, lastNRunes (text.take p) _ = .ok t
    rw [hta, C16_lastNRunes]
    · exact ⟨_, rfl⟩
    · intro r hr
      rw [List.mem_map] at hr
      obtain ⟨b, hb, rfl⟩ := hr
      have hb : b.toNat < 0x80 := UInt8.lt_iff_toNat_lt.mp (ha b (List.mem_of_mem_take hb))
      exact ⟨Or.inl (by omega), by omega⟩
  obtain ⟨t, ht⟩ := hpk
  rw [ht] at h
  cases h

end
end Joeson
