import Verif.Proofs.TraceLog4
import Verif.Proofs.Tracing
/-!
# What is noted does not depend on the options

As `Proofs/Tracing`, for the engine that notes every line: unless tracing panics, the same lines are noted with and without it.
-/

namespace Joeson
variable {V H : Type}

section
variable {env env0 : Env V (H × List LogLine)} {f : Nat → Bool} {l0 L : List String} {α β : Type}

theorem say_tsim {sh : Bool} (hsh : sh = true → env.trace.stack = true ∨ ∃ n ∈ env.g.rules, n.info.debug = true) {id : Nat} {m : Msg}
    {s : LSt V H} (h : s.pos ≤ env.st.len) {k k0 : LSt V H → Out (β × LSt V H)}
    (hk : TSim env l0 L (k (addLine id m s)) (k0 ((addLine id m s).at l0))) :
    TSim env l0 L (recordSay env sh id m s >>= k) (recordSay env0 false id m (s.at l0) >>= k0) := by
  unfold recordSay
  rw [Out.bind_assoc', Out.bind_assoc']
  exact log_tsim hsh h hk

theorem growT_tsim (T : Traced env env0 f) {sh : Bool} (id : Nat)
    (hsh : sh = true → env.trace.stack = true ∨ ∃ n ∈ env.g.rules, n.info.debug = true) {fp fp0 : Run V (H × List LogLine)}
    (hf : RunSim env l0 fp fp0) (a start : Nat) : ∀ (k : Nat) (r : V) (s : LSt V H), Good env L s →
    TSim env l0 L (growLoopT env (recordSay env) sh id fp a start k r s) (growLoopT env0 (recordSay env0) false id fp0 a start k r (s.at l0))
  | 0, _, _, _ => TSim.oof
  | k + 1, r, s, h => by
    rw [growLoopT, growLoopT]
    refine TSim.bind (wipe_tsim h) fun st s h => ?_
    refine say_tsim hsh (s := cacheSet a (some r) (some s.pos) s) (by exact h.pos) ?_
    refine setPos_tsim T (s := addLine id .iteration (cacheSet a (some r) (some s.pos) s)) ⟨h.pos, h.loop⟩ fun s' _ h' => ?_
    refine TSim.bind (hf L s' h') fun r' s2 h2 => ?_
    dsimp only
    show TSim env l0 L _ (if s2.pos ≤ s.pos then _ else _)
    split
    · exact TSim.ok h2
    · cases r' with
      | none => exact TSim.ok h2
      | some r' => exact growT_tsim T id hsh hf a start k r' s2 h2

/-- One rule. -/
theorem loopifyT_tsim (T : Traced env env0 f) {i i0 : Info} (hs : i.skipCache = i0.skipCache) (hd : i0.debug = false)
    (hr : (i.debug = true → ∃ n ∈ env.g.rules, n.info.debug = true) ∧
      (i.skipCache = true → ∃ n ∈ env.g.rules, n.info.skipCache = true)) (tx : V → H × List LogLine → Bytes) (k id : Nat)
    {fp fp0 : Run V (H × List LogLine)} (hf : RunSim env l0 fp fp0) : RunSim env l0 (loopifyT env (recordSay env) tx k id i fp) (loopifyT env0 (recordSay env0) tx k id i0 fp0) := by
  intro L s h
  have hsh : (env.trace.stack || i.debug) = true → env.trace.stack = true ∨ ∃ n ∈ env.g.rules, n.info.debug = true := by
    intro hx
    rcases Bool.or_eq_true _ _ ▸ hx with hx | hx
    · exact Or.inl hx
    · exact Or.inr (hr.1 hx)
  have h0 : (env0.trace.stack || i0.debug) = false := by rw [T.stack, hd]; rfl
  unfold loopifyT
  rw [h0]
  generalize (env.trace.stack || i.debug) = sh at hsh
  dsimp only
  refine say_tsim hsh h.pos ?_
  replace h : Good env L (addLine id (.enter s.counter) s) := ⟨h.pos, h.loop⟩
  generalize addLine id (.enter s.counter) s = s at h ⊢
  rw [← hs]
  cases hsk : i.skipCache with
  | true =>
    simp only [if_true]
    refine TSim.bind (hf L s h) fun r s1 h1 => ?_
    dsimp only
    cases r with
    | none =>
      cases sh with
      | false =>
        refine say_tsim hsh h1.pos ?_
        exact TSim.ok (s := addLine id (.result none) s1) ⟨h1.pos, h1.loop⟩
      | true => exact TSim.traced (Or.inl ⟨hsh rfl, Or.inr ⟨hr.2 hsk, rfl⟩⟩)
    | some v =>
      refine say_tsim hsh h1.pos ?_
      exact TSim.ok (s := addLine id (.result (some (tx v s1.h))) s1) ⟨h1.pos, h1.loop⟩
  | false =>
    simp only [Bool.false_eq_true, if_false]
    refine TSim.bind (getFrame_tsim T h) fun a s1 h1 => ?_
    dsimp only
    have e1 : (if ((s1.at l0).heap a).loopstage < 0 then setStage a 0 (s1.at l0) else s1.at l0) =
        (if (s1.heap a).loopstage < 0 then setStage a 0 s1 else s1).at l0 := by
      show (if (s1.heap a).loopstage < 0 then _ else _) = _
      split <;> rfl
    rw [e1]
    have h2 : Good env L (if (s1.heap a).loopstage < 0 then setStage a 0 s1 else s1) := by
      split <;> exact ⟨h1.pos, h1.loop⟩
    have hpos : (s1.at l0).pos = s1.pos := rfl
    rw [hpos]
    generalize hst : s1.pos = start
    clear e1
    generalize (if (s1.heap a).loopstage < 0 then setStage a 0 s1 else s1) = s2 at h2
    show TSim env l0 L _ (if (s2.heap a).loopstage = 0 then _ else _)
    by_cases hz : (s2.heap a).loopstage = 0
    · rw [if_pos hz, if_pos hz]
      show TSim env l0 L _ (match (s2.heap a).endpos with | some _ => _ | none => _)
      cases (s2.heap a).endpos with
      | some e =>
        dsimp only
        refine say_tsim hsh h2.pos ?_
        exact setPos_tsim T (s := addLine id (.hit ((s2.heap a).result.map fun v => tx v s2.h)) s2) ⟨h2.pos, h2.loop⟩ fun s' _ h' => TSim.ok h'
      | none =>
        dsimp only
        refine TSim.bind (hf L (cacheSet a none none (setStage a 1 s2)) ⟨h2.pos, h2.loop⟩) fun r s3 h3 => ?_
        dsimp only
        show TSim env l0 L _ (if (s3.heap a).loopstage = 1 then _ else if (s3.heap a).loopstage = 2 then _ else _)
        split
        · refine say_tsim hsh (s := cacheSet a r (some s3.pos) (setStage a 0 s3)) (by exact h3.pos) ?_
          exact TSim.ok (s := addLine id (.set (r.map fun v => tx v s3.h)) (cacheSet a r (some s3.pos) (setStage a 0 s3))) ⟨h3.pos, h3.loop⟩
        · split
          · cases r with
            | none =>
              dsimp only
              refine say_tsim hsh h3.pos ?_
              exact TSim.ok (s := setStage a 0 (addLine id .loopNil s3)) ⟨h3.pos, h3.loop⟩
            | some r =>
              dsimp only
              rw [T.loop]
              simp only [Bool.false_and, Bool.false_eq_true, if_false]
              have h4 : ∃ L0, Good env L0 (if (env.trace.loop && (decide (env.trace.filterLine < 0) ||
                  env.st.line (setStage a 3 s3).pos == env.trace.filterLine)) = true
                  then { setStage a 3 s3 with loopStack := i.name :: (setStage a 3 s3).loopStack } else setStage a 3 s3) ∧
                  (env.trace.loop = true → env.trace.filterLine < 0 → L0 = i.name :: L) ∧
                  (env.trace.loop = false → L0 = L) := by
                cases hlp : env.trace.loop with
                | false => exact ⟨L, ⟨h3.pos, h3.loop⟩, (fun h => by cases h), fun _ => rfl⟩
                | true =>
                  by_cases hfl : env.trace.filterLine < 0
                  · refine ⟨i.name :: L, ?_, fun _ _ => rfl, fun h => by cases h⟩
                    simp only [hfl, decide_true, Bool.true_or, Bool.and_true, if_true]
                    exact ⟨h3.pos, fun _ => by show i.name :: s3.loopStack = _; rw [h3.loop hfl]⟩
                  · refine ⟨L, ?_, fun _ h => absurd h hfl, fun h => by cases h⟩
                    split <;> exact ⟨h3.pos, fun h => absurd h hfl⟩
              obtain ⟨L0, h4, hL, hL'⟩ := h4
              have e4 : setStage a 3 (s3.at l0) = (if (env.trace.loop && (decide (env.trace.filterLine < 0) ||
                  env.st.line (setStage a 3 s3).pos == env.trace.filterLine)) = true
                  then { setStage a 3 s3 with loopStack := i.name :: (setStage a 3 s3).loopStack } else setStage a 3 s3).at l0 := by
                split <;> rfl
              rw [e4]
              generalize (if (env.trace.loop && (decide (env.trace.filterLine < 0) ||
                  env.st.line (setStage a 3 s3).pos == env.trace.filterLine)) = true
                  then { setStage a 3 s3 with loopStack := i.name :: (setStage a 3 s3).loopStack } else setStage a 3 s3) = s4 at h4
              refine TSim.bind (growT_tsim T id hsh hf a start k r s4 h4) fun b s5 h5 => ?_
              obtain ⟨bs, be, br⟩ := b
              dsimp only
              have := pop_tsim (l0 := l0) T hL hL' h5 (k := fun s => do
                  let (_, s) ← wipeWith a s
                  let s := restoreWith bs s
                  let s ← setPos env be s
                  let s ← recordSay env sh id (.done (some (tx br s.h))) s
                  .ok (some br, setStage a 0 s)) (k0 := fun s => do
                  let (_, s) ← wipeWith a s
                  let s := restoreWith bs s
                  let s ← setPos env0 be s
                  let s ← recordSay env0 false id (.done (some (tx br s.h))) s
                  .ok (some br, setStage a 0 s)) (by
                intro s6 _ h6
                refine TSim.bind (wipe_tsim h6) fun _ s7 h7 => ?_
                dsimp only
                refine setPos_tsim T (s := restoreWith bs s7) ⟨h7.pos, h7.loop⟩ fun s' _ h' => ?_
                refine say_tsim hsh h'.pos ?_
                exact TSim.ok (s := setStage a 0 (addLine id (.done (some (tx br s'.h))) s')) ⟨h'.pos, h'.loop⟩)
              rw [T.loop] at this
              simp only [Bool.false_eq_true, if_false] at this
              exact this
          · exact TSim.same
    · rw [if_neg hz, if_neg hz]
      show TSim env l0 L _ (if (s2.heap a).loopstage = 1 ∨ (s2.heap a).loopstage = 2 ∨ (s2.heap a).loopstage = 3 then _ else _)
      split
      · have e5 : (if ((s2.at l0).heap a).loopstage = 1 then setStage a 2 (s2.at l0) else s2.at l0) =
            (if (s2.heap a).loopstage = 1 then setStage a 2 s2 else s2).at l0 := by
          show (if (s2.heap a).loopstage = 1 then _ else _) = _
          split <;> rfl
        rw [e5]
        have h5 : Good env L (if (s2.heap a).loopstage = 1 then setStage a 2 s2 else s2) := by
          split <;> exact ⟨h2.pos, h2.loop⟩
        generalize (if (s2.heap a).loopstage = 1 then setStage a 2 s2 else s2) = s3 at h5
        refine say_tsim hsh h5.pos ?_
        replace h5 : Good env L (addLine id (.base ((s3.heap a).result.map fun v => tx v s3.h)) s3) := ⟨h5.pos, h5.loop⟩
        have eb : ((s3.at l0).heap a).result.map (fun v => tx v (s3.at l0).h) = (s3.heap a).result.map (fun v => tx v s3.h) := rfl
        generalize addLine id (.base ((s3.heap a).result.map fun v => tx v s3.h)) s3 = s3 at h5 ⊢
        refine collectMask_at s3.heap start id s3.stack.tail _ h5 fun m => ?_
        show TSim env l0 L _ (match ((updFrame a (fun f => { f with wipemask := some m }) s3).heap a).endpos with | some _ => _ | none => _)
        cases ((updFrame a (fun f => { f with wipemask := some m }) s3).heap a).endpos with
        | some e =>
          dsimp only
          exact setPos_tsim T (s := updFrame a (fun f => { f with wipemask := some m }) s3) ⟨h5.pos, h5.loop⟩
            fun s' _ h' => TSim.ok h'
        | none => exact TSim.ok (s := updFrame a (fun f => { f with wipemask := some m }) s3) ⟨h5.pos, h5.loop⟩
      · exact TSim.same

theorem wrapT_tsim (T : Traced env env0 f) (hst : env.st.Valid) (tx : V → H × List LogLine → Bytes) {rc rc0 : Node → Run V (H × List LogLine)}
    (hr : ∀ n, RunSim env l0 (rc n) (rc0 n)) (k : Nat) (n : Node) :
    RunSim env l0 (wrapT env (recordSay env) tx rc k n) (wrapT env0 (recordSay env0) tx rc0 k n) := by
  have hk := parseKind_tsim T hst hr k
  intro L s h
  unfold wrapT
  split
  · rename_i id
    rw [T.g, Grammar.setDebug_rules]
    cases hb : env0.g.rules[id]? with
    | none => exact TSim.same
    | some body =>
      dsimp only [Option.map]
      have hmem : body.setDebug (f id) ∈ env.g.rules := by
        have : env.g.rules[id]? = some (body.setDebug (f id)) := by
          rw [T.g, Grammar.setDebug_rules, hb]; rfl
        exact List.mem_of_getElem? this
      have hd := T.debug body (List.mem_of_getElem? hb)
      refine stackPush_tsim T h fun s1 h1 => ?_
      rw [parseKind_setDebug]
      refine TSim.bind (loopifyT_tsim T (by cases body <;> rfl) hd ⟨fun hx => ⟨_, hmem, hx⟩, fun hx => ⟨_, hmem, hx⟩⟩ tx k id
        (prepare_tsim T (by cases body <;> rfl) (by cases body <;> rfl) (by cases body <;> rfl) (by cases body <;> rfl)
          true (hk body)) L s1 h1) fun r s2 h2 => ?_
      exact TSim.ok (s := stackPop s2) ⟨h2.pos, h2.loop⟩
  · split
    · exact prepare_tsim T rfl rfl rfl rfl false (hk n) L s h
    · exact hk n L s h

/-- **With and without tracing the same lines are noted.** -/
theorem parseT_tsim (T : Traced env env0 f) (hst : env.st.Valid) (tx : V → H × List LogLine → Bytes) :
    ∀ k n, RunSim env l0 (parseT env (recordSay env) tx k n) (parseT env0 (recordSay env0) tx k n)
  | 0, n, L, s, h => TSim.oof
  | k + 1, n, L, s, h => wrapT_tsim T hst tx (parseT_tsim T hst tx k) k n L s h

end
end Joeson
