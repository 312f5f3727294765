import Verif.Model.Overlap
import Verif.Proofs.Tracing
import Verif.Proofs.TraceLog6
/-!
# Calls that overlap: simulations
-/

namespace Joeson
variable {V H : Type}

section
variable {env env0 : Env V H} {f : Nat → Bool} {l0 L : List String} {α β : Type}

/-- `loopify` (packrat.go:83-253) for a given `showLog`. -/
def loopifySh (env : Env V H) (show_ : Bool) (fuel : Nat) (id : Nat) (i : Info) (fparse : Run V H) : Run V H := fun s => do
  logIf env show_ s
  if i.skipCache then
    let (r, s) ← fparse s
    if show_ then
      match r with
      | none => .panic .nilDeref            -- result.String() on nil, packrat.go:93
      | some _ => do logHook env s; .ok (r, s)
    else .ok (r, s)
  else
    let (a, s) ← getFrame env id s
    let startPos := s.pos
    let s := if (s.heap a).loopstage < 0 then setStage a 0 s else s
    if (s.heap a).loopstage = 0 then
      match (s.heap a).endpos with
      | some e => do
        logIf env show_ s
        let s' ← setPos env e s
        .ok ((s.heap a).result, s')
      | none => do
        let s := cacheSet a none none (setStage a 1 s)
        let (r, s) ← fparse s
        if (s.heap a).loopstage = 1 then
          let s := cacheSet a r (some s.pos) (setStage a 0 s)
          logIf env show_ s
          .ok (r, s)
        else if (s.heap a).loopstage = 2 then
          match r with
          | none => do
            logIf env show_ s
            .ok (none, setStage a 0 s)
          | some r => do
            let s := setStage a 3 s
            let s := if env.trace.loop && (decide (env.trace.filterLine < 0) ||
                env.st.line s.pos == env.trace.filterLine)
              then { s with loopStack := i.name :: s.loopStack } else s
            let ((bestStash, bestEndPos, bestResult), s) ← growLoop env show_ fparse a startPos fuel r s
            let s ← (if env.trace.loop then
                match s.loopStack with
                | [] => .panic .loopStackEmpty    -- loopStack[:len-1] on an empty slice
                | _ :: l => .ok { s with loopStack := l }
              else .ok s)
            let (_, s) ← wipeWith a s
            let s := restoreWith bestStash s
            let s ← setPos env bestEndPos s
            logIf env show_ s
            .ok (some bestResult, setStage a 0 s)
        else .panic .unexpectedStage
    else if (s.heap a).loopstage = 1 ∨ (s.heap a).loopstage = 2 ∨ (s.heap a).loopstage = 3 then do
      let s := if (s.heap a).loopstage = 1 then setStage a 2 s else s
      logIf env show_ s
      let m ← collectMask s.heap startPos id s.stack.tail ((s.heap a).wipemask.getD fun _ => false)
      let s := updFrame a (fun f => { f with wipemask := some m }) s
      let r := (s.heap a).result
      match (s.heap a).endpos with
      | some e => do
        let s ← setPos env e s
        .ok (r, s)
      | none => .ok (r, s)
    else .panic .unexpectedStage

theorem growLoop_stackIs (env : Env V H) (b sh : Bool) (fp : Run V H) (a start : Nat) : ∀ (k : Nat) (r : V) (s : St V H),
    growLoop (env.stackIs b) sh fp a start k r s = growLoop env sh fp a start k r s
  | 0, _, _ => rfl
  | k + 1, r, s => by
    have ih := growLoop_stackIs env b sh fp a start k
    rw [growLoop, growLoop]
    simp only [ih]
    rfl

theorem loopify_stackIs (env : Env V H) (b : Bool) (k id : Nat) (i : Info) (fp : Run V H) :
    loopify (env.stackIs b) k id i fp = loopifySh env (b || i.debug) k id i fp := by
  show loopifySh (env.stackIs b) (b || i.debug) k id i fp = _
  generalize (b || i.debug) = sh
  funext s
  unfold loopifySh
  simp only [growLoop_stackIs]
  rfl

/-- One rule, where `TraceOptions.Stack` is read as `b`. -/
theorem loopifyC_tsim (T : Traced env env0 f) (hall : env.trace.stack = true) (b : Bool) {i i0 : Info} (hs : i.skipCache = i0.skipCache) (hd : i0.debug = false)
    (hr : (i.debug = true → ∃ n ∈ env.g.rules, n.info.debug = true) ∧
      (i.skipCache = true → ∃ n ∈ env.g.rules, n.info.skipCache = true)) (k id : Nat)
    {fp fp0 : Run V H} (hf : RunSim env l0 fp fp0) : RunSim env l0 (loopify (env.stackIs b) k id i fp) (loopify (env0.stackIs false) k id i0 fp0) := by
  intro L s h
  have hsh : (b || i.debug) = true → env.trace.stack = true ∨ ∃ n ∈ env.g.rules, n.info.debug = true := fun _ => .inl hall
  have h0 : (false || i0.debug) = false := by rw [hd]; rfl
  rw [loopify_stackIs, loopify_stackIs, h0]
  generalize (b || i.debug) = sh at hsh
  unfold loopifySh
  dsimp only
  refine log_tsim hsh h.pos ?_
  rw [← hs]
  cases hsk : i.skipCache with
  | true =>
    simp only [if_true]
    refine TSim.bind (hf L s h) fun r s1 h1 => ?_
    dsimp only
    cases sh with
    | false => exact TSim.ok h1
    | true =>
      simp only [if_true]
      have hx := hsh rfl
      cases r with
      | none => exact TSim.traced (Or.inl ⟨hx, Or.inr ⟨hr.2 hsk, rfl⟩⟩)
      | some v => exact hook_tsim hx h1.pos (TSim.ok h1)
  | false =>
    simp only [Bool.false_eq_true, if_false]
    refine TSim.bind (getFrame_tsim T h) fun a s1 h1 => ?_
    dsimp only
    have e1 : (if ((s1.at l0).heap a).loopstage < 0 then setStage a 0 (s1.at l0) else s1.at l0) =
        (if (s1.heap a).loopstage < 0 then setStage a 0 s1 else s1).at l0 := by
      show (if (s1.heap a).loopstage < 0 then _ else _) = _
      split <;> rfl
    rw [e1]
    have h2 : Good env L (if (s1.heap a).loopstage < 0 then setStage a 0 s1 else s1) := by
      split <;> exact ⟨h1.pos, h1.loop⟩
    have hpos : (s1.at l0).pos = s1.pos := rfl
    rw [hpos]
    generalize hst : s1.pos = start
    clear e1
    generalize (if (s1.heap a).loopstage < 0 then setStage a 0 s1 else s1) = s2 at h2
    show TSim env l0 L _ (if (s2.heap a).loopstage = 0 then _ else _)
    by_cases hz : (s2.heap a).loopstage = 0
    · rw [if_pos hz, if_pos hz]
      show TSim env l0 L _ (match (s2.heap a).endpos with | some _ => _ | none => _)
      cases (s2.heap a).endpos with
      | some e =>
        dsimp only
        refine log_tsim hsh h2.pos ?_
        refine setPos_tsim T h2 fun s' _ h' => TSim.ok h'
      | none =>
        dsimp only
        refine TSim.bind (hf L (cacheSet a none none (setStage a 1 s2)) ⟨h2.pos, h2.loop⟩) fun r s3 h3 => ?_
        dsimp only
        show TSim env l0 L _ (if (s3.heap a).loopstage = 1 then _ else if (s3.heap a).loopstage = 2 then _ else _)
        split
        · refine log_tsim hsh (by exact h3.pos) ?_
          exact TSim.ok (s := cacheSet a r (some s3.pos) (setStage a 0 s3)) ⟨h3.pos, h3.loop⟩
        · split
          · cases r with
            | none =>
              dsimp only
              refine log_tsim hsh h3.pos ?_
              exact TSim.ok (s := setStage a 0 s3) ⟨h3.pos, h3.loop⟩
            | some r =>
              dsimp only
              rw [T.loop]
              simp only [Bool.false_and, Bool.false_eq_true, if_false]
              have h4 : ∃ L0, Good env L0 (if (env.trace.loop && (decide (env.trace.filterLine < 0) ||
                  env.st.line (setStage a 3 s3).pos == env.trace.filterLine)) = true
                  then { setStage a 3 s3 with loopStack := i.name :: (setStage a 3 s3).loopStack } else setStage a 3 s3) ∧
                  (env.trace.loop = true → env.trace.filterLine < 0 → L0 = i.name :: L) ∧
                  (env.trace.loop = false → L0 = L) := by
                cases hlp : env.trace.loop with
                | false => exact ⟨L, ⟨h3.pos, h3.loop⟩, (fun h => by cases h), fun _ => rfl⟩
                | true =>
                  by_cases hfl : env.trace.filterLine < 0
                  · refine ⟨i.name :: L, ?_, fun _ _ => rfl, fun h => by cases h⟩
                    simp only [hfl, decide_true, Bool.true_or, Bool.and_true, if_true]
                    exact ⟨h3.pos, fun _ => by show i.name :: s3.loopStack = _; rw [h3.loop hfl]⟩
                  · refine ⟨L, ?_, fun _ h => absurd h hfl, fun h => by cases h⟩
                    split <;> exact ⟨h3.pos, fun h => absurd h hfl⟩
              obtain ⟨L0, h4, hL, hL'⟩ := h4
              have e4 : setStage a 3 (s3.at l0) = (if (env.trace.loop && (decide (env.trace.filterLine < 0) ||
                  env.st.line (setStage a 3 s3).pos == env.trace.filterLine)) = true
                  then { setStage a 3 s3 with loopStack := i.name :: (setStage a 3 s3).loopStack } else setStage a 3 s3).at l0 := by
                split <;> rfl
              rw [e4]
              generalize (if (env.trace.loop && (decide (env.trace.filterLine < 0) ||
                  env.st.line (setStage a 3 s3).pos == env.trace.filterLine)) = true
                  then { setStage a 3 s3 with loopStack := i.name :: (setStage a 3 s3).loopStack } else setStage a 3 s3) = s4 at h4
              refine TSim.bind (grow_tsim T hsh hf a start k r s4 h4) fun b s5 h5 => ?_
              obtain ⟨bs, be, br⟩ := b
              dsimp only
              have := pop_tsim (l0 := l0) T hL hL' h5 (k := fun s => do
                  let (_, s) ← wipeWith a s
                  let s := restoreWith bs s
                  let s ← setPos env be s
                  logIf env sh s
                  .ok (some br, setStage a 0 s)) (k0 := fun s => do
                  let (_, s) ← wipeWith a s
                  let s := restoreWith bs s
                  let s ← setPos env0 be s
                  logIf env0 false s
                  .ok (some br, setStage a 0 s)) (by
                intro s6 _ h6
                refine TSim.bind (wipe_tsim h6) fun _ s7 h7 => ?_
                dsimp only
                refine setPos_tsim T (s := restoreWith bs s7) ⟨h7.pos, h7.loop⟩ fun s' _ h' => ?_
                refine log_tsim hsh h'.pos ?_
                exact TSim.ok (s := setStage a 0 s') ⟨h'.pos, h'.loop⟩)
              rw [T.loop] at this
              simp only [Bool.false_eq_true, if_false] at this
              exact this
          · exact TSim.same
    · rw [if_neg hz, if_neg hz]
      show TSim env l0 L _ (if (s2.heap a).loopstage = 1 ∨ (s2.heap a).loopstage = 2 ∨ (s2.heap a).loopstage = 3 then _ else _)
      split
      · have e5 : (if ((s2.at l0).heap a).loopstage = 1 then setStage a 2 (s2.at l0) else s2.at l0) =
            (if (s2.heap a).loopstage = 1 then setStage a 2 s2 else s2).at l0 := by
          show (if (s2.heap a).loopstage = 1 then _ else _) = _
          split <;> rfl
        rw [e5]
        have h5 : Good env L (if (s2.heap a).loopstage = 1 then setStage a 2 s2 else s2) := by
          split <;> exact ⟨h2.pos, h2.loop⟩
        generalize (if (s2.heap a).loopstage = 1 then setStage a 2 s2 else s2) = s3 at h5
        refine log_tsim hsh h5.pos ?_
        refine collectMask_at s3.heap start id s3.stack.tail _ h5 fun m => ?_
        show TSim env l0 L _ (match ((updFrame a (fun f => { f with wipemask := some m }) s3).heap a).endpos with | some _ => _ | none => _)
        cases ((updFrame a (fun f => { f with wipemask := some m }) s3).heap a).endpos with
        | some e =>
          dsimp only
          exact setPos_tsim T (s := updFrame a (fun f => { f with wipemask := some m }) s3) ⟨h5.pos, h5.loop⟩
            fun s' _ h' => TSim.ok h'
        | none => exact TSim.ok (s := updFrame a (fun f => { f with wipemask := some m }) s3) ⟨h5.pos, h5.loop⟩
      · exact TSim.same


end

section
variable {env env0 : Env V (H × Nat)} {f : Nat → Bool} {l0 L : List String}

theorem wrapC_tsim (T : Traced env env0 f) (hall : env.trace.stack = true) (hst : env.st.Valid) (flag : Nat → Bool) {rc rc0 : Node → Run V (H × Nat)}
    (hr : ∀ n, RunSim env l0 (rc n) (rc0 n)) (k : Nat) (n : Node) :
    RunSim env l0 (wrapC env flag rc k n) (wrapC env0 (fun _ => false) rc0 k n) := by
  have hk := parseKind_tsim T hst hr k
  intro L s h
  unfold wrapC
  split
  · rename_i id
    rw [T.g, Grammar.setDebug_rules]
    cases hb : env0.g.rules[id]? with
    | none => exact TSim.same
    | some body =>
      dsimp only [Option.map]
      have hmem : body.setDebug (f id) ∈ env.g.rules := by
        have : env.g.rules[id]? = some (body.setDebug (f id)) := by
          rw [T.g, Grammar.setDebug_rules, hb]; rfl
        exact List.mem_of_getElem? this
      have hd := T.debug body (List.mem_of_getElem? hb)
      refine stackPush_tsim T h fun s1 h1 => ?_
      rw [parseKind_setDebug]
      refine TSim.bind (loopifyC_tsim T hall _ (by cases body <;> rfl) hd ⟨fun hx => ⟨_, hmem, hx⟩, fun hx => ⟨_, hmem, hx⟩⟩ k id
        (prepare_tsim T (by cases body <;> rfl) (by cases body <;> rfl) (by cases body <;> rfl) (by cases body <;> rfl)
          true (hk body)) L { s1 with h := (s1.h.1, s1.h.2 + 1) } ⟨h1.pos, h1.loop⟩) fun r s2 h2 => ?_
      exact TSim.ok (s := stackPop s2) ⟨h2.pos, h2.loop⟩
  · split
    · exact prepare_tsim T rfl rfl rfl rfl false (hk n) L s h
    · exact hk n L s h

/-- Whatever is found in `TraceOptions.Stack` only adds panics of the tracing code. -/
theorem parseC_tsim (T : Traced env env0 f) (hall : env.trace.stack = true) (hst : env.st.Valid) (flag : Nat → Bool) :
    ∀ k n, RunSim env l0 (parseC env flag k n) (parseC env0 (fun _ => false) k n)
  | 0, n, L, s, h => TSim.oof
  | k + 1, n, L, s, h => wrapC_tsim T hall hst flag (parseC_tsim T hall hst flag k) k n L s h

end

/-- The engine without and with a clock. -/
def clockSim (ops : Ops V H) : ValSim ops ops.clocked where
  W := Unit
  I _ h h' := h'.1 = h
  R _ _ _ v v' := v = v'
  Le _ _ _ _ _ := True
  le_refl _ _ _ := trivial
  le_trans _ _ := trivial
  mono _ h := h
  str _ _ _ _ := rfl
  undef _ _ _ := rfl
  arr := by rintro w h h' l l' rfl hl; cases lrel_eq hl; exact ⟨rfl, trivial, rfl⟩
  newMap := by rintro w h h' v v' k rfl rfl; exact ⟨rfl, trivial, rfl⟩
  origin := by rintro w h h' v v' o rfl rfl; exact ⟨rfl, trivial, rfl⟩
  cb := by
    rintro w h h' v v' c p rfl rfl
    show ERel _ (ops.cb c v p h'.1) ((ops.cb c v p h'.1).map _)
    rcases ops.cb c v p h'.1 with e | ⟨r, k⟩
    · rfl
    · refine ⟨rfl, trivial, ?_⟩
      cases r with
      | none => exact .none
      | some x => exact .some rfl
  Acc _ _ _ _ _ r r' _ := r = r'
  acc_undef := by rintro w h0 h0' h h' r r' w2 rfl; rfl
  acc_le h _ := h
  acc_done h hi := ⟨hi, trivial, h, fun _ _ h => h⟩
  acc_new := by rintro w h0 h0' h h' v v' k - rfl rfl; exact ⟨(), rfl, rfl, fun _ _ h => h⟩
  acc_set := by
    rintro w h0 h0' h h' r r' w2 v v' k rfl rfl rfl
    show ERel _ (ops.mapSet r k v h'.1) ((ops.mapSet r k v h'.1).map _)
    rcases ops.mapSet r k v h'.1 with e | ⟨r, k⟩
    · rfl
    · exact ⟨(), rfl, rfl, fun _ _ h => h⟩
  splice := True
  acc_def := Or.inl trivial
  acc_val _ := fun {w h0 h0' h h' v v'} _ hi hv => ⟨(), hv, hi, fun _ _ h => h⟩
  acc_merge := by
    rintro w h0 h0' h h' r r' w2 v v' rfl rfl rfl
    show ERel _ (ops.merge r v h'.1) ((ops.merge r v h'.1).map _)
    rcases ops.merge r v h'.1 with e | ⟨r, k⟩
    · rfl
    · exact ⟨(), rfl, rfl, fun _ _ h => h⟩
  acc_merge' _ := by
    rintro w h0 h0' h h' r r' w2 v v' rfl rfl rfl
    show ERel _ (ops.merge v r h'.1) ((ops.merge v r h'.1).map _)
    rcases ops.merge v r h'.1 with e | ⟨r, k⟩
    · rfl
    · exact ⟨(), rfl, rfl, fun _ _ h => h⟩

theorem clockSim_ok (ops : Ops V H) (g : Grammar) (n : Node) : (clockSim ops).NodeOk g n := by
  unfold ValSim.NodeOk
  split
  · exact Or.inl trivial
  · trivial

/-- The clock changes nothing. -/
theorem parseC_rel (env : Env V H) {b : Bool} (h0 : env.trace.stack = b) (k : Nat) :
    (clockSim env.ops).RecRel (fun n => n.All ((clockSim env.ops).NodeOk env.g)) (parse env k) (parseC (ValSim.other env env.ops.clocked) (fun _ => b) k) := by
  have hg : ∀ n ∈ env.g.rules, n.All ((clockSim env.ops).NodeOk env.g) := fun n _ => all_of_every (clockSim_ok _ _) n
  have henv : (env.stackIs b) = env := by
    unfold Env.stackIs
    rw [← h0]
  induction k with
  | zero => intro n hn w s s' hs; trivial
  | succ k hrec =>
    intro n hn w s s' hs
    show OutRel _ (wrap env (parse env k) k n s) (wrapC _ _ (parseC _ _ k) k n s')
    have hk := (clockSim env.ops).parseKind_rel rfl hrec k n hn
    by_cases hr : ∃ id, n = .rule id
    · obtain ⟨id, rfl⟩ := hr
      rw [wrap, wrapC]
      show OutRel _ _ (match env.g.rules[id]? with | none => _ | some body => _)
      cases hb : env.g.rules[id]? with
      | none => rfl
      | some body =>
        dsimp only
        refine ((clockSim env.ops).stackPush_rel hs id).bind ?_
        rintro t t' ⟨ht, e1, e2⟩
        have hbody := hg body (List.mem_of_getElem? hb)
        have he : (ValSim.other env env.ops.clocked).stackIs b = ValSim.other env env.ops.clocked := by
          show ValSim.other (env.stackIs b) env.ops.clocked = _
          rw [henv]
        rw [he]
        have ht1 : (clockSim env.ops).SR w t { t' with h := (t'.h.1, t'.h.2 + 1) } :=
          ⟨ht.pos, ht.next, ht.table, ht.stack, ht.counter, ht.loopStack, ht.calls, ht.inv, fun a =>
            ⟨(ht.heap a).endpos, (ht.heap a).loopstage, (ht.heap a).wipemask, (ht.heap a).pos, (ht.heap a).id, (ht.heap a).result⟩⟩
        refine ((clockSim env.ops).loopify_rel ((clockSim env.ops).prepareResult_rel rfl ((clockSim env.ops).parseKind_rel rfl hrec k body hbody) true body.info) k id
          body.info w t _ ht1).bind ?_
        rintro ⟨r, x⟩ ⟨r', x'⟩ ⟨hx, hle, hr⟩
        refine ⟨⟨hx.pos, hx.next, hx.table, ?_, hx.counter, hx.loopStack, hx.calls, hx.inv, hx.heap⟩, trivial, hr⟩
        exact congrArg List.tail hx.stack
    · have h1 : wrap env (parse env k) k n s = if (n.info.ownLabel || n.info.cb.isSome) = true then
          prepareResult env false n.info (parseKind env (parse env k) k n) s else parseKind env (parse env k) k n s := by
        cases n <;> first | rfl | exact absurd ⟨_, rfl⟩ hr
      have h2 : wrapC (ValSim.other env env.ops.clocked) (fun _ => b) (parseC (ValSim.other env env.ops.clocked) (fun _ => b) k) k n s' = if (n.info.ownLabel || n.info.cb.isSome) = true then
          prepareResult (ValSim.other env env.ops.clocked) false n.info (parseKind (ValSim.other env env.ops.clocked) (parseC (ValSim.other env env.ops.clocked) (fun _ => b) k) k n) s'
          else parseKind (ValSim.other env env.ops.clocked) (parseC (ValSim.other env env.ops.clocked) (fun _ => b) k) k n s' := by
        cases n <;> first | rfl | exact absurd ⟨_, rfl⟩ hr
      rw [h1, h2]
      split
      · exact (clockSim env.ops).prepareResult_rel rfl hk false n.info w s s' hs
      · exact hk w s s' hs

theorem newState_clock (ops : Ops V H) (h : H) (l : Nat) (p : Nat) : (clockSim ops).SR () (newState h p) (newState (h, l) p) :=
  ⟨rfl, rfl, rfl, rfl, rfl, rfl, rfl, rfl, fun _ => ⟨rfl, rfl, rfl, rfl, rfl, .none⟩⟩

theorem parseAlts_stackIs (env : Env V H) (b : Bool) (rc : Node → Run V H) : ∀ l, parseAlts (env.stackIs b) rc l = parseAlts env rc l
  | [] => by funext s; rw [parseAlts, parseAlts]
  | a :: l => by
    funext s
    rw [parseAlts, parseAlts, parseAlts_stackIs env b rc l]
    rfl

theorem parseItems_stackIs (env : Env V H) (b : Bool) (rc : Node → Run V H) (repr : SeqRepr) : ∀ l acc,
    parseItems (env.stackIs b) rc repr l acc = parseItems env rc repr l acc
  | [], acc => by funext s; rw [parseItems, parseItems]; rfl
  | a :: l, acc => by
    funext s
    rw [parseItems, parseItems]
    simp only [parseItems_stackIs env b rc repr l]
    rfl

theorem parseRep_stackIs (env : Env V H) (b : Bool) (rc : Node → Run V H) (v : Node) (j : Option Node) (mn mx : Int) (p : Nat) : ∀ k acc,
    parseRep (env.stackIs b) rc v j mn mx p k acc = parseRep env rc v j mn mx p k acc
  | 0, acc => by funext s; rw [parseRep, parseRep]
  | k + 1, acc => by
    funext s
    unfold parseRep
    simp only [parseRep_stackIs env b rc v j mn mx p k]
    rfl

theorem parseKind_stackIs (env : Env V H) (b : Bool) (rc : Node → Run V H) (k : Nat) (n : Node) :
    parseKind (env.stackIs b) rc k n = parseKind env rc k n := by
  funext s
  cases n <;> unfold parseKind
  case choice => dsimp only; rw [parseAlts_stackIs]
  case seq => dsimp only; rw [parseItems_stackIs]
  case pattern => simp only [parseRep_stackIs]; rfl
  all_goals rfl

/-- Nothing but `loopify` reads `TraceOptions.Stack`. -/
theorem parseC_stackIs (env : Env V (H × Nat)) (flag : Nat → Bool) (b : Bool) : ∀ k, parseC (env.stackIs b) flag k = parseC env flag k
  | 0 => rfl
  | k + 1 => by
    funext n s
    show wrapC (env.stackIs b) flag (parseC (env.stackIs b) flag k) k n s = wrapC env flag (parseC env flag k) k n s
    rw [parseC_stackIs env flag b k]
    unfold wrapC
    simp only [parseKind_stackIs]
    rfl

/-- A call that overlaps with others gives what it gives alone, or the tracing code panics. -/
theorem grammarParseC_same {ops : Ops V H} {st : Stream} {g : Grammar} {tr : Trace} (sk : Bool) (flag : Nat → Bool)
    (hst : st.Valid) (report : Nat → Nat → Nat → Except Panic Report) (f : Nat → Bool) (k : Nat) (h : H) {start : Nat} (hstart : start ≤ st.len) :
    grammarParseC ops st report (g.setDebug f) tr sk flag k h start =
      (grammarParse ops st report (g.setDebug fun _ => false) {} {} k h start).1.seen ∨
    ∃ e, grammarParseC ops st report (g.setDebug f) tr sk flag k h start = .panic e ∧
      TracePanic (parseEnv ops st (g.setDebug f) { tr with stack := true } { skipLog := sk }) e := by
  let env : Env V (H × Nat) := { ops := ops.clocked, st := st, g := g.setDebug f, trace := { tr with stack := true }, skipLog := sk }
  let env0 : Env V (H × Nat) := { ops := ops.clocked, st := st, g := g.setDebug fun _ => false }
  have T := parseEnv_traced ops.clocked st g f { tr with stack := true } { skipLog := sk }
  have T : Traced env env0 f := T
  have key := parseC_tsim (l0 := []) T rfl hst flag k g.root [] (newState (h, 0) start) ⟨hstart, fun _ => rfl⟩
  have hat : St.at [] (newState (V := V) (h, 0) start) = newState (h, 0) start := rfl
  rw [hat] at key
  have rel := parseC_rel (V := V) { ops := ops, st := st, g := g.setDebug fun _ => false } rfl k g.root (all_of_every (clockSim_ok _ _) _) ()
    (newState h start) (newState (h, 0) start) (newState_clock ops h 0 start)
  change OutRel _ (parse (parseEnv ops st (g.setDebug fun _ => false) {} {}) k g.root (newState h start)) (parseC env0 (fun _ => false) k g.root (newState (h, 0) start)) at rel
  have hroot : (g.setDebug f).root = g.root ∧ (g.setDebug fun _ => false).root = g.root := ⟨rfl, rfl⟩
  have hn : (g.setDebug f).numRules = (g.setDebug fun _ => false).numRules := by simp [Grammar.setDebug, Grammar.numRules]
  have hC : parseC { ops := ops.clocked, st := st, g := g.setDebug f, trace := tr, skipLog := sk } flag k g.root (newState (h, 0) start) =
      parseC env flag k g.root (newState (h, 0) start) := by
    exact congrFun (congrFun (parseC_stackIs { ops := ops.clocked, st := st, g := g.setDebug f, trace := tr, skipLog := sk } flag true k).symm _) _
  unfold grammarParseC grammarParse
  rw [hroot.1, hroot.2]
  dsimp only
  rw [hC]
  show _ = Out.seen (Prod.fst (match parse (parseEnv ops st (g.setDebug fun _ => false) {} {}) k g.root (newState h start) with
    | .panic e => _ | .oof => _ | .ok (r, s) => _)) ∨ _
  rcases key with ⟨e, h1, h2⟩ | ⟨h1, h2⟩ | ⟨e, h1, h2⟩ | ⟨r, s, h1, h2, h3⟩
  · rw [h1]
    exact Or.inr ⟨e, rfl, h2⟩
  · rw [h2] at rel
    rw [h1]
    cases hx : parse (parseEnv ops st (g.setDebug fun _ => false) {} {}) k g.root (newState h start) with
    | ok x => rw [hx] at rel; exact rel.elim
    | panic e => rw [hx] at rel; exact rel.elim
    | oof => exact Or.inl rfl
  · rw [h2] at rel
    rw [h1]
    cases hx : parse (parseEnv ops st (g.setDebug fun _ => false) {} {}) k g.root (newState h start) with
    | ok x => rw [hx] at rel; exact rel.elim
    | oof => rw [hx] at rel; exact rel.elim
    | panic e' => rw [hx] at rel; cases rel; exact Or.inl rfl
  · rw [h2] at rel
    rw [h1]
    cases hx : parse (parseEnv ops st (g.setDebug fun _ => false) {} {}) k g.root (newState h start) with
    | panic e' => rw [hx] at rel; exact rel.elim
    | oof => rw [hx] at rel; exact rel.elim
    | ok x =>
      obtain ⟨r0, s0⟩ := x
      rw [hx] at rel
      obtain ⟨hs, -, hr⟩ := rel
      have hr : r0 = r := orel_eq hr
      subst hr
      have hpos : s.pos = s0.pos := hs.pos
      have hh : s.h.1 = s0.h := hs.inv
      have hcalls : s.calls = s0.calls := hs.calls
      have hscan : ∀ fuel p acc, scanRows s (g.setDebug fun _ => false).numRules p fuel acc = scanRows s0 (g.setDebug fun _ => false).numRules p fuel acc := by
        intro fuel p acc
        have := (clockSim ops).scanRows_rel hs (g.setDebug fun _ => false).numRules fuel p acc
        rw [scanRows_at] at this
        exact this
      refine Or.inl ?_
      dsimp only
      rw [hpos, hn, hscan]
      split
      · cases report s0.pos (scanRows s0 (g.setDebug fun _ => false).numRules s0.pos (st.len + 1 - s0.pos) (s0.pos, s0.pos)).2
          (scanRows s0 (g.setDebug fun _ => false).numRules s0.pos (st.len + 1 - s0.pos) (s0.pos, s0.pos)).1 with
        | error e => rfl
        | ok rep => simp only [Out.seen, hh, hcalls]
      · cases r0 <;> simp only [Out.seen, hh, hcalls]

/-- A call during which the flag does not change is `grammarParse`. -/
theorem grammarParseC_alone {ops : Ops V H} {st : Stream} {g : Grammar} {tr : Trace} (o : CtxOptions)
    (report : Nat → Nat → Nat → Except Panic Report) (k : Nat) (h : H) (start : Nat) :
    grammarParseC ops st report g tr o.skipLog (fun _ => o.debug || tr.stack) k h start = (grammarParse ops st report g tr o k h start).1.seen := by
  have he : (parseEnv ops st g tr o).trace.stack = (o.debug || tr.stack) := by
    unfold parseEnv
    cases o.debug <;> rfl
  have rel := parseC_rel (V := V) (parseEnv ops st g tr o) he k g.root (all_of_every (clockSim_ok _ _) _) ()
    (newState h start) (newState (h, 0) start) (newState_clock ops h 0 start)
  have hC : parseC (ValSim.other (parseEnv ops st g tr o) ops.clocked) (fun _ => o.debug || tr.stack) k =
      parseC { ops := ops.clocked, st := st, g := g, trace := tr, skipLog := o.skipLog } (fun _ => o.debug || tr.stack) k := by
    have : ValSim.other (parseEnv ops st g tr o) ops.clocked =
        Env.stackIs { ops := ops.clocked, st := st, g := g, trace := tr, skipLog := o.skipLog } (o.debug || tr.stack) := by
      unfold ValSim.other parseEnv Env.stackIs
      cases o.debug <;> rfl
    rw [this, parseC_stackIs]
  have hops : (parseEnv ops st g tr o).ops = ops := rfl
  rw [hops, hC] at rel
  unfold grammarParseC grammarParse
  dsimp only
  show _ = Out.seen (Prod.fst (match parse (parseEnv ops st g tr o) k g.root (newState h start) with
    | .panic e => _ | .oof => _ | .ok (r, s) => _))
  cases hx : parse (parseEnv ops st g tr o) k g.root (newState h start) with
  | panic e' =>
    rw [hx] at rel
    cases hy : parseC { ops := ops.clocked, st := st, g := g, trace := tr, skipLog := o.skipLog } (fun _ => o.debug || tr.stack) k g.root (newState (h, 0) start) with
    | panic e => rw [hy] at rel; cases rel; rfl
    | oof => rw [hy] at rel; exact rel.elim
    | ok x => rw [hy] at rel; exact rel.elim
  | oof =>
    rw [hx] at rel
    cases hy : parseC { ops := ops.clocked, st := st, g := g, trace := tr, skipLog := o.skipLog } (fun _ => o.debug || tr.stack) k g.root (newState (h, 0) start) with
    | panic e => rw [hy] at rel; exact rel.elim
    | oof => rfl
    | ok x => rw [hy] at rel; exact rel.elim
  | ok x =>
    obtain ⟨r0, s0⟩ := x
    rw [hx] at rel
    cases hy : parseC { ops := ops.clocked, st := st, g := g, trace := tr, skipLog := o.skipLog } (fun _ => o.debug || tr.stack) k g.root (newState (h, 0) start) with
    | panic e => rw [hy] at rel; exact rel.elim
    | oof => rw [hy] at rel; exact rel.elim
    | ok x =>
      obtain ⟨r, s⟩ := x
      rw [hy] at rel
      obtain ⟨hs, -, hr⟩ := rel
      have hr : r0 = r := orel_eq hr
      subst hr
      have hpos : s.pos = s0.pos := hs.pos
      have hh : s.h.1 = s0.h := hs.inv
      have hcalls : s.calls = s0.calls := hs.calls
      have hscan : ∀ fuel p acc, scanRows s g.numRules p fuel acc = scanRows s0 g.numRules p fuel acc := fun fuel p acc =>
        (clockSim ops).scanRows_rel hs g.numRules fuel p acc
      dsimp only
      rw [hpos, hscan]
      split
      · cases report s0.pos (scanRows s0 g.numRules s0.pos (st.len + 1 - s0.pos) (s0.pos, s0.pos)).2
          (scanRows s0 g.numRules s0.pos (st.len + 1 - s0.pos) (s0.pos, s0.pos)).1 with
        | error e => rfl
        | ok rep => simp only [Out.seen, hh, hcalls]
      · cases r0 <;> simp only [Out.seen, hh, hcalls]

end Joeson
