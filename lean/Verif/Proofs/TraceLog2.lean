import Verif.Proofs.TraceLog
/-!
# Two ways of printing
-/

namespace Joeson
namespace ValSim
variable {V H V' H' : Type} {ops : Ops V H} {ops' : Ops V' H'} (S : ValSim ops ops')

/-- Log statements that correspond, for the rules as `P` says. -/
def SayRel (P : Bool → Nat → Prop) (say : Say V H) (say' : Say V' H') : Prop :=
  ∀ w b id m s s', P b id → S.SR w s s' → OutRel (fun x y => S.SR w x y ∧ S.Le w s.h s'.h x.h y.h) (say b id m s) (say' b id m s')

/-- Values that correspond are printed the same way. -/
def TextRel (tx : V → H → Bytes) (tx' : V' → H' → Bytes) : Prop :=
  ∀ w h h' v v', S.I w h h' → S.R w h h' v v' → tx' v' h' = tx v h

variable {env : Env V H} (henv : env.ops = ops) {say : Say V H} {say' : Say V' H'} {P : Bool → Nat → Prop} {tx : V → H → Bytes} {tx' : V' → H' → Bytes}

theorem growLoopT_rel (hsay : S.SayRel P say say') {f : Run V H} {f' : Run V' H'} (hf : S.RunRel f f') (sh : Bool) (id a p : Nat) (hP : P sh id) (k : Nat) :
    ∀ (w : S.W) (s : St V H) (s' : St V' H') (r : V) (r' : V'), S.SR w s s' → S.R w s.h s'.h r r' →
      OutRel (fun x y => x.1.1 = y.1.1 ∧ x.1.2.1 = y.1.2.1 ∧ S.R w x.2.h y.2.h x.1.2.2 y.1.2.2 ∧ S.SR w x.2 y.2 ∧
          S.Le w s.h s'.h x.2.h y.2.h)
        (growLoopT env say sh id f a p k r s) (growLoopT (other env ops') say' sh id f' a p k r' s') := by
  induction k with
  | zero => intro w s s' r r' _ _; trivial
  | succ k ih =>
    intro w s s' r r' hs hr
    unfold growLoopT
    refine (S.wipeWith_rel hs a).bind ?_
    rintro ⟨st, t⟩ ⟨st', t'⟩ ⟨rfl, ht, h1, h2⟩
    dsimp only at *
    have hr1 : S.R w t.h t'.h r r' := by rw [h1, h2]; exact hr
    have hc := ht.cache S a (.some hr1) (some t.pos)
    rw [ht.pos]
    refine (hsay w sh id _ _ _ hP hc).bind ?_
    rintro t1 t1' ⟨ht1, hle1⟩
    change S.Le w t.h t'.h t1.h t1'.h at hle1
    refine (S.setPos_rel ht1 p).bind ?_
    rintro t2 t2' ⟨ht2, h3, h4⟩
    refine (hf w t2 t2' ht2).bind ?_
    rintro ⟨q, t3⟩ ⟨q', t3'⟩ ⟨ht3, hle, hq⟩
    dsimp only at *
    rw [h1, h2] at hle1
    rw [h3, h4] at hle
    have hle := S.le_trans hle1 hle
    have hr3 := S.mono hle hr
    rw [ht3.pos]
    split
    · exact ⟨rfl, rfl, hr3, ht3, hle⟩
    · cases hq with
      | none => exact ⟨rfl, rfl, hr3, ht3, hle⟩
      | some hq =>
        refine (ih w t3 t3' _ _ ht3 hq).imp ?_
        rintro x y ⟨i1, i2, i3, i4, i5⟩
        exact ⟨i1, i2, i3, i4, S.le_trans hle i5⟩

theorem text_map (htx : S.TextRel tx tx') {w : S.W} {h : H} {h' : H'} {r : Option V} {r' : Option V'} (hi : S.I w h h') (hr : ORel (S.R w h h') r r') :
    (r'.map fun v => tx' v h') = r.map fun v => tx v h := by
  cases hr with
  | none => rfl
  | some hr => exact congrArg some (htx _ _ _ _ _ hi hr)

theorem loopifyT_rel (hsay : S.SayRel P say say') (htx : S.TextRel tx tx') {f : Run V H} {f' : Run V' H'} (hf : S.RunRel f f') (k id : Nat) (i : Info) (hP : P (env.trace.stack || i.debug) id) :
    S.RunRel (loopifyT env say tx k id i f) (loopifyT (other env ops') say' tx' k id i f') := by
  intro w s0 s0' hs0
  unfold loopifyT
  dsimp only
  generalize (env.trace.stack || i.debug) = sh at *
  rw [hs0.counter]
  refine (hsay w sh id _ _ _ hP hs0).bind ?_
  rintro s s' ⟨hs, hle0⟩
  refine OutRel.imp (Q := S.Good w s.h s'.h) ?_ fun _ _ h => h.later S hle0
  clear hle0 hs0
  by_cases hsk : i.skipCache = true
  · rw [if_pos hsk, if_pos hsk]
    refine (hf w s s' hs).bind ?_
    rintro ⟨r, t⟩ ⟨r', t'⟩ ⟨ht, hle, hr⟩
    dsimp only at *
    cases hr with
    | none =>
      dsimp only
      split
      · rfl
      · rename_i hsh
        rw [Bool.not_eq_true] at hsh
        refine (hsay w false id _ _ _ (hsh ▸ hP) ht).bind ?_
        rintro x x' ⟨hx, hle1⟩
        exact ⟨hx, S.le_trans hle hle1, .none⟩
    | @some v v' hr =>
      dsimp only
      rw [htx _ _ _ _ _ ht.inv hr]
      refine (hsay w sh id _ _ _ hP ht).bind ?_
      rintro x x' ⟨hx, hle1⟩
      exact ⟨hx, S.le_trans hle hle1, .some (S.mono hle1 hr)⟩
  · rw [if_neg hsk, if_neg hsk]
    refine (S.getFrame_rel hs id).bind ?_
    rintro ⟨a, t⟩ ⟨a', t'⟩ ⟨rfl, ht, e1, e2⟩
    dsimp only at *
    rw [← e1, ← e2]
    clear e1 e2 hs
    rw [ht.pos]
    generalize hp : t.pos = p
    have ht2 : S.SR w (if (t.heap a).loopstage < 0 then setStage a 0 t else t)
        (if (t'.heap a).loopstage < 0 then setStage a 0 t' else t') := by
      rw [(ht.heap a).loopstage]
      split
      · exact ht.stage S a 0
      · exact ht
    have e1 : (if (t.heap a).loopstage < 0 then setStage a 0 t else t).h = t.h := by split <;> rfl
    have e2 : (if (t'.heap a).loopstage < 0 then setStage a 0 t' else t').h = t'.h := by split <;> rfl
    rw [← e1, ← e2]
    generalize (if (t.heap a).loopstage < 0 then setStage a 0 t else t) = u at *
    generalize (if (t'.heap a).loopstage < 0 then setStage a 0 t' else t') = u' at *
    clear e1 e2 ht hp
    rw [(ht2.heap a).loopstage]
    by_cases h0 : (u.heap a).loopstage = 0
    · rw [if_pos h0, if_pos h0, (ht2.heap a).endpos]
      cases (u.heap a).endpos with
      | some e =>
        dsimp only
        rw [S.text_map htx ht2.inv (ht2.heap a).result]
        refine (hsay w sh id _ _ _ hP ht2).bind ?_
        rintro y y' ⟨hy, hle⟩
        refine (S.setPos_rel hy e).bind ?_
        rintro x x' ⟨hx, h1, h2⟩
        refine ⟨hx, ?_, ?_⟩
        · dsimp only; rw [h1, h2]; exact hle
        · dsimp only; rw [h1, h2]; exact (ht2.heap a).result.imp fun _ _ => S.mono hle
      | none =>
        dsimp only
        have hc := (ht2.stage S a 1).cache S a (.none) none
        refine (hf w _ _ hc).bind ?_
        rintro ⟨r, x⟩ ⟨r', x'⟩ ⟨hx, hle, hr⟩
        dsimp only at *
        change S.Le w u.h u'.h x.h x'.h at hle
        rw [(hx.heap a).loopstage]
        by_cases h1 : (x.heap a).loopstage = 1
        · rw [if_pos h1, if_pos h1, hx.pos]
          have hx2 := (hx.stage S a 0).cache S a hr (some x.pos)
          have e : (r'.map fun v => tx' v (cacheSet a r' (some x.pos) (setStage a 0 x')).h) =
            r.map fun v => tx v (cacheSet a r (some x.pos) (setStage a 0 x)).h := S.text_map htx hx.inv hr
          rw [e]
          refine (hsay w sh id _ _ _ hP hx2).bind ?_
          rintro y y' ⟨hy, hle1⟩
          exact ⟨hy, S.le_trans hle hle1, hr.imp fun _ _ => S.mono hle1⟩
        · rw [if_neg h1, if_neg h1]
          by_cases h2 : (x.heap a).loopstage = 2
          · rw [if_pos h2, if_pos h2]
            cases hr with
            | none =>
              dsimp only
              refine (hsay w sh id _ _ _ hP hx).bind ?_
              rintro y y' ⟨hy, hle1⟩
              exact ⟨hy.stage S a 0, S.le_trans hle hle1, .none⟩
            | @some v v' hr =>
              dsimp only
              have hx3 := hx.stage S a 3
              have hpos : (setStage a 3 x').pos = (setStage a 3 x).pos := hx3.pos
              have hb : (env.trace.loop && (decide (env.trace.filterLine < 0) ||
                env.st.line (setStage a 3 x').pos == env.trace.filterLine)) = (env.trace.loop && (decide (env.trace.filterLine < 0) ||
                env.st.line (setStage a 3 x).pos == env.trace.filterLine)) := by rw [hpos]
              rw [hb]
              generalize (env.trace.loop && (decide (env.trace.filterLine < 0) ||
                env.st.line (setStage a 3 x).pos == env.trace.filterLine)) = b
              have hx4 : S.SR w (if b = true then { setStage a 3 x with loopStack := i.name :: (setStage a 3 x).loopStack } else setStage a 3 x)
                  (if b = true then { setStage a 3 x' with loopStack := i.name :: (setStage a 3 x').loopStack } else setStage a 3 x') := by
                cases b with
                | false => exact hx3
                | true =>
                  rw [if_pos rfl, if_pos rfl]
                  exact ⟨hx3.pos, hx3.next, hx3.table, hx3.stack, hx3.counter, congrArg (i.name :: ·) hx3.loopStack, hx3.calls, hx3.inv, hx3.heap⟩
              have e1 : (if b = true then { setStage a 3 x with loopStack := i.name :: (setStage a 3 x).loopStack } else setStage a 3 x).h = x.h := by
                cases b <;> rfl
              have e2 : (if b = true then { setStage a 3 x' with loopStack := i.name :: (setStage a 3 x').loopStack } else setStage a 3 x').h = x'.h := by
                cases b <;> rfl
              generalize (if b = true then { setStage a 3 x with loopStack := i.name :: (setStage a 3 x).loopStack } else setStage a 3 x) = y at *
              generalize (if b = true then { setStage a 3 x' with loopStack := i.name :: (setStage a 3 x').loopStack } else setStage a 3 x') = y' at *
              rw [← e1, ← e2] at hr hle
              refine (S.growLoopT_rel hsay hf sh id a p hP k w y y' _ _ hx4 hr).bind ?_
              rintro ⟨⟨st, e, b⟩, z⟩ ⟨⟨st', e', b'⟩, z'⟩ ⟨i1, i2, i3, i4, i5⟩
              dsimp only at *
              subst i1 i2
              have hle2 := S.le_trans hle i5
              refine OutRel.bind (Q := fun q q' => S.SR w q q' ∧ q.h = z.h ∧ q'.h = z'.h) ?_ ?_
              · split
                · rw [i4.loopStack]
                  split
                  · rfl
                  · exact ⟨⟨i4.pos, i4.next, i4.table, i4.stack, i4.counter, rfl, i4.calls, i4.inv, i4.heap⟩, rfl, rfl⟩
                · exact ⟨i4, rfl, rfl⟩
              · rintro q q' ⟨hq, q1, q2⟩
                refine (S.wipeWith_rel hq a).bind ?_
                rintro ⟨m, q3⟩ ⟨m', q3'⟩ ⟨-, hq3, q4, q5⟩
                dsimp only at *
                have hq4 := S.restoreWith_rel hq3 st
                refine (S.setPos_rel hq4 e).bind ?_
                rintro q6 q6' ⟨hq6, q7, q8⟩
                have f1 : q6.h = z.h := (q7.trans q4).trans q1
                have f2 : q6'.h = z'.h := (q8.trans q5).trans q2
                have hr6 : S.R w q6.h q6'.h b b' := by rw [f1, f2]; exact i3
                rw [htx _ _ _ _ _ hq6.inv hr6]
                refine (hsay w sh id _ _ _ hP hq6).bind ?_
                rintro q9 q9' ⟨hq9, hle9⟩
                refine ⟨hq9.stage S a 0, ?_, ?_⟩
                · show S.Le w u.h u'.h q9.h q9'.h
                  rw [f1, f2] at hle9
                  exact S.le_trans hle2 hle9
                · show ORel (S.R w q9.h q9'.h) _ _
                  exact .some (S.mono hle9 hr6)
          · rw [if_neg h2, if_neg h2]
            rfl
    · rw [if_neg h0, if_neg h0]
      split
      · have hv : S.SR w (if (u.heap a).loopstage = 1 then setStage a 2 u else u)
            (if (u.heap a).loopstage = 1 then setStage a 2 u' else u') := by
          split
          · exact ht2.stage S a 2
          · exact ht2
        have e1 : (if (u.heap a).loopstage = 1 then setStage a 2 u else u).h = u.h := by split <;> rfl
        have e2 : (if (u.heap a).loopstage = 1 then setStage a 2 u' else u').h = u'.h := by split <;> rfl
        rw [← e1, ← e2]
        generalize (if (u.heap a).loopstage = 1 then setStage a 2 u else u) = x at *
        generalize (if (u.heap a).loopstage = 1 then setStage a 2 u' else u') = x' at *
        clear e1 e2 ht2
        rw [S.text_map htx hv.inv (hv.heap a).result]
        refine OutRel.bind (hsay w sh id _ _ _ hP hv) ?_
        rintro y y' ⟨hv, hle⟩
        refine OutRel.imp (Q := S.Good w y.h y'.h) ?_ fun _ _ h => h.later S hle
        rw [S.collectMask_rel hv, hv.stack, (hv.heap a).wipemask]
        refine (OutRel.same _).bind ?_
        rintro m _ rfl
        have hf := hv.heap a
        have hy := hv.upd S a (f := fun f => { f with wipemask := some m }) (f' := fun f => { f with wipemask := some m })
          ⟨hf.endpos, hf.loopstage, rfl, hf.pos, hf.id, hf.result⟩
        rw [(hy.heap a).endpos]
        split
        · rename_i e _
          refine (S.setPos_rel hy e).bind ?_
          rintro q q' ⟨hq, q1, q2⟩
          refine ⟨hq, ?_, ?_⟩
          · dsimp only; rw [q1, q2]; exact S.le_refl _ _ _
          · dsimp only; rw [q1, q2]; exact (hy.heap a).result
        · exact ⟨hy, S.le_refl _ _ _, (hy.heap a).result⟩
      · rfl

include henv in
theorem wrapT_rel (hsay : S.SayRel P say say') (htx : S.TextRel tx tx') {rec_ : Node → Run V H} {rec_' : Node → Run V' H'}
    (hg : ∀ n : Node, n.All (S.NodeOk env.g)) (hrec : S.RecRel (fun n => n.All (S.NodeOk env.g)) rec_ rec_') (k : Nat) (n : Node)
    (hP : ∀ id body, env.g.rules[id]? = some body → P (env.trace.stack || body.info.debug) id) :
    S.RunRel (wrapT env say tx rec_ k n) (wrapT (other env ops') say' tx' rec_' k n) := by
  intro w s s' hs
  have hk := S.parseKind_rel henv hrec k n (hg n)
  by_cases hr : ∃ id, n = .rule id
  · obtain ⟨id, rfl⟩ := hr
    rw [wrapT, wrapT]
    show OutRel _ _ (match env.g.rules[id]? with | none => _ | some body => _)
    cases hb : env.g.rules[id]? with
    | none => rfl
    | some body =>
      dsimp only
      refine (S.stackPush_rel hs id).bind ?_
      rintro t t' ⟨ht, e1, e2⟩
      refine (S.loopifyT_rel hsay htx (S.prepareResult_rel henv (S.parseKind_rel henv hrec k body (hg body)) true body.info) k id
        body.info (hP id body hb) w t t' ht).bind ?_
      rintro ⟨r, x⟩ ⟨r', x'⟩ ⟨hx, hle, hr⟩
      rw [e1, e2] at hle
      refine ⟨⟨hx.pos, hx.next, hx.table, ?_, hx.counter, hx.loopStack, hx.calls, hx.inv, hx.heap⟩, hle, hr⟩
      exact congrArg List.tail hx.stack
  · have h1 : wrapT env say tx rec_ k n s = if (n.info.ownLabel || n.info.cb.isSome) = true then
        prepareResult env false n.info (parseKind env rec_ k n) s else parseKind env rec_ k n s := by
      cases n <;> first | rfl | exact absurd ⟨_, rfl⟩ hr
    have h2 : wrapT (other env ops') say' tx' rec_' k n s' = if (n.info.ownLabel || n.info.cb.isSome) = true then
        prepareResult (other env ops') false n.info (parseKind (other env ops') rec_' k n) s'
        else parseKind (other env ops') rec_' k n s' := by
      cases n <;> first | rfl | exact absurd ⟨_, rfl⟩ hr
    rw [h1, h2]
    split
    · exact S.prepareResult_rel henv hk false n.info w s s' hs
    · exact hk w s s' hs

include henv in
theorem parseT_rel (hsay : S.SayRel P say say') (htx : S.TextRel tx tx') (hg : ∀ n : Node, n.All (S.NodeOk env.g))
    (hP : ∀ id body, env.g.rules[id]? = some body → P (env.trace.stack || body.info.debug) id) (k : Nat) :
    S.RecRel (fun n => n.All (S.NodeOk env.g)) (parseT env say tx k) (parseT (other env ops') say' tx' k) := by
  induction k with
  | zero => intro n hn w s s' hs; trivial
  | succ k ih => intro n _; exact S.wrapT_rel henv hsay htx hg ih k n hP

end ValSim

variable {V H : Type}

/-! ## Printing or not -/

theorem print_log (env : Env V H) (sh : Bool) (id : Nat) (m : Msg) (s : St V (H × List LogLine)) :
    printSay env.logged sh id m s = (logIf env.logged sh s >>= fun _ => .ok s) ∨
      printSay env.logged sh id m s = (logIf env.logged sh s >>= fun _ => .ok (addLine id m s)) := by
  unfold printSay logIf logHook
  cases sh with
  | false => exact .inl rfl
  | true =>
    rw [if_pos rfl, if_pos rfl]
    split
    · exact .inl rfl
    · split
      · exact .inr rfl
      · exact .inl rfl

theorem printSay_rel (env : Env V H) : (logSim env.ops).SayRel (fun _ _ => True) (quietSay env) (printSay env.logged) := by
  intro w b id m s s' _ hs
  have h0 : logIf env.logged b s' = logIf env b s := (logSim env.ops).logIf_rel (env := env) hs b
  unfold quietSay
  have h1 : ∀ (x : St V (H × List LogLine)), x = s' ∨ x = addLine id m s' → OutRel (fun x y => (logSim env.ops).SR w x y ∧ (logSim env.ops).Le w s.h s'.h x.h y.h)
      (logIf env b s >>= fun _ => Out.ok s) (logIf env b s >>= fun _ => Out.ok x) := by
    intro x hx
    refine (OutRel.same _).bind ?_
    rintro _ _ rfl
    rcases hx with rfl | rfl
    · exact ⟨hs, trivial⟩
    · exact ⟨⟨hs.pos, hs.next, hs.table, hs.stack, hs.counter, hs.loopStack, hs.calls, hs.inv, fun a =>
        ⟨(hs.heap a).endpos, (hs.heap a).loopstage, (hs.heap a).wipemask, (hs.heap a).pos, (hs.heap a).id, (hs.heap a).result⟩⟩, trivial⟩
  rcases print_log env b id m s' with h | h
  · rw [h, h0]; exact h1 _ (.inl rfl)
  · rw [h, h0]; exact h1 _ (.inr rfl)

/-- Whether the options let a line through. -/
def Env.lets (env : Env V H) (l : LogLine) : Bool :=
  (env.trace.stack || ((env.g.rules[l.rule]?).map fun n => n.info.debug).getD false) &&
    (!env.skipLog && (decide (env.trace.filterLine = -1) || decide (env.st.line l.pos = env.trace.filterLine)))

theorem recordSay_rel (env : Env V H) : (keepSim env.ops env.lets).SayRel (fun b id => ∃ body, env.g.rules[id]? = some body ∧ b = (env.trace.stack || body.info.debug))
    (printSay env.logged) (recordSay env.logged) := by
  rintro w b id m s s' ⟨body, hb, rfl⟩ hs
  have hlets : ∀ q d, env.lets ⟨id, q, d, m⟩ = ((env.trace.stack || body.info.debug) &&
      (!env.skipLog && (decide (env.trace.filterLine = -1) || decide (env.st.line q = env.trace.filterLine)))) := by
    intro q d
    unfold Env.lets
    rw [hb]
    rfl
  have key : ∀ b' : Bool, b' = env.lets ⟨id, s.pos, s.stack.length, m⟩ → (keepSim env.ops env.lets).SR w (if b' then addLine id m s else s) (addLine id m s') := by
    rintro b' rfl
    have hi : s.h = (s'.h.1, s'.h.2.filter env.lets) := hs.inv
    have : (if env.lets ⟨id, s.pos, s.stack.length, m⟩ then addLine id m s else s) =
        { s with h := if env.lets ⟨id, s.pos, s.stack.length, m⟩ then (s.h.1, s.h.2 ++ [⟨id, s.pos, s.stack.length, m⟩]) else s.h } := by
      split <;> rfl
    rw [this]
    refine ⟨hs.pos, hs.next, hs.table, hs.stack, hs.counter, hs.loopStack, hs.calls, ?_, fun a =>
        ⟨(hs.heap a).endpos, (hs.heap a).loopstage, (hs.heap a).wipemask, (hs.heap a).pos, (hs.heap a).id, (hs.heap a).result⟩⟩
    show _ = (s'.h.1, (s'.h.2 ++ [(⟨id, s'.pos, s'.stack.length, m⟩ : LogLine)]).filter env.lets)
    rw [List.filter_append, hs.pos, hs.stack]
    dsimp only
    split
    · rename_i h
      rw [List.filter_cons_of_pos h, List.filter_nil, hi]
    · rename_i h
      rw [List.filter_cons_of_neg h, List.filter_nil, List.append_nil, hi]
  have h0 : logIf env.logged (env.trace.stack || body.info.debug) s' = logIf env.logged (env.trace.stack || body.info.debug) s :=
    (keepSim env.ops env.lets).logIf_rel (env := env.logged) hs _
  have hp : printSay env.logged (env.trace.stack || body.info.debug) id m s =
      (logIf env.logged (env.trace.stack || body.info.debug) s >>= fun _ => .ok (if env.lets ⟨id, s.pos, s.stack.length, m⟩ then addLine id m s else s)) := by
    rw [hlets]
    rw [← Bool.decide_or]
    unfold printSay logIf logHook
    show (if (env.trace.stack || body.info.debug) = true then
        if env.skipLog = true then Out.ok s
        else if env.trace.filterLine = -1 ∨ env.st.line s.pos = env.trace.filterLine then
          (Out.ofExcept (env.st.render s.pos) >>= fun _ => Out.ok (addLine id m s)) else Out.ok s
      else Out.ok s) =
      ((if (env.trace.stack || body.info.debug) = true then
        if env.skipLog = true then Out.ok ()
        else if env.trace.filterLine = -1 ∨ env.st.line s.pos = env.trace.filterLine then Out.ofExcept (env.st.render s.pos) else Out.ok ()
      else Out.ok ()) >>= fun _ => _)
    generalize (env.trace.stack || body.info.debug) = sh
    generalize env.skipLog = sk
    by_cases h : env.trace.filterLine = -1 ∨ env.st.line s.pos = env.trace.filterLine
    · rw [if_pos h, if_pos h, decide_eq_true h]
      cases sh <;> cases sk <;> rfl
    · rw [if_neg h, if_neg h, decide_eq_false h]
      cases sh <;> cases sk <;> rfl
  rw [hp]
  unfold recordSay
  rw [h0]
  refine (OutRel.same _).bind ?_
  rintro _ _ rfl
  exact ⟨key _ rfl, trivial⟩

end Joeson
