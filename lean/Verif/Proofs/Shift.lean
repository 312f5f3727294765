import Verif.Proofs.TraceLog6
import Verif.Spec.Shift
/-!
# Two parses, one of which begins later in its text

`Moved n env env'`: the text of `env'` is that of `env` without its first `n` bytes. Runs of the engine correspond, positions being `n` less.
-/

namespace Joeson
open Spec
variable {V H : Type}

/-- See above. Nothing is traced. -/
structure Moved (n : Nat) (env env' : Env V H) : Prop where
  len : env.st.len = env'.st.len + n
  str : ∀ p b, env.st.matchString (p + n) b = (env'.st.matchString p b).map fun x => (x.1, x.2 + n)
  re : ∀ p b, env.st.matchRegexp (p + n) b = (env'.st.matchRegexp p b).map fun x => (x.1, x.2 + n)
  g : env.g = env'.g
  quiet : env.trace.stack = false ∧ env.trace.loop = false ∧ env'.trace.stack = false ∧ env'.trace.loop = false
  debug : ∀ b ∈ env.g.rules, b.info.debug = false
  oStr : env.ops.str = env'.ops.str
  oUndef : env.ops.undef = env'.ops.undef
  oArr : env.ops.arr = env'.ops.arr
  oNewMap : env.ops.newMap = env'.ops.newMap
  oAdd : ∀ repr i acc v h, seqAdd env.ops repr i acc v h = seqAdd env'.ops repr i acc v h
  oDone : ∀ repr acc h, seqDone env.ops repr acc h = seqDone env'.ops repr acc h
  oCb : ∀ c v p h, env.ops.cb c v (p + n) h = env'.ops.cb c v p h
  oOrigin : ∀ v a p nm h, env.ops.origin v ⟨a + n, p + n, env.st.line (p + n), nm⟩ h = env'.ops.origin v ⟨a, p, env'.st.line p, nm⟩ h

/-- States that correspond. Frames that are not allocated yet are left out of `fpos`. -/
structure Mv (n : Nat) (s s' : St V H) : Prop where
  pos : s.pos = s'.pos + n
  next : s.next = s'.next
  result : ∀ a, (s.heap a).result = (s'.heap a).result
  endpos : ∀ a, (s.heap a).endpos = (s'.heap a).endpos.map (· + n)
  stage : ∀ a, (s.heap a).loopstage = (s'.heap a).loopstage
  mask : ∀ a, (s.heap a).wipemask = (s'.heap a).wipemask
  id : ∀ a, (s.heap a).id = (s'.heap a).id
  fpos : ∀ a, a < s.next → (s.heap a).pos = (s'.heap a).pos + n
  table : ∀ p i, s.table (p + n) i = s'.table p i
  tableLt : ∀ p i a, s.table p i = some a → a < s.next
  stack : s.stack = s'.stack
  stackLt : ∀ a ∈ s.stack, a < s.next
  counter : s.counter = s'.counter
  loopStack : s.loopStack = s'.loopStack
  h : s.h = s'.h
  calls : s.calls.map Call.what = s'.calls.map Call.what

/-- The same result, states that correspond, and nothing that was allocated is lost. -/
def PMv (n k : Nat) {α : Type} (x y : α × St V H) : Prop := x.1 = y.1 ∧ Mv n x.2 y.2 ∧ k ≤ x.2.next

/-- Runs that correspond. -/
def RunMv (n : Nat) (r r' : Run V H) : Prop := ∀ s s', Mv n s s' → OutRel (PMv n s.next) (r s) (r' s')

section
variable {n : Nat} {env env' : Env V H} {s s' : St V H}

theorem PMv.ok {α : Type} {k : Nat} {r : α} (h : Mv n s s') (hk : k ≤ s.next) : OutRel (PMv n k) (.ok (r, s)) (.ok (r, s')) := ⟨rfl, h, hk⟩

theorem setPos_mv (M : Moved n env env') (h : Mv n s s') (p : Nat) :
    (setPos env (p + n) s = .ok { s with pos := p + n } ∧ setPos env' p s' = .ok { s' with pos := p } ∧
      Mv n { s with pos := p + n } { s' with pos := p }) ∨
    (setPos env (p + n) s = .panic .outOfBound ∧ setPos env' p s' = .panic .outOfBound) := by
  unfold setPos
  rw [M.len]
  by_cases hp : p ≤ env'.st.len
  · rw [if_pos hp, if_pos (by omega)]
    exact Or.inl ⟨rfl, rfl, rfl, h.next, h.result, h.endpos, h.stage, h.mask, h.id, h.fpos, h.table, h.tableLt, h.stack, h.stackLt,
      h.counter, h.loopStack, h.h, h.calls⟩
  · rw [if_neg hp, if_neg (by omega)]
    exact Or.inr ⟨rfl, rfl⟩

/-- `SetPos` and what follows. -/
theorem setPos_bind (M : Moved n env env') (h : Mv n s s') (p : Nat) {α β : Type} {Q : α → β → Prop} {f : St V H → Out α} {f' : St V H → Out β}
    (hf : Mv n { s with pos := p + n } { s' with pos := p } → OutRel Q (f { s with pos := p + n }) (f' { s' with pos := p })) :
    OutRel Q (setPos env (p + n) s >>= f) (setPos env' p s' >>= f') := by
  rcases setPos_mv M h p with ⟨h1, h2, h3⟩ | ⟨h1, h2⟩
  · rw [h1, h2]; exact hf h3
  · rw [h1, h2]; exact rfl

theorem Mv.withH (h : Mv n s s') (x : H) : Mv n { s with h := x } { s' with h := x } :=
  ⟨h.pos, h.next, h.result, h.endpos, h.stage, h.mask, h.id, h.fpos, h.table, h.tableLt, h.stack, h.stackLt, h.counter, h.loopStack, rfl, h.calls⟩

theorem Mv.withPos (h : Mv n s s') (p : Nat) : Mv n { s with pos := p + n } { s' with pos := p } :=
  ⟨rfl, h.next, h.result, h.endpos, h.stage, h.mask, h.id, h.fpos, h.table, h.tableLt, h.stack, h.stackLt, h.counter, h.loopStack, h.h, h.calls⟩

/-- A change of a frame. -/
theorem Mv.upd (h : Mv n s s') (a : Nat) {f f' : Frame V → Frame V} (hr : ∀ x x' : Frame V, x.result = x'.result → (f x).result = (f' x').result)
    (he : ∀ x x' : Frame V, x.endpos = x'.endpos.map (· + n) → (f x).endpos = (f' x').endpos.map (· + n))
    (hs : ∀ x x' : Frame V, x.loopstage = x'.loopstage → (f x).loopstage = (f' x').loopstage)
    (hm : ∀ x x' : Frame V, x.wipemask = x'.wipemask → (f x).wipemask = (f' x').wipemask)
    (hi : ∀ x, (f x).id = x.id ∧ (f' x).id = x.id) (hp : ∀ x, (f x).pos = x.pos ∧ (f' x).pos = x.pos) : Mv n (updFrame a f s) (updFrame a f' s') := by
  have key : ∀ {P : Frame V → Frame V → Prop}, (∀ b, P (s.heap b) (s'.heap b)) → P (f (s.heap a)) (f' (s'.heap a)) →
      ∀ b, P ((updFrame a f s).heap b) ((updFrame a f' s').heap b) := by
    intro P h1 h2 b
    unfold updFrame setHeap
    dsimp only
    by_cases hb : b = a
    · rw [if_pos hb, if_pos hb]; exact h2
    · rw [if_neg hb, if_neg hb]; exact h1 b
  refine ⟨h.pos, h.next, key (P := fun x y => x.result = y.result) h.result (hr _ _ (h.result a)),
    key (P := fun x y => x.endpos = y.endpos.map (· + n)) h.endpos (he _ _ (h.endpos a)),
    key (P := fun x y => x.loopstage = y.loopstage) h.stage (hs _ _ (h.stage a)),
    key (P := fun x y => x.wipemask = y.wipemask) h.mask (hm _ _ (h.mask a)),
    key (P := fun x y => x.id = y.id) h.id ?_, ?_, h.table, h.tableLt, h.stack, h.stackLt, h.counter, h.loopStack, h.h, h.calls⟩
  · rw [(hi _).1, (hi _).2]; exact h.id a
  · intro b hb
    unfold updFrame setHeap
    dsimp only
    by_cases hba : b = a
    · rw [if_pos hba, if_pos hba, (hp _).1, (hp _).2]
      subst hba
      exact h.fpos b hb
    · rw [if_neg hba, if_neg hba]; exact h.fpos b hb

theorem Mv.stageSet (h : Mv n s s') (a : Nat) (k : Int) : Mv n (setStage a k s) (setStage a k s') :=
  h.upd a (fun _ _ e => e) (fun _ _ e => e) (fun _ _ _ => rfl) (fun _ _ e => e) (fun _ => ⟨rfl, rfl⟩) (fun _ => ⟨rfl, rfl⟩)

theorem Mv.cache (h : Mv n s s') (a : Nat) (r : Option V) (e : Option Nat) : Mv n (cacheSet a r (e.map (· + n)) s) (cacheSet a r e s') :=
  h.upd a (fun _ _ _ => rfl) (fun _ _ _ => rfl) (fun _ _ e => e) (fun _ _ e => e) (fun _ => ⟨rfl, rfl⟩) (fun _ => ⟨rfl, rfl⟩)

theorem logIf_off (env : Env V H) (s : St V H) : logIf env false s = .ok () := rfl

/-- `getFrame`. -/
theorem getFrame_mv (M : Moved n env env') (h : Mv n s s') (id : Nat) :
    OutRel (fun x y => x.1 = y.1 ∧ Mv n x.2 y.2 ∧ s.next ≤ x.2.next ∧ x.1 < x.2.next ∧ x.2.pos = s.pos) (getFrame env id s) (getFrame env' id s') := by
  unfold getFrame
  rw [M.len, M.g]
  by_cases hc : s'.pos ≤ env'.st.len ∧ id < env'.g.numRules
  · rw [if_pos hc, if_pos (by rw [h.pos]; exact ⟨by omega, hc.2⟩)]
    have ht := h.table s'.pos id
    rw [← h.pos] at ht
    cases hx : s'.table s'.pos id with
    | some a =>
      rw [ht, hx]
      exact ⟨rfl, h, Nat.le_refl _, h.tableLt _ _ _ (ht.trans hx), rfl⟩
    | none =>
      rw [ht, hx]
      refine ⟨h.next, ⟨h.pos, by dsimp only; rw [h.next], ?_, ?_, ?_, ?_, ?_, ?_, ?_, ?_, h.stack, ?_, h.counter, h.loopStack, h.h, h.calls⟩,
        Nat.le_succ _, Nat.lt_succ_self _, rfl⟩ <;> dsimp only [setHeap, setTable]
      · intro a; rw [h.next]; split
        · rfl
        · exact h.result a
      · intro a; rw [h.next]; split
        · rfl
        · exact h.endpos a
      · intro a; rw [h.next]; split
        · rfl
        · exact h.stage a
      · intro a; rw [h.next]; split
        · rfl
        · exact h.mask a
      · intro a; rw [h.next]; split
        · rfl
        · exact h.id a
      · intro a ha
        by_cases he : a = s.next
        · rw [if_pos he, if_pos (he.trans h.next)]; exact h.pos
        · rw [if_neg he, if_neg (fun e => he (e.trans h.next.symm))]; exact h.fpos a (by omega)
      · intro p i
        rw [h.pos, h.next]
        by_cases hp : p = s'.pos ∧ i = id
        · rw [if_pos hp, if_pos ⟨by omega, hp.2⟩]
        · rw [if_neg hp, if_neg (fun e => hp ⟨by omega, e.2⟩)]; exact h.table p i
      · intro p i a
        split
        · intro e; cases e; omega
        · intro e; have := h.tableLt p i a e; omega
      · intro a ha; have := h.stackLt a ha; omega
  · rw [if_neg hc, if_neg (by rw [h.pos]; intro hx; exact hc ⟨by omega, hx.2⟩)]
    exact rfl

/-- `stackPush`. -/
theorem stackPush_mv (M : Moved n env env') (h : Mv n s s') (id : Nat) :
    OutRel (fun x y => Mv n x y ∧ s.next ≤ x.next) (stackPush env id s) (stackPush env' id s') := by
  unfold stackPush
  refine (getFrame_mv M h id).bind ?_
  rintro ⟨a, t⟩ ⟨a', t'⟩ ⟨rfl, ht, h1, h2, -⟩
  dsimp only
  rw [ht.stack]
  split
  · refine ⟨⟨ht.pos, ht.next, ht.result, ht.endpos, ht.stage, ht.mask, ht.id, ht.fpos, ht.table, ht.tableLt, rfl, ?_, ht.counter,
      ht.loopStack, ht.h, ht.calls⟩, h1⟩
    intro b hb
    rcases List.mem_cons.mp hb with rfl | hb
    · exact h2
    · exact ht.stackLt b (by rw [ht.stack]; exact hb)
  · exact rfl

theorem Mv.pop (h : Mv n s s') : Mv n (stackPop s) (stackPop s') :=
  ⟨h.pos, h.next, h.result, h.endpos, h.stage, h.mask, h.id, h.fpos, h.table, h.tableLt, congrArg List.tail h.stack,
    fun a ha => h.stackLt a (List.mem_of_mem_tail ha), h.counter, h.loopStack, h.h, h.calls⟩

/-- `wipeWith`. -/
theorem wipeWith_mv (h : Mv n s s') {a : Nat} (ha : a < s.next) :
    OutRel (fun x y => x.1 = y.1 ∧ Mv n x.2 y.2 ∧ x.2.next = s.next ∧ x.2.pos = s.pos ∧ ∀ i b, x.1 i = some b → b < s.next) (wipeWith a s) (wipeWith a s') := by
  unfold wipeWith
  rw [h.mask a]
  cases (s'.heap a).wipemask with
  | none => exact rfl
  | some m =>
    dsimp only
    refine ⟨?_, ⟨h.pos, h.next, h.result, h.endpos, h.stage, h.mask, h.id, h.fpos, ?_, ?_, h.stack, h.stackLt, h.counter, h.loopStack, h.h, h.calls⟩,
      rfl, rfl, ?_⟩ <;> dsimp only
    · funext i
      rw [h.fpos a ha, h.table]
    · intro p i
      rw [h.fpos a ha]
      by_cases hp : p = (s'.heap a).pos ∧ m i = true
      · rw [if_pos hp, if_pos ⟨by omega, hp.2⟩]
      · rw [if_neg hp, if_neg (fun e => hp ⟨by omega, e.2⟩)]; exact h.table p i
    · intro p i b
      split
      · intro e; cases e
      · exact h.tableLt p i b
    · intro i b
      split
      · exact h.tableLt _ i b
      · intro e; cases e

/-- `restoreWith`. -/
theorem restoreWith_mv (h : Mv n s s') {stash : Nat → Option Nat} (hs : ∀ i b, stash i = some b → b < s.next) :
    Mv n (restoreWith stash s) (restoreWith stash s') := by
  refine ⟨h.pos, h.next, h.result, h.endpos, h.stage, h.mask, h.id, h.fpos, ?_, ?_, h.stack, h.stackLt, h.counter, h.loopStack, h.h, h.calls⟩ <;>
    dsimp only [restoreWith]
  · intro p i
    cases hx : stash i with
    | none => exact h.table p i
    | some b =>
      dsimp only
      rw [h.fpos b (hs i b hx)]
      by_cases hp : p = (s'.heap b).pos
      · rw [if_pos hp, if_pos (by omega)]
      · rw [if_neg hp, if_neg (by omega)]; exact h.table p i
  · intro p i b
    cases hx : stash i with
    | none => exact h.tableLt p i b
    | some c =>
      dsimp only
      split
      · intro e; cases e; exact hs i _ hx
      · exact h.tableLt p i b

theorem collectMask_mv (h : Mv n s s') (p id : Nat) : ∀ (l : List Nat), (∀ a ∈ l, a < s.next) → ∀ m,
    collectMask s.heap (p + n) id l m = collectMask s'.heap p id l m
  | [], _, m => rfl
  | b :: l, hl, m => by
    rw [collectMask, collectMask, h.fpos b (hl b (List.mem_cons_self ..)), h.id b, collectMask_mv h p id l (fun a ha => hl a (List.mem_cons_of_mem _ ha))]
    simp only [Nat.add_lt_add_iff_right, gt_iff_lt]

/-- The growing loop. -/
theorem growLoop_mv (M : Moved n env env') {fp fp' : Run V H} (hf : RunMv n fp fp') (a p : Nat) : ∀ (k : Nat) (r : V) (s s' : St V H), Mv n s s' → a < s.next →
    OutRel (fun x y => x.1.1 = y.1.1 ∧ x.1.2.1 = y.1.2.1 + n ∧ x.1.2.2 = y.1.2.2 ∧ Mv n x.2 y.2 ∧ s.next ≤ x.2.next ∧ ∀ i b, x.1.1 i = some b → b < x.2.next)
      (growLoop env false fp a (p + n) k r s) (growLoop env' false fp' a p k r s')
  | 0, _, _, _, _, _ => trivial
  | k + 1, r, s, s', h, ha => by
    rw [growLoop, growLoop]
    refine (wipeWith_mv h ha).bind ?_
    rintro ⟨st, t⟩ ⟨st', t'⟩ ⟨rfl, ht, h1, h2, h3⟩
    have h1 : t.next = s.next := h1
    have h2 : t.pos = s.pos := h2
    have h3 : ∀ i b, st i = some b → b < s.next := h3
    have ht : Mv n t t' := ht
    dsimp only
    have hc := ht.cache a (some r) (some t'.pos)
    rw [Option.map_some, ← ht.pos] at hc
    rw [logIf_off, logIf_off]
    refine setPos_bind M hc p fun hq => ?_
    refine (hf _ _ hq).bind ?_
    rintro ⟨r1, u⟩ ⟨r1', u'⟩ ⟨e, hu, hle⟩
    obtain rfl : r1 = r1' := e
    have hle : t.next ≤ u.next := hle
    have hu : Mv n u u' := hu
    dsimp only
    rw [hu.pos, ht.pos]
    have hst : ∀ i b, st i = some b → b < u.next := fun i b hb => Nat.lt_of_lt_of_le (h3 i b hb) (by omega)
    by_cases hx : u'.pos ≤ t'.pos
    · rw [if_pos hx, if_pos (by omega)]
      exact ⟨rfl, rfl, rfl, hu, by dsimp only; omega, hst⟩
    · rw [if_neg hx, if_neg (by omega)]
      cases r1 with
      | none => exact ⟨rfl, rfl, rfl, hu, by dsimp only; omega, hst⟩
      | some r1 =>
        have ih := growLoop_mv M hf a p k r1 u u' hu (by omega)
        refine ih.imp ?_
        rintro ⟨⟨x1, x2, x3⟩, x4⟩ ⟨⟨y1, y2, y3⟩, y4⟩ ⟨g1, g2, g3, g4, g5, g6⟩
        exact ⟨g1, g2, g3, g4, by dsimp only at g5 ⊢; omega, g6⟩

theorem Mv.grown (h : Mv n s s') (a : Nat) (m : Nat → Bool) :
    Mv n (updFrame a (fun f => { f with wipemask := some m }) s) (updFrame a (fun f => { f with wipemask := some m }) s') :=
  h.upd a (fun _ _ e => e) (fun _ _ e => e) (fun _ _ e => e) (fun _ _ _ => rfl) (fun _ => ⟨rfl, rfl⟩) (fun _ => ⟨rfl, rfl⟩)

/-- `loopify`. -/
theorem loopify_mv (M : Moved n env env') {fp fp' : Run V H} (hf : RunMv n fp fp') (k id : Nat) {i : Info} (hd : i.debug = false) :
    RunMv n (loopify env k id i fp) (loopify env' k id i fp') := by
  obtain ⟨q1, q2, q3, q4⟩ := M.quiet
  intro s s' h
  unfold loopify
  rw [q1, q3, q2, q4, hd]
  simp only [Bool.or_self, logIf_off, Bool.false_and, Bool.false_eq_true, if_false, Out.bind_ok]
  by_cases hsk : i.skipCache = true
  · rw [if_pos hsk, if_pos hsk]
    refine (hf s s' h).bind ?_
    rintro ⟨r, t⟩ ⟨r', t'⟩ ⟨e, ht, hle⟩
    obtain rfl : r = r' := e
    exact PMv.ok ht hle
  rw [if_neg hsk, if_neg hsk]
  refine (getFrame_mv M h id).bind ?_
  rintro ⟨a, t⟩ ⟨a', t'⟩ ⟨e, ht, hle, ha, -⟩
  obtain rfl : a = a' := e
  have ht : Mv n t t' := ht
  have hle : s.next ≤ t.next := hle
  have ha : a < t.next := ha
  dsimp only
  have h1 : Mv n (if (t.heap a).loopstage < 0 then setStage a 0 t else t) (if (t'.heap a).loopstage < 0 then setStage a 0 t' else t') := by
    rw [ht.stage a]
    split
    · exact ht.stageSet a 0
    · exact ht
  have hn1 : (if (t.heap a).loopstage < 0 then setStage a 0 t else t).next = t.next := by split <;> rfl
  have hp1 : (if (t.heap a).loopstage < 0 then setStage a 0 t else t).pos = t.pos := by split <;> rfl
  have hp1' : (if (t'.heap a).loopstage < 0 then setStage a 0 t' else t').pos = t'.pos := by split <;> rfl
  generalize hu : (if (t.heap a).loopstage < 0 then setStage a 0 t else t) = u at h1 hn1 hp1 ⊢
  generalize hu' : (if (t'.heap a).loopstage < 0 then setStage a 0 t' else t') = u' at h1 hp1' ⊢
  rw [← hn1] at hle ha
  rw [h1.stage a]
  by_cases hz : (u'.heap a).loopstage = 0
  · rw [if_pos hz, if_pos hz, h1.endpos a]
    cases (u'.heap a).endpos with
    | some e =>
      dsimp only [Option.map_some]
      refine setPos_bind M h1 e fun hq => ?_
      rw [h1.result a]
      exact PMv.ok hq hle
    | none =>
      dsimp only [Option.map_none]
      have h2 := (h1.stageSet a 1).cache a none none
      refine (hf _ _ h2).bind ?_
      rintro ⟨r, v⟩ ⟨r', v'⟩ ⟨e, hv, hlv⟩
      obtain rfl : r = r' := e
      have hv : Mv n v v' := hv
      have hlv : u.next ≤ v.next := hlv
      dsimp only
      rw [hv.stage a]
      by_cases hs1 : (v'.heap a).loopstage = 1
      · rw [if_pos hs1, if_pos hs1]
        have := (hv.stageSet a 0).cache a r (some v'.pos)
        rw [Option.map_some, ← hv.pos] at this
        exact PMv.ok this (Nat.le_trans hle hlv)
      rw [if_neg hs1, if_neg hs1]
      by_cases hs2 : (v'.heap a).loopstage = 2
      · rw [if_pos hs2, if_pos hs2]
        cases r with
        | none => exact PMv.ok (hv.stageSet a 0) (Nat.le_trans hle hlv)
        | some r =>
          dsimp only
          rw [ht.pos]
          refine (growLoop_mv M hf a t'.pos k r _ _ (hv.stageSet a 3) (Nat.lt_of_lt_of_le ha hlv)).bind ?_
          rintro ⟨⟨b1, b2, b3⟩, w⟩ ⟨⟨c1, c2, c3⟩, w'⟩ ⟨e1, e2, e3, hw, hlw, hst⟩
          obtain rfl : b1 = c1 := e1
          obtain rfl : b3 = c3 := e3
          have e2 : b2 = c2 + n := e2
          subst e2
          have hw : Mv n w w' := hw
          have hlw : v.next ≤ w.next := hlw
          have hst : ∀ i b, b1 i = some b → b < w.next := hst
          dsimp only
          refine (wipeWith_mv hw (a := a) (by omega)).bind ?_
          rintro ⟨x1, x⟩ ⟨y1, y⟩ ⟨-, hx, hx1, -, -⟩
          have hx : Mv n x y := hx
          have hx1 : x.next = w.next := hx1
          have hr := restoreWith_mv hx (stash := b1) (fun i b hb => by rw [hx1]; exact hst i b hb)
          refine setPos_bind M hr c2 fun hq => ?_
          exact PMv.ok (hq.stageSet a 0) (show s.next ≤ x.next by omega)
      · rw [if_neg hs2, if_neg hs2]
        exact rfl
  · rw [if_neg hz, if_neg hz]
    by_cases hs : (u'.heap a).loopstage = 1 ∨ (u'.heap a).loopstage = 2 ∨ (u'.heap a).loopstage = 3
    · rw [if_pos hs, if_pos hs]
      have h2 : Mv n (if (u'.heap a).loopstage = 1 then setStage a 2 u else u) (if (u'.heap a).loopstage = 1 then setStage a 2 u' else u') := by
        split
        · exact h1.stageSet a 2
        · exact h1
      have hn2 : (if (u'.heap a).loopstage = 1 then setStage a 2 u else u).next = u.next := by split <;> rfl
      generalize (if (u'.heap a).loopstage = 1 then setStage a 2 u else u) = w at h2 hn2 ⊢
      generalize (if (u'.heap a).loopstage = 1 then setStage a 2 u' else u') = w' at h2 ⊢
      rw [ht.pos, h2.stack, h2.mask a, collectMask_mv h2 _ _ _ (fun b hb => h2.stackLt b (by rw [h2.stack]; exact List.mem_of_mem_tail hb))]
      refine (OutRel.same _).bind ?_
      rintro m _ rfl
      have h3 := h2.grown a m
      rw [h3.result a, h3.endpos a]
      generalize (updFrame a (fun f => { f with wipemask := some m }) w').heap a = fr
      cases fr.endpos with
      | none => exact PMv.ok h3 (show s.next ≤ w.next by omega)
      | some e =>
        dsimp only [Option.map_some]
        exact setPos_bind M h3 e fun hq => PMv.ok hq (show s.next ≤ w.next by omega)
    · rw [if_neg hs, if_neg hs]
      exact rfl

/-- `stackPeek`. -/
theorem stackPeek_mv (h : Mv n s s') : stackPeek s = stackPeek s' ∧ ∀ a, stackPeek s = .ok a → a < s.next := by
  unfold stackPeek
  rw [h.stack]
  refine ⟨rfl, ?_⟩
  intro a ha
  have hl := h.stackLt
  rw [h.stack] at hl
  cases hx : s'.stack with
  | nil => rw [hx] at ha; cases ha
  | cons b l =>
    rw [hx] at ha hl
    cases ha
    exact hl _ (List.mem_cons_self ..)

theorem mkCall_mv (h : Mv n s s') (c : Nat) (b : Bool) : (mkCall c b s).what = (mkCall c b s').what := by
  unfold mkCall
  rw [h.stack]
  cases s'.stack with
  | nil => rfl
  | cons a l => simp only [Call.what, h.id a]

/-- `prepareResult`. -/
theorem prepareResult_mv (M : Moved n env env') (b : Bool) (i : Info) {fp fp' : Run V H} (hf : RunMv n fp fp') :
    RunMv n (prepareResult env b i fp) (prepareResult env' b i fp') := by
  intro s s' h
  unfold prepareResult
  have h0 : Mv n { s with counter := s.counter + 1 } { s' with counter := s'.counter + 1 } :=
    ⟨h.pos, h.next, h.result, h.endpos, h.stage, h.mask, h.id, h.fpos, h.table, h.tableLt, h.stack, h.stackLt, by dsimp only; rw [h.counter],
      h.loopStack, h.h, h.calls⟩
  refine (hf _ _ h0).bind ?_
  rintro ⟨r, t⟩ ⟨r', t'⟩ ⟨e, ht, hle⟩
  obtain rfl : r = r' := e
  have ht : Mv n t t' := ht
  have hle : s.next ≤ t.next := hle
  cases r with
  | none => exact PMv.ok ht hle
  | some v =>
    dsimp only
    rw [ht.h, M.oNewMap]
    generalize hp : (if i.ownLabel = true then env'.ops.newMap i.label v t'.h else (v, t'.h)) = p
    obtain ⟨w, g⟩ := p
    dsimp only
    -- the last part
    have last : ∀ (x : V) (u u' : St V H), Mv n u u' → s.next ≤ u.next →
        OutRel (PMv n s.next)
          (stackPeek u >>= fun top => .ok (some (env.ops.origin x ⟨(u.heap top).pos, u.pos, env.st.line u.pos, i.ruleName⟩ u.h).1,
            { u with h := (env.ops.origin x ⟨(u.heap top).pos, u.pos, env.st.line u.pos, i.ruleName⟩ u.h).2 }))
          (stackPeek u' >>= fun top => .ok (some (env'.ops.origin x ⟨(u'.heap top).pos, u'.pos, env'.st.line u'.pos, i.ruleName⟩ u'.h).1,
            { u' with h := (env'.ops.origin x ⟨(u'.heap top).pos, u'.pos, env'.st.line u'.pos, i.ruleName⟩ u'.h).2 })) := by
      intro x u u' hu hlu
      obtain ⟨e1, e2⟩ := stackPeek_mv hu
      rw [← e1]
      cases hs : stackPeek u with
      | oof => exact trivial
      | panic e => exact rfl
      | ok a =>
        have ha := e2 a hs
        show OutRel _ (Out.ok _) (Out.ok _)
        rw [hu.fpos a ha, hu.pos, hu.h, M.oOrigin]
        exact PMv.ok ((hu.withPos u'.pos).withH _) hlu
    cases i.cb with
    | none => exact last w _ _ (ht.withH g) hle
    | some c =>
      have hc : Mv n { t with h := g, calls := mkCall c b { t with h := g } :: t.calls } { t' with h := g, calls := mkCall c b { t' with h := g } :: t'.calls } :=
        ⟨ht.pos, ht.next, ht.result, ht.endpos, ht.stage, ht.mask, ht.id, ht.fpos, ht.table, ht.tableLt, ht.stack, ht.stackLt, ht.counter,
          ht.loopStack, rfl, by
            dsimp only
            rw [List.map_cons, List.map_cons, ht.calls, mkCall_mv (ht.withH g)]⟩
      dsimp only
      have hcb : env.ops.cb c w t.pos g = env'.ops.cb c w t'.pos g := by rw [ht.pos, M.oCb]
      rw [hcb]
      cases env'.ops.cb c w t'.pos g with
      | error e => exact rfl
      | ok x =>
        obtain ⟨rv, g'⟩ := x
        simp only [Out.ofExcept, Out.bind_ok]
        cases rv with
        | none => exact PMv.ok ((hc.withH g')) hle
        | some v => exact last v _ _ (hc.withH g') hle

variable {rc rc' : Node → Run V H}

/-- The loop of a choice. -/
theorem parseAlts_mv (M : Moved n env env') (hr : ∀ x, RunMv n (rc x) (rc' x)) : ∀ l, RunMv n (parseAlts env rc l) (parseAlts env' rc' l)
  | [], s, s', h => PMv.ok h (Nat.le_refl _)
  | c :: l, s, s', h => by
    rw [parseAlts, parseAlts]
    refine (hr c s s' h).bind ?_
    rintro ⟨r, t⟩ ⟨r', t'⟩ ⟨e, ht, hle⟩
    obtain rfl : r = r' := e
    have ht : Mv n t t' := ht
    have hle : s.next ≤ t.next := hle
    cases r with
    | some v => exact PMv.ok ht hle
    | none =>
      dsimp only
      rw [h.pos]
      refine setPos_bind M ht s'.pos fun hq => ?_
      refine (parseAlts_mv M hr l _ _ hq).imp ?_
      rintro x y ⟨e1, e2, e3⟩
      exact ⟨e1, e2, Nat.le_trans hle e3⟩

/-- The loops of a sequence. -/
theorem parseItems_mv (M : Moved n env env') (hr : ∀ x, RunMv n (rc x) (rc' x)) (repr : SeqRepr) :
    ∀ l acc, RunMv n (parseItems env rc repr l acc) (parseItems env' rc' repr l acc)
  | [], acc, s, s', h => by
    rw [parseItems, parseItems, M.oDone, h.h]
    exact PMv.ok (h.withH _) (Nat.le_refl _)
  | c :: l, acc, s, s', h => by
    rw [parseItems, parseItems]
    refine (hr c s s' h).bind ?_
    rintro ⟨r, t⟩ ⟨r', t'⟩ ⟨e, ht, hle⟩
    obtain rfl : r = r' := e
    have ht : Mv n t t' := ht
    have hle : s.next ≤ t.next := hle
    cases r with
    | none => exact PMv.ok ht hle
    | some v =>
      dsimp only
      rw [M.g, M.oAdd, ht.h]
      refine (OutRel.same _).bind ?_
      rintro ⟨a, g⟩ _ rfl
      refine (parseItems_mv M hr repr l a _ _ (ht.withH g)).imp ?_
      rintro x y ⟨e1, e2, e3⟩
      exact ⟨e1, e2, Nat.le_trans hle e3⟩

/-- The end of a pattern. -/
theorem repEnd_mv (M : Moved n env env') (h : Mv n s s') (mn : Int) (ms : List V) (start : Nat) :
    OutRel (PMv n s.next)
      (if mn > -1 ∧ mn > (ms.length : Int) then do
        let s ← setPos env (start + n) s
        .ok (none, s)
      else
        let (v, h) := env.ops.arr ms s.h
        .ok (some v, { s with h := h }))
      (if mn > -1 ∧ mn > (ms.length : Int) then do
        let s ← setPos env' start s'
        .ok (none, s)
      else
        let (v, h) := env'.ops.arr ms s'.h
        .ok (some v, { s' with h := h })) := by
  split
  · exact setPos_bind M h start fun hq => PMv.ok hq (Nat.le_refl _)
  · show OutRel _ (Out.ok (some (env.ops.arr ms s.h).1, { s with h := (env.ops.arr ms s.h).2 }))
      (Out.ok (some (env'.ops.arr ms s'.h).1, { s' with h := (env'.ops.arr ms s'.h).2 }))
    rw [M.oArr, h.h]
    exact PMv.ok (h.withH _) (Nat.le_refl _)

/-- The loop of a pattern. -/
theorem parseRep_mv (M : Moved n env env') (hr : ∀ x, RunMv n (rc x) (rc' x)) (v : Node) (j : Option Node) (mn mx : Int) (start : Nat) :
    ∀ k ms, RunMv n (parseRep env rc v j mn mx (start + n) k ms) (parseRep env' rc' v j mn mx start k ms)
  | 0, _, _, _, _ => trivial
  | k + 1, ms, s, s', h => by
    unfold parseRep
    have hj : OutRel (PMv n s.next)
        (match j with | none => Out.ok (true, s) | some j => do let (r, s) ← rc j s; .ok (r.isSome, s))
        (match j with | none => Out.ok (true, s') | some j => do let (r, s) ← rc' j s'; .ok (r.isSome, s)) := by
      cases j with
      | none => exact PMv.ok h (Nat.le_refl _)
      | some j =>
        refine (hr j s s' h).bind ?_
        rintro ⟨r, t⟩ ⟨r', t'⟩ ⟨e, ht, hle⟩
        obtain rfl : r = r' := e
        exact PMv.ok ht hle
    refine hj.bind ?_
    rintro ⟨b, t⟩ ⟨b', t'⟩ ⟨e, ht, hle⟩
    obtain rfl : b = b' := e
    have ht : Mv n t t' := ht
    have hle : s.next ≤ t.next := hle
    have weak : ∀ {u : St V H} {x y : Out (Option V × St V H)}, s.next ≤ u.next → OutRel (PMv n u.next) x y → OutRel (PMv n s.next) x y := by
      intro u x y hu hx
      exact hx.imp fun _ _ ⟨e1, e2, e3⟩ => ⟨e1, e2, Nat.le_trans hu e3⟩
    dsimp only
    cases b with
    | false =>
      simp only [Bool.not_false, if_true]
      rw [h.pos]
      exact setPos_bind M ht s'.pos fun hq => weak hle (repEnd_mv M hq mn ms start)
    | true =>
      simp only [Bool.not_true, Bool.false_eq_true, if_false]
      refine (hr v t t' ht).bind ?_
      rintro ⟨r, u⟩ ⟨r', u'⟩ ⟨e, hu, hlu⟩
      obtain rfl : r = r' := e
      have hu : Mv n u u' := hu
      have hlu : t.next ≤ u.next := hlu
      cases r with
      | none =>
        dsimp only
        rw [h.pos]
        exact setPos_bind M hu s'.pos fun hq => weak (Nat.le_trans hle hlu) (repEnd_mv M hq mn ms start)
      | some w =>
        dsimp only
        split
        · exact weak (Nat.le_trans hle hlu) (repEnd_mv M hu mn (ms ++ [w]) start)
        · exact weak (Nat.le_trans hle hlu) (parseRep_mv M hr v j mn mx start k (ms ++ [w]) u u' hu)

/-- The bodies. -/
theorem parseKind_mv (M : Moved n env env') (hr : ∀ x, RunMv n (rc x) (rc' x)) (k : Nat) (x : Node) :
    RunMv n (parseKind env rc k x) (parseKind env' rc' k x) := by
  intro s s' h
  cases x with
  | str i b =>
    have e1 := M.str s'.pos b
    rw [← h.pos] at e1
    have key : OutRel (fun x y => x.1 = y.1 ∧ x.2 = y.2 + n) (Out.ofExcept (env.st.matchString s.pos b)) (Out.ofExcept (env'.st.matchString s'.pos b)) := by
      rw [e1]
      cases env'.st.matchString s'.pos b <;> first | exact rfl | exact ⟨rfl, rfl⟩
    refine key.bind ?_
    rintro ⟨m, p⟩ ⟨m', p'⟩ ⟨e, e'⟩
    obtain rfl : m = m' := e
    have e' : p = p' + n := e'
    subst e'
    cases m with
    | none => exact PMv.ok (h.withPos p') (Nat.le_refl _)
    | some t =>
      dsimp only
      rw [M.oStr]
      exact PMv.ok (h.withPos p') (Nat.le_refl _)
  | regex i b =>
    have e1 := M.re s'.pos b
    rw [← h.pos] at e1
    have key : OutRel (fun x y => x.1 = y.1 ∧ x.2 = y.2 + n) (Out.ofExcept (env.st.matchRegexp s.pos b)) (Out.ofExcept (env'.st.matchRegexp s'.pos b)) := by
      rw [e1]
      cases env'.st.matchRegexp s'.pos b <;> first | exact rfl | exact ⟨rfl, rfl⟩
    refine key.bind ?_
    rintro ⟨m, p⟩ ⟨m', p'⟩ ⟨e, e'⟩
    obtain rfl : m = m' := e
    have e' : p = p' + n := e'
    subst e'
    cases m with
    | none => exact PMv.ok (h.withPos p') (Nat.le_refl _)
    | some t =>
      dsimp only
      rw [M.oStr]
      exact PMv.ok (h.withPos p') (Nat.le_refl _)
  | choice i l => exact parseAlts_mv M hr l s s' h
  | seq i repr l => exact parseItems_mv M hr repr l {} s s' h
  | exist i it =>
    refine (hr it s s' h).bind ?_
    rintro ⟨r, t⟩ ⟨r', t'⟩ ⟨e, ht, hle⟩
    obtain rfl : r = r' := e
    have ht : Mv n t t' := ht
    have hle : s.next ≤ t.next := hle
    cases r with
    | some v => exact PMv.ok ht hle
    | none =>
      dsimp only
      rw [h.pos, M.oUndef]
      exact setPos_bind M ht s'.pos fun hq => PMv.ok hq hle
  | look i it =>
    refine (hr it s s' h).bind ?_
    rintro ⟨r, t⟩ ⟨r', t'⟩ ⟨e, ht, hle⟩
    obtain rfl : r = r' := e
    have ht : Mv n t t' := ht
    have hle : s.next ≤ t.next := hle
    dsimp only
    rw [h.pos]
    exact setPos_bind M ht s'.pos fun hq => PMv.ok hq hle
  | not i it =>
    refine (hr it s s' h).bind ?_
    rintro ⟨r, t⟩ ⟨r', t'⟩ ⟨e, ht, hle⟩
    obtain rfl : r = r' := e
    have ht : Mv n t t' := ht
    have hle : s.next ≤ t.next := hle
    dsimp only
    rw [h.pos, M.oUndef]
    refine setPos_bind M ht s'.pos fun hq => ?_
    cases r with
    | some v => exact PMv.ok hq hle
    | none => exact PMv.ok hq hle
  | pattern i v j mn mx =>
    refine (hr v s s' h).bind ?_
    rintro ⟨r, t⟩ ⟨r', t'⟩ ⟨e, ht, hle⟩
    obtain rfl : r = r' := e
    have ht : Mv n t t' := ht
    have hle : s.next ≤ t.next := hle
    cases r with
    | some w =>
      dsimp only
      rw [h.pos]
      refine (parseRep_mv M hr v j mn mx s'.pos k [w] t t' ht).imp ?_
      rintro x y ⟨e1, e2, e3⟩
      exact ⟨e1, e2, Nat.le_trans hle e3⟩
    | none =>
      dsimp only
      rw [h.pos]
      refine setPos_bind M ht s'.pos fun hq => ?_
      split
      · exact PMv.ok hq hle
      · show OutRel _ (Out.ok (some (env.ops.arr [] t.h).1, { t with pos := s'.pos + n, h := (env.ops.arr [] t.h).2 }))
          (Out.ok (some (env'.ops.arr [] t'.h).1, { t' with pos := s'.pos, h := (env'.ops.arr [] t'.h).2 }))
        rw [M.oArr, ht.h]
        exact PMv.ok (hq.withH _) hle
  | ref i nm =>
    have key : OutRel (PMv n s.next)
        (match env.g.lookup nm with | none => .panic (.undefinedRef nm) | some id => do let _ ← stackPeek s; rc (.rule id) s)
        (match env'.g.lookup nm with | none => .panic (.undefinedRef nm) | some id => do let _ ← stackPeek s'; rc' (.rule id) s') := by
      rw [M.g]
      cases env'.g.lookup nm with
      | none => exact rfl
      | some id =>
        dsimp only
        rw [(stackPeek_mv h).1]
        refine (OutRel.same _).bind ?_
        rintro a _ rfl
        exact hr (.rule id) s s' h
    exact key
  | rule id => exact hr (.rule id) s s' h

/-- `wrap`. -/
theorem wrap_mv (M : Moved n env env') (hr : ∀ x, RunMv n (rc x) (rc' x)) (k : Nat) (x : Node) : RunMv n (wrap env rc k x) (wrap env' rc' k x) := by
  intro s s' h
  have other : OutRel (PMv n s.next)
      (if x.info.ownLabel || x.info.cb.isSome then prepareResult env false x.info (parseKind env rc k x) s else parseKind env rc k x s)
      (if x.info.ownLabel || x.info.cb.isSome then prepareResult env' false x.info (parseKind env' rc' k x) s' else parseKind env' rc' k x s') := by
    split
    · exact prepareResult_mv M false x.info (parseKind_mv M hr k x) s s' h
    · exact parseKind_mv M hr k x s s' h
  cases x with
  | rule id =>
    unfold wrap
    dsimp only
    have hg : env.g.rules[id]? = env'.g.rules[id]? := by rw [M.g]
    rw [hg]
    cases hb : env'.g.rules[id]? with
    | none => exact rfl
    | some body =>
      dsimp only
      have hdb : body.info.debug = false := M.debug body (by rw [M.g]; exact List.mem_of_getElem? hb)
      refine (stackPush_mv M h id).bind ?_
      rintro t t' ⟨ht, hle⟩
      refine (loopify_mv M (prepareResult_mv M true body.info (parseKind_mv M hr k body)) k id hdb t t' ht).bind ?_
      rintro ⟨r, u⟩ ⟨r', u'⟩ ⟨e, hu, hlu⟩
      obtain rfl : r = r' := e
      exact PMv.ok (Mv.pop hu) (Nat.le_trans hle hlu)
  | str => exact other
  | regex => exact other
  | choice => exact other
  | seq => exact other
  | exist => exact other
  | look => exact other
  | not => exact other
  | pattern => exact other
  | ref => exact other

/-- The engine. -/
theorem parse_mv (M : Moved n env env') : ∀ k x, RunMv n (parse env k x) (parse env' k x)
  | 0, _, _, _, _ => trivial
  | k + 1, x, s, s', h => wrap_mv M (parse_mv M k) k x s s' h

/-- The beginnings correspond. -/
theorem newState_mv (h : H) (p n : Nat) : Mv n (newState h (p + n) : St V H) (newState h p) :=
  ⟨rfl, rfl, fun _ => rfl, fun _ => rfl, fun _ => rfl, fun _ => rfl, fun _ => rfl, fun a ha => absurd ha (Nat.not_lt_zero a), fun _ _ => rfl,
    (fun _ _ _ e => by cases e), rfl, (fun _ ha => absurd ha (List.not_mem_nil)), rfl, rfl, rfl, rfl⟩

end

end Joeson
