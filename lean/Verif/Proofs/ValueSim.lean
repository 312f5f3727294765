import Verif.Proofs.Invariant
import Verif.Model.GrammarParse
/-!
# The engine does not look into values

Two representations of values whose operations correspond step by step give parses that correspond step by
step. The correspondence may depend on both stores and on a world `W` (which cells are private to a sequence
that is still filling its map).
-/

namespace Joeson

/-- Both absent or both present and related. -/
inductive ORel {α β : Type} (R : α → β → Prop) : Option α → Option β → Prop
  | none : ORel R none none
  | some {a b} : R a b → ORel R (some a) (some b)

theorem ORel.imp {α β : Type} {R R' : α → β → Prop} (h : ∀ a b, R a b → R' a b) {x : Option α} {y : Option β}
    (hx : ORel R x y) : ORel R' x y := by
  cases hx with
  | none => exact .none
  | some h' => exact .some (h _ _ h')

theorem ORel.isSome {α β : Type} {R : α → β → Prop} {x : Option α} {y : Option β} (h : ORel R x y) :
    x.isSome = y.isSome := by cases h <;> rfl

/-- Lists of the same length with related elements. -/
inductive LRel {α β : Type} (R : α → β → Prop) : List α → List β → Prop
  | nil : LRel R [] []
  | cons {a b l l'} : R a b → LRel R l l' → LRel R (a :: l) (b :: l')

theorem LRel.imp {α β : Type} {R R' : α → β → Prop} (h : ∀ a b, R a b → R' a b) {x : List α} {y : List β}
    (hx : LRel R x y) : LRel R' x y := by
  induction hx with
  | nil => exact .nil
  | cons h' _ ih => exact .cons (h _ _ h') ih

theorem LRel.snoc {α β : Type} {R : α → β → Prop} {x : List α} {y : List β} (hx : LRel R x y) {a : α} {b : β}
    (h : R a b) : LRel R (x ++ [a]) (y ++ [b]) := by
  induction hx with
  | nil => exact .cons h .nil
  | cons h' _ ih => exact .cons h' ih

theorem LRel.length {α β : Type} {R : α → β → Prop} {x : List α} {y : List β} (hx : LRel R x y) :
    y.length = x.length := by
  induction hx with
  | nil => rfl
  | cons _ _ ih => simp [ih]

/-- The same panic, or related values. -/
def ERel {α β : Type} (Q : α → β → Prop) : Except Panic α → Except Panic β → Prop
  | .ok a, .ok b => Q a b
  | .error e, .error e' => e = e'
  | _, _ => False

/-- The same panic, both out of fuel, or related values. -/
def OutRel {α β : Type} (Q : α → β → Prop) : Out α → Out β → Prop
  | .ok a, .ok b => Q a b
  | .panic e, .panic e' => e = e'
  | .oof, .oof => True
  | _, _ => False

theorem OutRel.bind {α β γ δ : Type} {Q : α → β → Prop} {Q' : γ → δ → Prop} {x : Out α} {y : Out β}
    {f : α → Out γ} {g : β → Out δ} (h : OutRel Q x y) (hf : ∀ a b, Q a b → OutRel Q' (f a) (g b)) :
    OutRel Q' (x >>= f) (y >>= g) := by
  cases x <;> cases y <;> first | exact h.elim | skip
  · exact hf _ _ h
  · exact h
  · trivial

theorem OutRel.imp {α β : Type} {Q Q' : α → β → Prop} {x : Out α} {y : Out β} (h : OutRel Q x y)
    (hf : ∀ a b, Q a b → Q' a b) : OutRel Q' x y := by
  cases x <;> cases y <;> first | exact h.elim | skip
  · exact hf _ _ h
  · exact h
  · trivial

theorem OutRel.ofExcept {α β : Type} {Q : α → β → Prop} {x : Except Panic α} {y : Except Panic β} (h : ERel Q x y) :
    OutRel Q (Out.ofExcept x) (Out.ofExcept y) := by
  cases x <;> cases y <;> exact h

theorem OutRel.same {α : Type} (x : Out α) : OutRel Eq x x := by cases x <;> first | rfl | trivial

/-- Operations that correspond. -/
structure ValSim {V H V' H' : Type} (ops : Ops V H) (ops' : Ops V' H') where
  W : Type
  I : W → H → H' → Prop
  R : W → H → H' → V → V' → Prop
  Le : W → H → H' → H → H' → Prop
  le_refl : ∀ w h h', Le w h h' h h'
  le_trans : ∀ {w h h' k k' l l'}, Le w h h' k k' → Le w k k' l l' → Le w h h' l l'
  mono : ∀ {w h h' k k' v v'}, Le w h h' k k' → R w h h' v v' → R w k k' v v'
  str : ∀ w h h' b, R w h h' (ops.str b) (ops'.str b)
  undef : ∀ w h h', R w h h' ops.undef ops'.undef
  arr : ∀ {w h h' l l'}, I w h h' → LRel (R w h h') l l' →
    I w (ops.arr l h).2 (ops'.arr l' h').2 ∧ Le w h h' (ops.arr l h).2 (ops'.arr l' h').2 ∧
    R w (ops.arr l h).2 (ops'.arr l' h').2 (ops.arr l h).1 (ops'.arr l' h').1
  newMap : ∀ {w h h' v v'} k, I w h h' → R w h h' v v' →
    I w (ops.newMap k v h).2 (ops'.newMap k v' h').2 ∧ Le w h h' (ops.newMap k v h).2 (ops'.newMap k v' h').2 ∧
    R w (ops.newMap k v h).2 (ops'.newMap k v' h').2 (ops.newMap k v h).1 (ops'.newMap k v' h').1
  origin : ∀ {w h h' v v'} o, I w h h' → R w h h' v v' →
    I w (ops.origin v o h).2 (ops'.origin v' o h').2 ∧ Le w h h' (ops.origin v o h).2 (ops'.origin v' o h').2 ∧
    R w (ops.origin v o h).2 (ops'.origin v' o h').2 (ops.origin v o h).1 (ops'.origin v' o h').1
  cb : ∀ {w h h' v v'} c p, I w h h' → R w h h' v v' →
    ERel (fun x y => I w x.2 y.2 ∧ Le w h h' x.2 y.2 ∧ ORel (R w x.2 y.2) x.1 y.1)
      (ops.cb c v p h) (ops'.cb c v' p h')
  /-- `Acc w h0 h0' h h' r r' w2`: a sequence begun at `h0` in world `w` is filling `r`; its other items are
  parsed in world `w2`. -/
  Acc : W → H → H' → H → H' → V → V' → W → Prop
  acc_undef : ∀ {w h0 h0' h h' r r' w2}, Acc w h0 h0' h h' r r' w2 → ops.isUndef r = ops'.isUndef r'
  acc_le : ∀ {w h0 h0' h h' k k' r r' w2}, Acc w h0 h0' h h' r r' w2 → Le w2 h h' k k' → Acc w h0 h0' k k' r r' w2
  acc_done : ∀ {w h0 h0' h h' r r' w2}, Acc w h0 h0' h h' r r' w2 → I w2 h h' →
    I w h h' ∧ Le w h0 h0' h h' ∧ R w h h' r r' ∧ ∀ u u', R w2 h h' u u' → R w h h' u u'
  acc_new : ∀ {w h0 h0' h h' v v'} k, Le w h0 h0' h h' → I w h h' → R w h h' v v' →
    ∃ w2, Acc w h0 h0' (ops.newMap k v h).2 (ops'.newMap k v' h').2 (ops.newMap k v h).1 (ops'.newMap k v' h').1 w2 ∧
      I w2 (ops.newMap k v h).2 (ops'.newMap k v' h').2 ∧
      ∀ u u', R w h h' u u' → R w2 (ops.newMap k v h).2 (ops'.newMap k v' h').2 u u'
  acc_set : ∀ {w h0 h0' h h' r r' w2 v v'} k, Acc w h0 h0' h h' r r' w2 → I w2 h h' → R w2 h h' v v' →
    ERel (fun x y => ∃ w3, Acc w h0 h0' x.2 y.2 x.1 y.1 w3 ∧ I w3 x.2 y.2 ∧
        ∀ u u', R w2 h h' u u' → R w3 x.2 y.2 u u') (ops.mapSet r k v h) (ops'.mapSet r' k v' h')
  /-- whether `@` and `&` may be used anywhere -/
  splice : Prop
  acc_def : splice ∨ ∀ {w h0 h0' h h' r r' w2}, Acc w h0 h0' h h' r r' w2 → ops.isUndef r = false
  acc_val : splice → ∀ {w h0 h0' h h' v v'}, Le w h0 h0' h h' → I w h h' → R w h h' v v' →
    ∃ w2, Acc w h0 h0' h h' v v' w2 ∧ I w2 h h' ∧ ∀ u u', R w h h' u u' → R w2 h h' u u'
  acc_merge : ∀ {w h0 h0' h h' r r' w2 v v'}, Acc w h0 h0' h h' r r' w2 → I w2 h h' → R w2 h h' v v' →
    ERel (fun x y => ∃ w3, Acc w h0 h0' x.2 y.2 x.1 y.1 w3 ∧ I w3 x.2 y.2 ∧
        ∀ u u', R w2 h h' u u' → R w3 x.2 y.2 u u') (ops.merge r v h) (ops'.merge r' v' h')
  acc_merge' : splice → ∀ {w h0 h0' h h' r r' w2 v v'}, Acc w h0 h0' h h' r r' w2 → I w2 h h' → R w2 h h' v v' →
    ERel (fun x y => ∃ w3, Acc w h0 h0' x.2 y.2 x.1 y.1 w3 ∧ I w3 x.2 y.2 ∧
        ∀ u u', R w2 h h' u u' → R w3 x.2 y.2 u u') (ops.merge v r h) (ops'.merge v' r' h')

namespace ValSim
variable {V H V' H' : Type} {ops : Ops V H} {ops' : Ops V' H'}

/-- Frames that differ only in the value. -/
structure FR (S : ValSim ops ops') (w : S.W) (h : H) (h' : H') (f : Frame V) (f' : Frame V') : Prop where
  endpos : f'.endpos = f.endpos
  loopstage : f'.loopstage = f.loopstage
  wipemask : f'.wipemask = f.wipemask
  pos : f'.pos = f.pos
  id : f'.id = f.id
  result : ORel (S.R w h h') f.result f'.result

/-- States that differ only in the values. -/
structure SR (S : ValSim ops ops') (w : S.W) (s : St V H) (s' : St V' H') : Prop where
  pos : s'.pos = s.pos
  next : s'.next = s.next
  table : s'.table = s.table
  stack : s'.stack = s.stack
  counter : s'.counter = s.counter
  loopStack : s'.loopStack = s.loopStack
  calls : s'.calls = s.calls
  inv : S.I w s.h s'.h
  heap : ∀ a, S.FR w s.h s'.h (s.heap a) (s'.heap a)

variable (S : ValSim ops ops')

theorem FR.imp {w w2 : S.W} {h k : H} {h' k' : H'} (hr : ∀ u u', S.R w h h' u u' → S.R w2 k k' u u') {f : Frame V}
    {f' : Frame V'} (hf : S.FR w h h' f f') : S.FR w2 k k' f f' :=
  ⟨hf.endpos, hf.loopstage, hf.wipemask, hf.pos, hf.id, hf.result.imp hr⟩

/-- Another store, in which everything that was related still is. -/
theorem SR.store {w w2 : S.W} {s : St V H} {s' : St V' H'} (hs : S.SR w s s') {k : H} {k' : H'} (hi : S.I w2 k k')
    (hr : ∀ u u', S.R w s.h s'.h u u' → S.R w2 k k' u u') : S.SR w2 { s with h := k } { s' with h := k' } :=
  ⟨hs.pos, hs.next, hs.table, hs.stack, hs.counter, hs.loopStack, hs.calls, hi, fun a => FR.imp S hr (hs.heap a)⟩

theorem SR.world {w w2 : S.W} {s : St V H} {s' : St V' H'} (hs : S.SR w s s') (hi : S.I w2 s.h s'.h)
    (hr : ∀ u u', S.R w s.h s'.h u u' → S.R w2 s.h s'.h u u') : S.SR w2 s s' :=
  ⟨hs.pos, hs.next, hs.table, hs.stack, hs.counter, hs.loopStack, hs.calls, hi, fun a => FR.imp S hr (hs.heap a)⟩

theorem SR.at {w : S.W} {s : St V H} {s' : St V' H'} (hs : S.SR w s s') (p : Nat) :
    S.SR w { s with pos := p } { s' with pos := p } :=
  ⟨rfl, hs.next, hs.table, hs.stack, hs.counter, hs.loopStack, hs.calls, hs.inv, hs.heap⟩

theorem SR.upd {w : S.W} {s : St V H} {s' : St V' H'} (hs : S.SR w s s') (a : Nat) {f : Frame V → Frame V}
    {f' : Frame V' → Frame V'} (hf : S.FR w s.h s'.h (f (s.heap a)) (f' (s'.heap a))) :
    S.SR w (updFrame a f s) (updFrame a f' s') := by
  refine ⟨hs.pos, hs.next, hs.table, hs.stack, hs.counter, hs.loopStack, hs.calls, hs.inv, fun b => ?_⟩
  show S.FR w s.h s'.h (setHeap _ _ _ b) (setHeap _ _ _ b)
  unfold setHeap
  by_cases hb : b = a
  · rw [if_pos hb, if_pos hb]; exact hf
  · rw [if_neg hb, if_neg hb]; exact hs.heap b

theorem SR.stage {w : S.W} {s : St V H} {s' : St V' H'} (hs : S.SR w s s') (a : Nat) (n : Int) :
    S.SR w (setStage a n s) (setStage a n s') := by
  have hf := hs.heap a
  exact hs.upd S a ⟨hf.endpos, rfl, hf.wipemask, hf.pos, hf.id, hf.result⟩

theorem SR.cache {w : S.W} {s : St V H} {s' : St V' H'} (hs : S.SR w s s') (a : Nat) {r : Option V} {r' : Option V'}
    (hr : ORel (S.R w s.h s'.h) r r') (e : Option Nat) : S.SR w (cacheSet a r e s) (cacheSet a r' e s') := by
  have hf := hs.heap a
  exact hs.upd S a ⟨rfl, hf.loopstage, hf.wipemask, hf.pos, hf.id, hr⟩

/-- Outcomes of related runs. -/
def Good (w : S.W) (h : H) (h' : H') (x : Option V × St V H) (y : Option V' × St V' H') : Prop :=
  S.SR w x.2 y.2 ∧ S.Le w h h' x.2.h y.2.h ∧ ORel (S.R w x.2.h y.2.h) x.1 y.1

/-- Related runs, in every world. -/
def RunRel (f : Run V H) (f' : Run V' H') : Prop :=
  ∀ w s s', S.SR w s s' → OutRel (S.Good w s.h s'.h) (f s) (f' s')

/-- The other environment. -/
abbrev other (env : Env V H) (ops' : Ops V' H') : Env V' H' :=
  { ops := ops', st := env.st, g := env.g, trace := env.trace, skipLog := env.skipLog }

theorem other_trace (env : Env V H) (ops' : Ops V' H') : (other env ops').trace = env.trace := rfl
theorem other_st (env : Env V H) (ops' : Ops V' H') : (other env ops').st = env.st := rfl
theorem other_g (env : Env V H) (ops' : Ops V' H') : (other env ops').g = env.g := rfl
theorem other_ops (env : Env V H) (ops' : Ops V' H') : (other env ops').ops = ops' := rfl

theorem Good.later {w : S.W} {h k : H} {h' k' : H'} (hl : S.Le w h h' k k') {x : Option V × St V H}
    {y : Option V' × St V' H'} (hg : S.Good w k k' x y) : S.Good w h h' x y :=
  ⟨hg.1, S.le_trans hl hg.2.1, hg.2.2⟩

variable {env : Env V H} (henv : env.ops = ops)

theorem setPos_rel {w : S.W} {s : St V H} {s' : St V' H'} (hs : S.SR w s s') (n : Nat) :
    OutRel (fun x y => S.SR w x y ∧ x.h = s.h ∧ y.h = s'.h) (setPos env n s) (setPos (other env ops') n s') := by
  unfold setPos
  show OutRel _ _ (if n ≤ env.st.len then _ else _)
  split
  · exact ⟨hs.at S n, rfl, rfl⟩
  · rfl

theorem getFrame_rel {w : S.W} {s : St V H} {s' : St V' H'} (hs : S.SR w s s') (id : Nat) :
    OutRel (fun x y => x.1 = y.1 ∧ S.SR w x.2 y.2 ∧ x.2.h = s.h ∧ y.2.h = s'.h)
      (getFrame env id s) (getFrame (other env ops') id s') := by
  unfold getFrame
  show OutRel _ _ (if s'.pos ≤ env.st.len ∧ id < env.g.numRules then _ else _)
  rw [hs.pos, hs.table, hs.next]
  split
  · split
    · exact ⟨rfl, hs, rfl, rfl⟩
    · refine ⟨rfl, ⟨rfl, rfl, rfl, hs.stack, hs.counter, hs.loopStack, hs.calls, hs.inv, fun b => ?_⟩, rfl, rfl⟩
      show S.FR w s.h s'.h (setHeap _ _ _ b) (setHeap _ _ _ b)
      unfold setHeap
      split
      · exact ⟨rfl, rfl, rfl, rfl, rfl, .none⟩
      · exact hs.heap b
  · rfl

theorem logIf_rel {w : S.W} {s : St V H} {s' : St V' H'} (hs : S.SR w s s') (b : Bool) :
    logIf (other env ops') b s' = logIf env b s := by
  unfold logIf logHook
  rw [hs.pos]

theorem logHook_rel {w : S.W} {s : St V H} {s' : St V' H'} (hs : S.SR w s s') :
    logHook (other env ops') s' = logHook env s := by
  unfold logHook
  rw [hs.pos]

theorem stackPush_rel {w : S.W} {s : St V H} {s' : St V' H'} (hs : S.SR w s s') (id : Nat) :
    OutRel (fun x y => S.SR w x y ∧ x.h = s.h ∧ y.h = s'.h) (stackPush env id s) (stackPush (other env ops') id s') := by
  unfold stackPush
  refine (S.getFrame_rel hs id).bind ?_
  rintro ⟨a, t⟩ ⟨a', t'⟩ ⟨rfl, ht, h1, h2⟩
  dsimp only at *
  rw [ht.stack]
  split
  · exact ⟨⟨ht.pos, ht.next, ht.table, rfl, ht.counter, ht.loopStack, ht.calls, ht.inv, ht.heap⟩, h1, h2⟩
  · rfl

theorem stackPeek_rel {w : S.W} {s : St V H} {s' : St V' H'} (hs : S.SR w s s') : stackPeek s' = stackPeek s := by
  unfold stackPeek
  rw [hs.stack]

theorem wipeWith_rel {w : S.W} {s : St V H} {s' : St V' H'} (hs : S.SR w s s') (a : Nat) :
    OutRel (fun x y => x.1 = y.1 ∧ S.SR w x.2 y.2 ∧ x.2.h = s.h ∧ y.2.h = s'.h) (wipeWith a s) (wipeWith a s') := by
  unfold wipeWith
  rw [(hs.heap a).wipemask]
  split
  · rfl
  · rw [(hs.heap a).pos, hs.table]
    exact ⟨rfl, ⟨hs.pos, hs.next, rfl, hs.stack, hs.counter, hs.loopStack, hs.calls, hs.inv, hs.heap⟩, rfl, rfl⟩

theorem restoreWith_rel {w : S.W} {s : St V H} {s' : St V' H'} (hs : S.SR w s s') (stash : Nat → Option Nat) :
    S.SR w (restoreWith stash s) (restoreWith stash s') := by
  refine ⟨hs.pos, hs.next, ?_, hs.stack, hs.counter, hs.loopStack, hs.calls, hs.inv, hs.heap⟩
  funext p i
  unfold restoreWith
  dsimp only
  split
  · rw [(hs.heap _).pos, hs.table]
  · rw [hs.table]

theorem collectMask_rel {w : S.W} {s : St V H} {s' : St V' H'} (hs : S.SR w s s') (p id : Nat) (l : List Nat)
    (m : Nat → Bool) : collectMask s'.heap p id l m = collectMask s.heap p id l m := by
  induction l generalizing m with
  | nil => rfl
  | cons b l ih =>
    unfold collectMask
    rw [(hs.heap b).pos, (hs.heap b).id, ih]

theorem growLoop_rel {f : Run V H} {f' : Run V' H'} (hf : S.RunRel f f') (sh : Bool) (a p : Nat) (k : Nat) :
    ∀ (w : S.W) (s : St V H) (s' : St V' H') (r : V) (r' : V'), S.SR w s s' → S.R w s.h s'.h r r' →
      OutRel (fun x y => x.1.1 = y.1.1 ∧ x.1.2.1 = y.1.2.1 ∧ S.R w x.2.h y.2.h x.1.2.2 y.1.2.2 ∧ S.SR w x.2 y.2 ∧
          S.Le w s.h s'.h x.2.h y.2.h)
        (growLoop env sh f a p k r s) (growLoop (other env ops') sh f' a p k r' s') := by
  induction k with
  | zero => intro w s s' r r' _ _; trivial
  | succ k ih =>
    intro w s s' r r' hs hr
    unfold growLoop
    refine (S.wipeWith_rel hs a).bind ?_
    rintro ⟨st, t⟩ ⟨st', t'⟩ ⟨rfl, ht, h1, h2⟩
    dsimp only at *
    have hr1 : S.R w t.h t'.h r r' := by rw [h1, h2]; exact hr
    have hc := ht.cache S a (.some hr1) (some t.pos)
    rw [ht.pos]
    rw [S.logIf_rel hc]
    refine (OutRel.same _).bind ?_
    rintro _ _ rfl
    refine (S.setPos_rel hc p).bind ?_
    rintro t2 t2' ⟨ht2, h3, h4⟩
    refine (hf w t2 t2' ht2).bind ?_
    rintro ⟨q, t3⟩ ⟨q', t3'⟩ ⟨ht3, hle, hq⟩
    dsimp only at *
    have e1 : t2.h = s.h := h3.trans h1
    have e2 : t2'.h = s'.h := h4.trans h2
    rw [e1, e2] at hle
    have hr3 := S.mono hle hr
    rw [ht3.pos]
    split
    · exact ⟨rfl, rfl, hr3, ht3, hle⟩
    · cases hq with
      | none => exact ⟨rfl, rfl, hr3, ht3, hle⟩
      | some hq =>
        refine (ih w t3 t3' _ _ ht3 hq).imp ?_
        rintro x y ⟨i1, i2, i3, i4, i5⟩
        exact ⟨i1, i2, i3, i4, S.le_trans hle i5⟩

theorem loopify_rel {f : Run V H} {f' : Run V' H'} (hf : S.RunRel f f') (k id : Nat) (i : Info) :
    S.RunRel (loopify env k id i f) (loopify (other env ops') k id i f') := by
  intro w s s' hs
  unfold loopify
  dsimp only
  generalize (env.trace.stack || i.debug) = sh
  rw [S.logIf_rel hs]
  refine (OutRel.same _).bind ?_
  rintro _ _ rfl
  by_cases hsk : i.skipCache = true
  · rw [if_pos hsk, if_pos hsk]
    refine (hf w s s' hs).bind ?_
    rintro ⟨r, t⟩ ⟨r', t'⟩ hg
    dsimp only
    cases sh with
    | true =>
      have hgg := hg
      obtain ⟨ht, hle, hr⟩ := hg
      dsimp only at *
      cases hr with
      | none => rfl
      | some hr =>
        rw [if_pos rfl, if_pos rfl]
        dsimp only
        rw [S.logHook_rel ht]
        refine (OutRel.same _).bind ?_
        rintro _ _ rfl
        exact hgg
    | false => exact hg
  · rw [if_neg hsk, if_neg hsk]
    refine (S.getFrame_rel hs id).bind ?_
    rintro ⟨a, t⟩ ⟨a', t'⟩ ⟨rfl, ht, e1, e2⟩
    dsimp only at *
    rw [← e1, ← e2]
    clear e1 e2 hs
    rw [ht.pos]
    generalize hp : t.pos = p
    have ht2 : S.SR w (if (t.heap a).loopstage < 0 then setStage a 0 t else t)
        (if (t'.heap a).loopstage < 0 then setStage a 0 t' else t') := by
      rw [(ht.heap a).loopstage]
      split
      · exact ht.stage S a 0
      · exact ht
    have e1 : (if (t.heap a).loopstage < 0 then setStage a 0 t else t).h = t.h := by split <;> rfl
    have e2 : (if (t'.heap a).loopstage < 0 then setStage a 0 t' else t').h = t'.h := by split <;> rfl
    rw [← e1, ← e2]
    generalize (if (t.heap a).loopstage < 0 then setStage a 0 t else t) = u at *
    generalize (if (t'.heap a).loopstage < 0 then setStage a 0 t' else t') = u' at *
    clear e1 e2 ht hp
    rw [(ht2.heap a).loopstage]
    by_cases h0 : (u.heap a).loopstage = 0
    · rw [if_pos h0, if_pos h0, (ht2.heap a).endpos]
      cases (u.heap a).endpos with
      | some e =>
        dsimp only
        rw [S.logIf_rel ht2]
        refine (OutRel.same _).bind ?_
        rintro _ _ rfl
        refine (S.setPos_rel ht2 e).bind ?_
        rintro x x' ⟨hx, h1, h2⟩
        refine ⟨hx, ?_, ?_⟩
        · dsimp only; rw [h1, h2]; exact S.le_refl _ _ _
        · dsimp only; rw [h1, h2]; exact (ht2.heap a).result
      | none =>
        dsimp only
        have hc := (ht2.stage S a 1).cache S a (.none) none
        refine (hf w _ _ hc).bind ?_
        rintro ⟨r, x⟩ ⟨r', x'⟩ ⟨hx, hle, hr⟩
        dsimp only at *
        change S.Le w u.h u'.h x.h x'.h at hle
        rw [(hx.heap a).loopstage]
        by_cases h1 : (x.heap a).loopstage = 1
        · rw [if_pos h1, if_pos h1, hx.pos]
          have hx2 := (hx.stage S a 0).cache S a hr (some x.pos)
          rw [S.logIf_rel hx2]
          refine (OutRel.same _).bind ?_
          rintro _ _ rfl
          exact ⟨hx2, hle, hr⟩
        · rw [if_neg h1, if_neg h1]
          by_cases h2 : (x.heap a).loopstage = 2
          · rw [if_pos h2, if_pos h2]
            cases hr with
            | none =>
              dsimp only
              rw [S.logIf_rel hx]
              refine (OutRel.same _).bind ?_
              rintro _ _ rfl
              exact ⟨hx.stage S a 0, hle, .none⟩
            | @some v v' hr =>
              dsimp only
              have hx3 := hx.stage S a 3
              have hpos : (setStage a 3 x').pos = (setStage a 3 x).pos := hx3.pos
              have hb : (env.trace.loop && (decide (env.trace.filterLine < 0) ||
                env.st.line (setStage a 3 x').pos == env.trace.filterLine)) = (env.trace.loop && (decide (env.trace.filterLine < 0) ||
                env.st.line (setStage a 3 x).pos == env.trace.filterLine)) := by rw [hpos]
              rw [hb]
              generalize (env.trace.loop && (decide (env.trace.filterLine < 0) ||
                env.st.line (setStage a 3 x).pos == env.trace.filterLine)) = b
              have hx4 : S.SR w (if b = true then { setStage a 3 x with loopStack := i.name :: (setStage a 3 x).loopStack } else setStage a 3 x)
                  (if b = true then { setStage a 3 x' with loopStack := i.name :: (setStage a 3 x').loopStack } else setStage a 3 x') := by
                cases b with
                | false => exact hx3
                | true =>
                  rw [if_pos rfl, if_pos rfl]
                  exact ⟨hx3.pos, hx3.next, hx3.table, hx3.stack, hx3.counter, congrArg (i.name :: ·) hx3.loopStack, hx3.calls, hx3.inv, hx3.heap⟩
              have e1 : (if b = true then { setStage a 3 x with loopStack := i.name :: (setStage a 3 x).loopStack } else setStage a 3 x).h = x.h := by
                cases b <;> rfl
              have e2 : (if b = true then { setStage a 3 x' with loopStack := i.name :: (setStage a 3 x').loopStack } else setStage a 3 x').h = x'.h := by
                cases b <;> rfl
              generalize (if b = true then { setStage a 3 x with loopStack := i.name :: (setStage a 3 x).loopStack } else setStage a 3 x) = y at *
              generalize (if b = true then { setStage a 3 x' with loopStack := i.name :: (setStage a 3 x').loopStack } else setStage a 3 x') = y' at *
              rw [← e1, ← e2] at hr hle
              refine (S.growLoop_rel hf sh a p k w y y' _ _ hx4 hr).bind ?_
              rintro ⟨⟨st, e, b⟩, z⟩ ⟨⟨st', e', b'⟩, z'⟩ ⟨i1, i2, i3, i4, i5⟩
              dsimp only at *
              subst i1 i2
              have hle2 := S.le_trans hle i5
              refine OutRel.bind (Q := fun q q' => S.SR w q q' ∧ q.h = z.h ∧ q'.h = z'.h) ?_ ?_
              · split
                · rw [i4.loopStack]
                  split
                  · rfl
                  · exact ⟨⟨i4.pos, i4.next, i4.table, i4.stack, i4.counter, rfl, i4.calls, i4.inv, i4.heap⟩, rfl, rfl⟩
                · exact ⟨i4, rfl, rfl⟩
              · rintro q q' ⟨hq, q1, q2⟩
                refine (S.wipeWith_rel hq a).bind ?_
                rintro ⟨m, q3⟩ ⟨m', q3'⟩ ⟨-, hq3, q4, q5⟩
                dsimp only at *
                have hq4 := S.restoreWith_rel hq3 st
                refine (S.setPos_rel hq4 e).bind ?_
                rintro q6 q6' ⟨hq6, q7, q8⟩
                rw [S.logIf_rel hq6]
                refine (OutRel.same _).bind ?_
                rintro _ _ rfl
                have f1 : q6.h = z.h := (q7.trans q4).trans q1
                have f2 : q6'.h = z'.h := (q8.trans q5).trans q2
                refine ⟨hq6.stage S a 0, ?_, ?_⟩
                · show S.Le w u.h u'.h q6.h q6'.h
                  rw [f1, f2]; exact hle2
                · show ORel (S.R w q6.h q6'.h) _ _
                  rw [f1, f2]; exact .some i3
          · rw [if_neg h2, if_neg h2]
            rfl
    · rw [if_neg h0, if_neg h0]
      split
      · have hv : S.SR w (if (u.heap a).loopstage = 1 then setStage a 2 u else u)
            (if (u.heap a).loopstage = 1 then setStage a 2 u' else u') := by
          split
          · exact ht2.stage S a 2
          · exact ht2
        have e1 : (if (u.heap a).loopstage = 1 then setStage a 2 u else u).h = u.h := by split <;> rfl
        have e2 : (if (u.heap a).loopstage = 1 then setStage a 2 u' else u').h = u'.h := by split <;> rfl
        rw [← e1, ← e2]
        generalize (if (u.heap a).loopstage = 1 then setStage a 2 u else u) = x at *
        generalize (if (u.heap a).loopstage = 1 then setStage a 2 u' else u') = x' at *
        clear e1 e2 ht2
        rw [S.logIf_rel hv]
        refine (OutRel.same _).bind ?_
        rintro _ _ rfl
        rw [S.collectMask_rel hv, hv.stack, (hv.heap a).wipemask]
        refine (OutRel.same _).bind ?_
        rintro m _ rfl
        have hf := hv.heap a
        have hy := hv.upd S a (f := fun f => { f with wipemask := some m }) (f' := fun f => { f with wipemask := some m })
          ⟨hf.endpos, hf.loopstage, rfl, hf.pos, hf.id, hf.result⟩
        rw [(hy.heap a).endpos]
        split
        · rename_i e _
          refine (S.setPos_rel hy e).bind ?_
          rintro q q' ⟨hq, q1, q2⟩
          refine ⟨hq, ?_, ?_⟩
          · dsimp only; rw [q1, q2]; exact S.le_refl _ _ _
          · dsimp only; rw [q1, q2]; exact (hy.heap a).result
        · exact ⟨hy, S.le_refl _ _ _, (hy.heap a).result⟩
      · rfl

theorem mkCall_rel {w : S.W} {s : St V H} {s' : St V' H'} (hs : S.SR w s s') (c : Nat) (b : Bool) :
    mkCall c b s' = mkCall c b s := by
  unfold mkCall
  rw [hs.stack]
  split
  · rw [(hs.heap _).id, (hs.heap _).pos]
  · rfl

theorem origin_rel {w : S.W} {s : St V H} {s' : St V' H'} (hs : S.SR w s s') {h0 : H} {h0' : H'}
    (hle : S.Le w h0 h0' s.h s'.h) {v : V} {v' : V'} (hv : S.R w s.h s'.h v v') (nm : String) :
    OutRel (S.Good w h0 h0')
      (do
        let top ← stackPeek s
        let (v, h) := ops.origin v ⟨(s.heap top).pos, s.pos, env.st.line s.pos, nm⟩ s.h
        .ok (some v, { s with h := h }))
      (do
        let top ← stackPeek s'
        let (v, h) := ops'.origin v' ⟨(s'.heap top).pos, s'.pos, env.st.line s'.pos, nm⟩ s'.h
        .ok (some v, { s' with h := h })) := by
  rw [S.stackPeek_rel hs]
  refine (OutRel.same _).bind ?_
  rintro top _ rfl
  have ho : (⟨(s'.heap top).pos, s'.pos, env.st.line s'.pos, nm⟩ : Origin) =
      ⟨(s.heap top).pos, s.pos, env.st.line s.pos, nm⟩ := by rw [(hs.heap top).pos, hs.pos]
  rw [ho]
  obtain ⟨o1, o2, o3⟩ := S.origin ⟨(s.heap top).pos, s.pos, env.st.line s.pos, nm⟩ hs.inv hv
  exact ⟨hs.store S o1 fun _ _ => S.mono o2, S.le_trans hle o2, .some o3⟩

include henv in
theorem prepareResult_rel {f : Run V H} {f' : Run V' H'} (hf : S.RunRel f f') (b : Bool) (i : Info) :
    S.RunRel (prepareResult env b i f) (prepareResult (other env ops') b i f') := by
  intro w s s' hs
  unfold prepareResult
  dsimp only
  have hs1 : S.SR w { s with counter := s.counter + 1 } { s' with counter := s'.counter + 1 } :=
    ⟨hs.pos, hs.next, hs.table, hs.stack, congrArg (· + 1) hs.counter, hs.loopStack, hs.calls, hs.inv, hs.heap⟩
  refine (hf w _ _ hs1).bind ?_
  rintro ⟨r, t⟩ ⟨r', t'⟩ hg
  have hgg := hg
  obtain ⟨ht, hle, hr⟩ := hg
  dsimp only at *
  cases hr with
  | none => exact hgg
  | @some v v' hv =>
    dsimp only
    rw [henv]
    have hlab : S.I w (if i.ownLabel = true then ops.newMap i.label v t.h else (v, t.h)).2
          (if i.ownLabel = true then ops'.newMap i.label v' t'.h else (v', t'.h)).2 ∧
        S.Le w t.h t'.h (if i.ownLabel = true then ops.newMap i.label v t.h else (v, t.h)).2
          (if i.ownLabel = true then ops'.newMap i.label v' t'.h else (v', t'.h)).2 ∧
        S.R w (if i.ownLabel = true then ops.newMap i.label v t.h else (v, t.h)).2
          (if i.ownLabel = true then ops'.newMap i.label v' t'.h else (v', t'.h)).2
          (if i.ownLabel = true then ops.newMap i.label v t.h else (v, t.h)).1
          (if i.ownLabel = true then ops'.newMap i.label v' t'.h else (v', t'.h)).1 := by
      split
      · exact S.newMap _ ht.inv hv
      · exact ⟨ht.inv, S.le_refl _ _ _, hv⟩
    generalize (if i.ownLabel = true then ops.newMap i.label v t.h else (v, t.h)) = q at *
    generalize (if i.ownLabel = true then ops'.newMap i.label v' t'.h else (v', t'.h)) = q' at *
    obtain ⟨l1, l2, l3⟩ := hlab
    have ht2 := ht.store S l1 fun _ _ => S.mono l2
    have hle2 := S.le_trans hle l2
    cases i.cb with
    | none => exact S.origin_rel (env := env) ht2 hle2 l3 i.ruleName
    | some c =>
      dsimp only
      rw [S.mkCall_rel ht2, ht2.pos, ht2.calls]
      refine (OutRel.ofExcept (S.cb c t.pos l1 l3)).bind ?_
      rintro ⟨rv, h2⟩ ⟨rv', h2'⟩ ⟨c1, c2, c3⟩
      dsimp only at *
      have ht3 : S.SR w { t with h := h2, calls := mkCall c b { t with h := q.2 } :: t.calls }
          { t' with pos := t.pos, h := h2', calls := mkCall c b { t with h := q.2 } :: t.calls } := by
        have := ht2.store S c1 fun _ _ => S.mono c2
        exact ⟨rfl, this.next, this.table, this.stack, this.counter, this.loopStack, rfl, this.inv, this.heap⟩
      have hle3 := S.le_trans hle2 c2
      cases c3 with
      | none => exact ⟨ht3, hle3, .none⟩
      | some c3 => exact S.origin_rel (env := env) ht3 hle3 c3 i.ruleName

/-- Related on nodes meeting `A`. -/
def RecRel (A : Node → Prop) (rec_ : Node → Run V H) (rec_' : Node → Run V' H') : Prop :=
  ∀ n, A n → S.RunRel (rec_ n) (rec_' n)

theorem parseAlts_rel {A : Node → Prop} {rec_ : Node → Run V H} {rec_' : Node → Run V' H'} (hrec : S.RecRel A rec_ rec_')
    (l : List Node) (hl : ∀ c ∈ l, A c) : S.RunRel (parseAlts env rec_ l) (parseAlts (other env ops') rec_' l) := by
  induction l with
  | nil =>
    intro w s s' hs
    exact ⟨hs, S.le_refl _ _ _, .none⟩
  | cons c l ih =>
    intro w s s' hs
    rw [parseAlts, parseAlts]
    refine (hrec c (hl c (by simp)) w s s' hs).bind ?_
    rintro ⟨r, t⟩ ⟨r', t'⟩ hg
    have hgg := hg
    obtain ⟨ht, hle, hr⟩ := hg
    dsimp only at *
    cases hr with
    | some hr => exact hgg
    | none =>
      dsimp only
      rw [hs.pos]
      refine (S.setPos_rel ht s.pos).bind ?_
      rintro x x' ⟨hx, e1, e2⟩
      refine (ih (fun c hc => hl c (by simp [hc])) w x x' hx).imp fun a b h => ?_
      rw [e1, e2] at h
      exact h.later S hle

/-- Accumulators of a sequence begun at `h0`: the items are parsed in world `w2`. -/
inductive AccRel (w : S.W) (h0 : H) (h0' : H') (repr : SeqRepr) (h : H) (h' : H') : SeqAcc V → SeqAcc V' → S.W → Prop
  /-- nothing mutable held -/
  | vals {o o' m m'} : S.Le w h0 h0' h h' → ORel (S.R w h h') o o' → LRel (S.R w h h') m m' →
      (repr = .object → o = none ∧ o' = none ∧ m = [] ∧ m' = []) → AccRel w h0 h0' repr h h' ⟨o, m⟩ ⟨o', m'⟩ w
  /-- a map being filled -/
  | own {r r' w2} : repr = .object → S.Acc w h0 h0' h h' r r' w2 → AccRel w h0 h0' repr h h' ⟨some r, []⟩ ⟨some r', []⟩ w2

theorem AccRel.later {w : S.W} {h0 : H} {h0' : H'} {repr : SeqRepr} {h k : H} {h' k' : H'} {acc : SeqAcc V}
    {acc' : SeqAcc V'} {w2 : S.W} (ha : S.AccRel w h0 h0' repr h h' acc acc' w2) (hle : S.Le w2 h h' k k') :
    S.AccRel w h0 h0' repr k k' acc acc' w2 := by
  cases ha with
  | vals h1 h2 h3 h4 => exact .vals (S.le_trans h1 hle) (h2.imp fun _ _ => S.mono hle) (h3.imp fun _ _ => S.mono hle) h4
  | own h1 h2 => exact .own h1 (S.acc_le h2 hle)

theorem AccRel.done {w : S.W} {h0 : H} {h0' : H'} {repr : SeqRepr} {h : H} {h' : H'} {acc : SeqAcc V}
    {acc' : SeqAcc V'} {w2 : S.W} (ha : S.AccRel w h0 h0' repr h h' acc acc' w2) (hi : S.I w2 h h') :
    S.I w h h' ∧ S.Le w h0 h0' h h' ∧ ORel (S.R w h h') acc.one acc'.one ∧ LRel (S.R w h h') acc.many acc'.many ∧
      ∀ u u', S.R w2 h h' u u' → S.R w h h' u u' := by
  cases ha with
  | vals h1 h2 h3 h4 => exact ⟨hi, h1, h2, h3, fun _ _ h => h⟩
  | own h1 h2 =>
    obtain ⟨d1, d2, d3, d4⟩ := S.acc_done h2 hi
    exact ⟨d1, d2, .some d3, .nil, d4⟩

/-- No item is labelled `&`, and none `@` before one with a label of its own, or there is a map already. -/
def Fills : Bool → List String → Prop
  | _, [] => True
  | b, l :: ls => l ≠ "&" ∧ (l = "@" → b = true) ∧ Fills (b || l != "") ls

/-- Splicing allowed, or only into a map made by this sequence. -/
def SpliceOk (b : Bool) (ls : List String) : Prop := S.splice ∨ Fills b ls

theorem AccRel.cur {w : S.W} {h0 : H} {h0' : H'} {h : H} {h' : H'} {acc : SeqAcc V}
    {acc' : SeqAcc V'} {w2 : S.W} (ha : S.AccRel w h0 h0' .object h h' acc acc' w2) :
    acc.many = [] ∧ acc'.many = [] ∧ ((acc.cur ops = none ∧ acc'.cur ops' = none) ∨
      ∃ r r', acc.cur ops = some r ∧ acc'.cur ops' = some r' ∧ S.Acc w h0 h0' h h' r r' w2) := by
  cases ha with
  | vals h1 h2 h3 h4 =>
    obtain ⟨rfl, rfl, rfl, rfl⟩ := h4 rfl
    exact ⟨rfl, rfl, Or.inl ⟨rfl, rfl⟩⟩
  | @own r r' _ h1 h2 =>
    have hu := S.acc_undef h2
    refine ⟨rfl, rfl, ?_⟩
    unfold SeqAcc.cur
    dsimp only
    rw [← hu]
    cases ops.isUndef r with
    | true => exact Or.inl ⟨rfl, rfl⟩
    | false => exact Or.inr ⟨r, r', rfl, rfl, h2⟩

theorem ERel.bind {α β γ δ : Type} {Q : α → β → Prop} {Q' : γ → δ → Prop} {x : Except Panic α} {y : Except Panic β}
    {f : α → Except Panic γ} {g : β → Except Panic δ} (h : ERel Q x y) (hf : ∀ a b, Q a b → ERel Q' (f a) (g b)) :
    ERel Q' (x >>= f) (y >>= g) := by
  cases x <;> cases y <;> first | exact h.elim | skip
  · exact h
  · exact hf _ _ h

/-- What holds after an item was added. -/
def Added (w : S.W) (h0 : H) (h0' : H') (repr : SeqRepr) (w2 : S.W) (h : H) (h' : H') (x : SeqAcc V × H)
    (y : SeqAcc V' × H') : Prop :=
  ∃ w3, S.AccRel w h0 h0' repr x.2 y.2 x.1 y.1 w3 ∧ S.I w3 x.2 y.2 ∧
    ∀ u u', S.R w2 h h' u u' → S.R w3 x.2 y.2 u u'

theorem seqAdd_rel {w : S.W} {h0 : H} {h0' : H'} {repr : SeqRepr} {h : H} {h' : H'} {acc : SeqAcc V}
    {acc' : SeqAcc V'} {w2 : S.W} (ha : S.AccRel w h0 h0' repr h h' acc acc' w2) (hi : S.I w2 h h') {v : V} {v' : V'}
    (hv : S.R w2 h h' v v') (i : Info) {ls : List String} (hsp : repr = .object → S.SpliceOk acc.one.isSome (i.label :: ls)) :
    ERel (S.Added w h0 h0' repr w2 h h') (seqAdd ops repr i acc v h) (seqAdd ops' repr i acc' v' h') := by
  unfold seqAdd
  cases repr with
  | single =>
    cases ha with
    | own h1 => cases h1
    | vals h1 h2 h3 h4 =>
      dsimp only
      refine ⟨w, ?_, hi, fun _ _ h => h⟩
      dsimp only
      split
      · exact .vals h1 (.some hv) h3 (fun h => by cases h)
      · exact .vals h1 h2 h3 h4
  | array =>
    cases ha with
    | own h1 => cases h1
    | vals h1 h2 h3 h4 =>
      dsimp only
      refine ⟨w, ?_, hi, fun _ _ h => h⟩
      dsimp only
      split
      · exact .vals h1 h2 (h3.snoc hv) (fun h => by cases h)
      · exact .vals h1 h2 h3 h4
  | object =>
    obtain ⟨hm, hm', hcur⟩ := ha.cur S
    obtain ⟨d1, d2, -, -, d3⟩ := ha.done S hi
    have toOwn : ∀ {k k'} {x : V} {x' : V'} {w3}, S.Acc w h0 h0' k k' x x' w3 → S.I w3 k k' →
        (∀ u u', S.R w2 h h' u u' → S.R w3 k k' u u') →
        S.Added w h0 h0' .object w2 h h' ({ acc with one := some x }, k) ({ acc' with one := some x' }, k') := by
      intro k k' x x' w3 a1 a2 a3
      obtain ⟨ao, am⟩ := acc
      obtain ⟨ao', am'⟩ := acc'
      dsimp only at hm hm'
      subst hm hm'
      exact ⟨w3, .own rfl a1, a2, a3⟩
    dsimp only
    by_cases c1 : i.label = "&"
    · rw [if_pos c1, if_pos c1]
      have hs : S.splice := (hsp rfl).resolve_right fun h => h.1 c1
      rcases hcur with ⟨q1, q2⟩ | ⟨r, r', q1, q2, q3⟩
      · rw [q1, q2]
        obtain ⟨w3, a1, a2, a3⟩ := S.acc_val hs d2 d1 (d3 _ _ hv)
        exact toOwn a1 a2 fun u u' h => a3 u u' (d3 u u' h)
      · rw [q1, q2]
        refine ERel.bind (S.acc_merge' hs q3 hi hv) ?_
        rintro ⟨x, k⟩ ⟨x', k'⟩ ⟨w3, a1, a2, a3⟩
        exact toOwn a1 a2 a3
    · rw [if_neg c1, if_neg c1]
      by_cases c2 : i.label = "@"
      · rw [if_pos c2, if_pos c2]
        rcases hcur with ⟨q1, q2⟩ | ⟨r, r', q1, q2, q3⟩
        · have hs : S.splice := by
            refine (hsp rfl).elim id fun h => ?_
            cases ha with
            | vals h1 h2 h3 h4 =>
              obtain ⟨rfl, rfl, rfl, rfl⟩ := h4 rfl
              cases h.2.1 c2
            | own h1 h2 =>
              refine S.acc_def.elim id fun hd => ?_
              simp [SeqAcc.cur, hd h2] at q1
          rw [q1, q2]
          obtain ⟨w3, a1, a2, a3⟩ := S.acc_val hs d2 d1 (d3 _ _ hv)
          exact toOwn a1 a2 fun u u' h => a3 u u' (d3 u u' h)
        · rw [q1, q2]
          refine ERel.bind (S.acc_merge q3 hi hv) ?_
          rintro ⟨x, k⟩ ⟨x', k'⟩ ⟨w3, a1, a2, a3⟩
          exact toOwn a1 a2 a3
      · rw [if_neg c2, if_neg c2]
        split
        · exact ⟨w2, ha, hi, fun _ _ h => h⟩
        · rcases hcur with ⟨q1, q2⟩ | ⟨r, r', q1, q2, q3⟩
          · rw [q1, q2]
            obtain ⟨w3, a1, a2, a3⟩ := S.acc_new i.label d2 d1 (d3 _ _ hv)
            exact toOwn a1 a2 fun u u' h => a3 u u' (d3 u u' h)
          · rw [q1, q2]
            refine ERel.bind (S.acc_set i.label q3 hi hv) ?_
            rintro ⟨x, k⟩ ⟨x', k'⟩ ⟨w3, a1, a2, a3⟩
            exact toOwn a1 a2 a3

theorem seqAdd_isSome {i : Info} {acc : SeqAcc V} {v : V} {h : H} {x : SeqAcc V × H} (hx : seqAdd ops .object i acc v h = .ok x) :
    x.1.one.isSome = (acc.one.isSome || i.label != "") := by
  unfold seqAdd at hx
  dsimp only at hx
  by_cases c1 : i.label = "&"
  · rw [if_pos c1] at hx
    split at hx
    · cases hx; simp [c1]
    · revert hx
      cases ops.merge v _ h with
      | error e => intro hx; cases hx
      | ok y => intro hx; cases hx; simp [c1]
  · rw [if_neg c1] at hx
    by_cases c2 : i.label = "@"
    · rw [if_pos c2] at hx
      split at hx
      · cases hx; simp [c2]
      · revert hx
        cases ops.merge _ v h with
        | error e => intro hx; cases hx
        | ok y => intro hx; cases hx; simp [c2]
    · rw [if_neg c2] at hx
      by_cases c3 : i.label = ""
      · rw [if_pos c3] at hx
        cases hx; simp [c3]
      · rw [if_neg c3] at hx
        split at hx
        · cases hx; simp [c3]
        · revert hx
          cases ops.mapSet _ _ v h with
          | error e => intro hx; cases hx
          | ok y => intro hx; cases hx; simp [c3]

include henv in
theorem parseItems_rel {A : Node → Prop} {rec_ : Node → Run V H} {rec_' : Node → Run V' H'} (hrec : S.RecRel A rec_ rec_')
    (w : S.W) (h0 : H) (h0' : H') (repr : SeqRepr) (l : List Node) :
    (∀ c ∈ l, A c) →
    ∀ (w2 : S.W) (acc : SeqAcc V) (acc' : SeqAcc V') (s : St V H) (s' : St V' H'),
      (repr = .object → S.SpliceOk acc.one.isSome (l.map fun c => (env.g.info c).label)) → S.SR w2 s s' →
      S.AccRel w h0 h0' repr s.h s'.h acc acc' w2 →
      OutRel (S.Good w h0 h0') (parseItems env rec_ repr l acc s) (parseItems (other env ops') rec_' repr l acc' s') := by
  induction l with
  | nil =>
    intro _ w2 acc acc' s s' _ hs ha
    obtain ⟨d1, d2, d3, d4, d5⟩ := ha.done S hs.inv
    have hs1 := hs.world S d1 d5
    rw [parseItems, parseItems, henv]
    unfold seqDone
    cases repr with
    | array =>
      obtain ⟨a1, a2, a3⟩ := S.arr d1 d4
      exact ⟨hs1.store S a1 fun _ _ => S.mono a2, S.le_trans d2 a2, .some a3⟩
    | single =>
      dsimp only
      generalize acc.one = o at d3
      generalize acc'.one = o' at d3
      cases d3 with
      | none => exact ⟨hs1, d2, .some (S.undef _ _ _)⟩
      | some h => exact ⟨hs1, d2, .some h⟩
    | object =>
      dsimp only
      generalize acc.one = o at d3
      generalize acc'.one = o' at d3
      cases d3 with
      | none => exact ⟨hs1, d2, .some (S.undef _ _ _)⟩
      | some h => exact ⟨hs1, d2, .some h⟩
  | cons c l ih =>
    intro hA w2 acc acc' s s' hsp hs ha
    rw [parseItems, parseItems]
    refine (hrec c (hA c (by simp)) w2 s s' hs).bind ?_
    rintro ⟨r, t⟩ ⟨r', t'⟩ ⟨ht, hle, hr⟩
    dsimp only at *
    have ha2 := ha.later S hle
    cases hr with
    | none =>
      obtain ⟨d1, d2, -, -, d5⟩ := ha2.done S ht.inv
      exact ⟨ht.world S d1 d5, d2, .none⟩
    | @some v v' hr =>
      dsimp only
      rw [henv]
      have key : ERel (S.Added w h0 h0' repr w2 t.h t'.h) (seqAdd ops repr (env.g.info c) acc v t.h)
          (seqAdd ops' repr (env.g.info c) acc' v' t'.h) :=  S.seqAdd_rel ha2 ht.inv hr _ hsp
      have some_ : ∀ x, seqAdd ops repr (env.g.info c) acc v t.h = .ok x → repr = .object →
          x.1.one.isSome = (acc.one.isSome || (env.g.info c).label != "") := by
        rintro x hx rfl
        exact seqAdd_isSome hx
      revert key some_
      cases seqAdd ops repr (env.g.info c) acc v t.h with
      | error e =>
        cases seqAdd ops' repr (env.g.info c) acc' v' t'.h with
        | error e' => exact fun key _ => key
        | ok y => exact fun key _ => key.elim
      | ok x =>
        cases seqAdd ops' repr (env.g.info c) acc' v' t'.h with
        | error e => exact fun key _ => key.elim
        | ok y =>
          rintro ⟨w3, b1, b2, b3⟩ some_
          refine ih (fun c hc => hA c (by simp [hc])) w3 _ _ _ _ (fun h => ?_) (ht.store S b2 b3) b1
          rw [some_ x rfl h]
          exact (hsp h).imp id fun hf => hf.2.2

include henv in
theorem parseRep_rel {A : Node → Prop} {rec_ : Node → Run V H} {rec_' : Node → Run V' H'} (hrec : S.RecRel A rec_ rec_')
    (value : Node) (hvalue : A value) (join : Option Node) (hjoin : ∀ c, join = some c → A c) (mn mx : Int) (start k : Nat) :
    ∀ (w : S.W) (ms : List V) (ms' : List V') (s : St V H) (s' : St V' H'), S.SR w s s' → LRel (S.R w s.h s'.h) ms ms' →
      OutRel (S.Good w s.h s'.h) (parseRep env rec_ value join mn mx start k ms s)
        (parseRep (other env ops') rec_' value join mn mx start k ms' s') := by
  induction k with
  | zero => intros; trivial
  | succ k ih =>
    intro w ms ms' s s' hs hms
    unfold parseRep
    dsimp only
    rw [hs.pos, henv]
    -- the final check
    have fin : ∀ {x : St V H} {x' : St V' H'} {ls : List V} {ls' : List V'}, S.SR w x x' → S.Le w s.h s'.h x.h x'.h →
        LRel (S.R w x.h x'.h) ls ls' →
        OutRel (S.Good w s.h s'.h)
          (if mn > -1 ∧ mn > (ls.length : Int) then do
            let s ← setPos env start x
            .ok (none, s)
          else
            let (v, h) := ops.arr ls x.h
            .ok (some v, { x with h := h }))
          (if mn > -1 ∧ mn > (ls'.length : Int) then do
            let s ← setPos (other env ops') start x'
            .ok (none, s)
          else
            let (v, h) := ops'.arr ls' x'.h
            .ok (some v, { x' with h := h })) := by
      intro x x' ls ls' hx hle hl
      rw [hl.length]
      split
      · refine (S.setPos_rel hx start).bind ?_
        rintro y y' ⟨hy, e1, e2⟩
        refine ⟨hy, ?_, .none⟩
        dsimp only; rw [e1, e2]; exact hle
      · obtain ⟨a1, a2, a3⟩ := S.arr hx.inv hl
        exact ⟨hx.store S a1 fun _ _ => S.mono a2, S.le_trans hle a2, .some a3⟩
    refine OutRel.bind (Q := fun a b => a.1 = b.1 ∧ S.SR w a.2 b.2 ∧ S.Le w s.h s'.h a.2.h b.2.h) ?_ ?_
    · cases join with
      | none => exact ⟨rfl, hs, S.le_refl _ _ _⟩
      | some j =>
        refine (hrec j (hjoin j rfl) w s s' hs).bind ?_
        rintro ⟨r, t⟩ ⟨r', t'⟩ ⟨ht, hle, hr⟩
        exact ⟨hr.isSome, ht, hle⟩
    · rintro ⟨b, t⟩ ⟨b', t'⟩ ⟨rfl, ht, hle⟩
      dsimp only at *
      by_cases hb : (!b) = true
      · rw [if_pos hb, if_pos hb]
        refine (S.setPos_rel ht s.pos).bind ?_
        rintro x x' ⟨hx, e1, e2⟩
        have hle2 : S.Le w s.h s'.h x.h x'.h := by rw [e1, e2]; exact hle
        exact fin hx hle2 (hms.imp fun _ _ => S.mono hle2)
      · rw [if_neg hb, if_neg hb]
        refine (hrec value hvalue w t t' ht).bind ?_
        rintro ⟨r, x⟩ ⟨r', x'⟩ ⟨hx, hlx, hr⟩
        dsimp only at *
        have hle2 := S.le_trans hle hlx
        cases hr with
        | none =>
          dsimp only
          refine (S.setPos_rel hx s.pos).bind ?_
          rintro y y' ⟨hy, e1, e2⟩
          have hle3 : S.Le w s.h s'.h y.h y'.h := by rw [e1, e2]; exact hle2
          exact fin hy hle3 (hms.imp fun _ _ => S.mono hle3)
        | @some u u' hr =>
          dsimp only
          have hms2 := (hms.imp fun _ _ => S.mono hle2).snoc hr
          have hlen := hms2.length
          by_cases hmx : mx > -1 ∧ ((ms ++ [u]).length : Int) ≥ mx
          · have hmx' : mx > -1 ∧ ((ms' ++ [u']).length : Int) ≥ mx := by rw [hlen]; exact hmx
            rw [if_pos hmx, if_pos hmx']
            exact fin hx hle2 hms2
          · have hmx' : ¬ (mx > -1 ∧ ((ms' ++ [u']).length : Int) ≥ mx) := by rw [hlen]; exact hmx
            rw [if_neg hmx, if_neg hmx']
            exact (ih w _ _ x x' hx hms2).imp fun _ _ h => h.later S hle2

/-- The items of the object sequences of a node. -/
def NodeOk (g : Grammar) : Node → Prop
  | .seq _ .object l => S.SpliceOk false (l.map fun c => (g.info c).label)
  | _ => True

include henv in
theorem parseKind_rel {rec_ : Node → Run V H} {rec_' : Node → Run V' H'}
    (hrec : S.RecRel (fun n => n.All (S.NodeOk env.g)) rec_ rec_') (k : Nat) (n : Node) (hn : n.All (S.NodeOk env.g)) :
    S.RunRel (parseKind env rec_ k n) (parseKind (other env ops') rec_' k n) := by
  intro w s s' hs
  cases hn with
  | @str i b _ =>
    rw [parseKind, parseKind, hs.pos]
    refine (OutRel.same _).bind ?_
    rintro ⟨m, p⟩ _ rfl
    dsimp only
    cases m with
    | none => exact ⟨hs.at S p, S.le_refl _ _ _, .none⟩
    | some t => exact ⟨hs.at S p, S.le_refl _ _ _, .some (by rw [henv]; exact S.str _ _ _ _)⟩
  | @regex i re _ =>
    rw [parseKind, parseKind, hs.pos]
    refine (OutRel.same _).bind ?_
    rintro ⟨m, p⟩ _ rfl
    dsimp only
    cases m with
    | none => exact ⟨hs.at S p, S.le_refl _ _ _, .none⟩
    | some t => exact ⟨hs.at S p, S.le_refl _ _ _, .some (by rw [henv]; exact S.str _ _ _ _)⟩
  | choice _ hl => exact S.parseAlts_rel hrec _ hl w s s' hs
  | @seq i r l hp hl =>
    refine S.parseItems_rel henv hrec w s.h s'.h r l hl w {} {} s s' ?_ hs
      (.vals (S.le_refl _ _ _) .none .nil fun _ => ⟨rfl, rfl, rfl, rfl⟩)
    intro hr
    subst hr
    exact hp
  | exist _ hit =>
    rw [parseKind, parseKind]
    refine (hrec _ hit w s s' hs).bind ?_
    rintro ⟨r, t⟩ ⟨r', t'⟩ hg
    have hgg := hg
    obtain ⟨ht, hle, hr⟩ := hg
    dsimp only at *
    cases hr with
    | some hr => exact hgg
    | none =>
      dsimp only
      rw [hs.pos]
      refine (S.setPos_rel ht s.pos).bind ?_
      rintro x x' ⟨hx, e1, e2⟩
      refine ⟨hx, ?_, .some (by rw [henv]; exact S.undef _ _ _)⟩
      dsimp only; rw [e1, e2]; exact hle
  | look _ hit =>
    rw [parseKind, parseKind]
    refine (hrec _ hit w s s' hs).bind ?_
    rintro ⟨r, t⟩ ⟨r', t'⟩ ⟨ht, hle, hr⟩
    dsimp only at *
    rw [hs.pos]
    refine (S.setPos_rel ht s.pos).bind ?_
    rintro x x' ⟨hx, e1, e2⟩
    refine ⟨hx, ?_, ?_⟩
    · dsimp only; rw [e1, e2]; exact hle
    · dsimp only; rw [e1, e2]; exact hr
  | not _ hit =>
    rw [parseKind, parseKind]
    refine (hrec _ hit w s s' hs).bind ?_
    rintro ⟨r, t⟩ ⟨r', t'⟩ ⟨ht, hle, hr⟩
    dsimp only at *
    rw [hs.pos]
    refine (S.setPos_rel ht s.pos).bind ?_
    rintro x x' ⟨hx, e1, e2⟩
    cases hr with
    | none =>
      refine ⟨hx, ?_, .some (by rw [henv]; exact S.undef _ _ _)⟩
      dsimp only; rw [e1, e2]; exact hle
    | some hr =>
      refine ⟨hx, ?_, .none⟩
      dsimp only; rw [e1, e2]; exact hle
  | @pattern i v j mn mx _ hv hj =>
    rw [parseKind, parseKind]
    refine (hrec _ hv w s s' hs).bind ?_
    rintro ⟨r, t⟩ ⟨r', t'⟩ ⟨ht, hle, hr⟩
    dsimp only at *
    rw [hs.pos]
    cases hr with
    | none =>
      dsimp only
      refine (S.setPos_rel ht s.pos).bind ?_
      rintro x x' ⟨hx, e1, e2⟩
      have hle2 : S.Le w s.h s'.h x.h x'.h := by rw [e1, e2]; exact hle
      split
      · exact ⟨hx, hle2, .none⟩
      · rw [henv]
        obtain ⟨a1, a2, a3⟩ := S.arr (l := []) (l' := []) hx.inv .nil
        exact ⟨hx.store S a1 fun _ _ => S.mono a2, S.le_trans hle2 a2, .some a3⟩
    | some hr =>
      exact (S.parseRep_rel henv hrec v hv j hj mn mx s.pos k w _ _ t t' ht (.cons hr .nil)).imp
        fun _ _ h => h.later S hle
  | @ref i nm _ =>
    rw [parseKind, parseKind]
    show OutRel _ _ (match env.g.lookup nm with | none => _ | some id => _)
    cases env.g.lookup nm with
    | none => rfl
    | some id =>
      dsimp only
      rw [S.stackPeek_rel hs]
      refine (OutRel.same _).bind ?_
      rintro _ _ rfl
      exact hrec _ (.rule trivial) w s s' hs
  | rule _ => exact hrec _ (.rule trivial) w s s' hs

include henv in
theorem wrap_rel {rec_ : Node → Run V H} {rec_' : Node → Run V' H'}
    (hg : ∀ n ∈ env.g.rules, n.All (S.NodeOk env.g))
    (hrec : S.RecRel (fun n => n.All (S.NodeOk env.g)) rec_ rec_') (k : Nat) (n : Node) (hn : n.All (S.NodeOk env.g)) :
    S.RunRel (wrap env rec_ k n) (wrap (other env ops') rec_' k n) := by
  intro w s s' hs
  have hk := S.parseKind_rel henv hrec k n hn
  by_cases hr : ∃ id, n = .rule id
  · obtain ⟨id, rfl⟩ := hr
    rw [wrap, wrap]
    show OutRel _ _ (match env.g.rules[id]? with | none => _ | some body => _)
    cases hb : env.g.rules[id]? with
    | none => rfl
    | some body =>
      dsimp only
      refine (S.stackPush_rel hs id).bind ?_
      rintro t t' ⟨ht, e1, e2⟩
      have hbody := hg body (List.mem_of_getElem? hb)
      refine (S.loopify_rel (S.prepareResult_rel henv (S.parseKind_rel henv hrec k body hbody) true body.info) k id
        body.info w t t' ht).bind ?_
      rintro ⟨r, x⟩ ⟨r', x'⟩ ⟨hx, hle, hr⟩
      rw [e1, e2] at hle
      refine ⟨⟨hx.pos, hx.next, hx.table, ?_, hx.counter, hx.loopStack, hx.calls, hx.inv, hx.heap⟩, hle, hr⟩
      exact congrArg List.tail hx.stack
  · have e : ∀ (E : Type) , True := fun _ => trivial
    have h1 : wrap env rec_ k n s = if (n.info.ownLabel || n.info.cb.isSome) = true then
        prepareResult env false n.info (parseKind env rec_ k n) s else parseKind env rec_ k n s := by
      cases n <;> first | rfl | exact absurd ⟨_, rfl⟩ hr
    have h2 : wrap (other env ops') rec_' k n s' = if (n.info.ownLabel || n.info.cb.isSome) = true then
        prepareResult (other env ops') false n.info (parseKind (other env ops') rec_' k n) s'
        else parseKind (other env ops') rec_' k n s' := by
      cases n <;> first | rfl | exact absurd ⟨_, rfl⟩ hr
    rw [h1, h2]
    split
    · exact S.prepareResult_rel henv hk false n.info w s s' hs
    · exact hk w s s' hs

include henv in
theorem parse_rel (hg : ∀ n ∈ env.g.rules, n.All (S.NodeOk env.g)) (k : Nat) :
    S.RecRel (fun n => n.All (S.NodeOk env.g)) (parse env k) (parse (other env ops') k) := by
  induction k with
  | zero => intro n hn w s s' hs; trivial
  | succ k ih => intro n hn; exact S.wrap_rel henv hg ih k n hn

theorem scanRow_rel {w : S.W} {s : St V H} {s' : St V' H'} (hs : S.SR w s s') (p n : Nat) :
    scanRow s' p n = scanRow s p n := by
  induction n with
  | zero => rfl
  | succ n ih =>
    unfold scanRow
    rw [ih, hs.table]
    dsimp only
    cases s.table p n with
    | none => rfl
    | some x =>
      dsimp only
      rw [(hs.heap x).result.isSome]

theorem scanRows_rel {w : S.W} {s : St V H} {s' : St V' H'} (hs : S.SR w s s') (n : Nat) : ∀ cnt p acc,
    scanRows s' n p cnt acc = scanRows s n p cnt acc
  | 0, _, _ => by rw [scanRows, scanRows]
  | cnt + 1, p, (a, b) => by
    rw [scanRows, scanRows, S.scanRow_rel hs]
    exact scanRows_rel hs n cnt _ _

/-- Related outcomes of a whole parse. -/
inductive OutcomeRel (Q : V → V' → Prop) : Outcome V → Outcome V' → Prop
  | nil : OutcomeRel Q .nil .nil
  | error (r) : OutcomeRel Q (.error r) (.error r)
  | value {v v'} : Q v v' → OutcomeRel Q (.value v) (.value v')

theorem grammarParse_rel (st : Stream) (report : Nat → Nat → Nat → Except Panic Report) (g : Grammar) (tr : Trace)
    (o : CtxOptions) (hg : ∀ n ∈ g.rules, n.All (S.NodeOk g)) (hroot : g.root.All (S.NodeOk g)) (k : Nat) {w : S.W} {h : H}
    {h' : H'} (hi : S.I w h h') (start : Nat) :
    (grammarParse ops st report g tr o k h start).2 = (grammarParse ops' st report g tr o k h' start).2 ∧
    OutRel (fun x y => S.SR w x.2 y.2 ∧ S.Le w h h' x.2.h y.2.h ∧ OutcomeRel (S.R w x.2.h y.2.h) x.1 y.1)
      (grammarParse ops st report g tr o k h start).1 (grammarParse ops' st report g tr o k h' start).1 := by
  have h0 : S.SR w (newState h start) (newState h' start) :=
    ⟨rfl, rfl, rfl, rfl, rfl, rfl, rfl, hi, fun _ => ⟨rfl, rfl, rfl, rfl, rfl, .none⟩⟩
  let env : Env V H := { ops := ops, st := st, g := g, trace := if o.debug then { tr with stack := true } else tr, skipLog := o.skipLog }
  have key := S.parse_rel (env := env) rfl hg k g.root hroot w _ _ h0
  unfold grammarParse
  extract_lets old t' env1 restored env2
  have he1 : env1 = env := rfl
  have he2 : env2 = other env ops' := rfl
  rw [he1, he2]
  clear_value restored t'
  revert key
  generalize parse env k g.root (newState h start) = x
  generalize parse (other env ops') k g.root (newState h' start) = y
  intro key
  cases x <;> cases y <;> first | exact key.elim | skip
  · rename_i a b
    obtain ⟨r, s⟩ := a
    obtain ⟨r', s'⟩ := b
    obtain ⟨hs, hle, hr⟩ := key
    dsimp only at *
    rw [hs.pos, S.scanRows_rel hs]
    split
    · cases report s.pos (scanRows s g.numRules s.pos (st.len + 1 - s.pos) (s.pos, s.pos)).2 (scanRows s g.numRules s.pos (st.len + 1 - s.pos) (s.pos, s.pos)).1 with
      | error e => exact ⟨rfl, rfl⟩
      | ok rep => exact ⟨rfl, hs, hle, .error _⟩
    · cases hr with
      | none => exact ⟨rfl, hs, hle, .nil⟩
      | some hr => exact ⟨rfl, hs, hle, .value hr⟩
  · exact ⟨rfl, key⟩
  · exact ⟨rfl, trivial⟩

end ValSim
end Joeson
