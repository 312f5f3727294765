import Verif.Proofs.Fuel
import Verif.Spec.Grammar
/-! # The state invariant of the engine, for every grammar, input and callback -/

namespace Joeson
variable {V H : Type}

namespace Out
/-- Hoare style: every normal result satisfies `P`, every panic satisfies `E`, and if the fuel runs
out then `T`. -/
def Holds {α : Type} (o : Out α) (T : Prop) (E : Panic → Prop) (P : α → Prop) : Prop :=
  match o with
  | .ok a => P a
  | .panic e => E e
  | .oof => T

theorem Holds.bind {α β : Type} {o : Out α} {f : α → Out β} {T : Prop} {E : Panic → Prop} {Q : α → Prop}
    {P : β → Prop} (h : o.Holds T E Q) (hf : ∀ a, Q a → (f a).Holds T E P) : (o >>= f).Holds T E P := by
  cases o with
  | ok a => exact hf a h
  | panic e => exact h
  | oof => exact h

theorem Holds.imp {α : Type} {o : Out α} {T : Prop} {E : Panic → Prop} {P Q : α → Prop}
    (h : o.Holds T E P) (hi : ∀ a, P a → Q a) : o.Holds T E Q := by
  cases o with
  | ok a => exact hi a h
  | panic e => exact h
  | oof => exact h

theorem Holds.of_ok {α : Type} {o : Out α} {T : Prop} {E : Panic → Prop} {P : α → Prop} {a : α}
    (h : o.Holds T E P) (ho : o = .ok a) : P a := by subst ho; exact h

theorem Holds.of_panic {α : Type} {o : Out α} {T : Prop} {E : Panic → Prop} {P : α → Prop} {e : Panic}
    (h : o.Holds T E P) (ho : o = .panic e) : E e := by subst ho; exact h

theorem Holds.of_oof {α : Type} {o : Out α} {T : Prop} {E : Panic → Prop} {P : α → Prop}
    (h : o.Holds T E P) (ho : o = .oof) : T := by subst ho; exact h

end Out

variable {T : Prop}

/-- A code stream that behaves: matching at a valid position does not panic, does not move back,
stays within bounds, and moves only on success. -/
structure Stream.Valid (st : Stream) : Prop where
  string : ∀ p b, p ≤ st.len → ∃ r q, st.matchString p b = .ok (r, q) ∧ p ≤ q ∧ q ≤ st.len ∧
    (r = none → q = p) ∧ (r.isSome → q = p + b.length)
  regexp : ∀ p re, p ≤ st.len → ∃ r q, st.matchRegexp p re = .ok (r, q) ∧ p ≤ q ∧ q ≤ st.len ∧
    (r = none → q = p) ∧ (∀ t, r = some t → q = p + t.length ∧ ∃ bs, re.find bs = some (0, t.length))

/-- `P` holds of a node and of all its descendants (up to rules referenced by number). -/
inductive Node.All (P : Node → Prop) : Node → Prop
  | str {i b} : P (.str i b) → All P (.str i b)
  | regex {i re} : P (.regex i re) → All P (.regex i re)
  | choice {i l} : P (.choice i l) → (∀ c ∈ l, All P c) → All P (.choice i l)
  | seq {i r l} : P (.seq i r l) → (∀ c ∈ l, All P c) → All P (.seq i r l)
  | exist {i n} : P (.exist i n) → All P n → All P (.exist i n)
  | look {i n} : P (.look i n) → All P n → All P (.look i n)
  | not {i n} : P (.not i n) → All P n → All P (.not i n)
  | pattern {i v j mn mx} : P (.pattern i v j mn mx) → All P v → (∀ c, j = some c → All P c) →
      All P (.pattern i v j mn mx)
  | ref {i nm} : P (.ref i nm) → All P (.ref i nm)
  | rule {id} : P (.rule id) → All P (.rule id)

/-- `nn` is closed: each of its rules has a body that consumes. -/
def NNClosed (g : Grammar) (nn : Nat → Prop) : Prop :=
  ∀ id n, nn id → g.rules[id]? = some n → Consumes g nn n

/-- Rule numbers in range. -/
def Node.inRange (N : Nat) : Node → Prop
  | .rule id => id < N
  | _ => True

/-- The body of a repetition, value or join, consumes input. -/
def Node.guarded (g : Grammar) (nn : Nat → Prop) : Node → Prop
  | .pattern _ v j _ _ => Consumes g nn v ∨ ∃ c, j = some c ∧ Consumes g nn c
  | _ => True

/-- Node by node well-formedness. `T` switches off what is only needed for termination. -/
def Node.Ok (g : Grammar) (nn : Nat → Prop) (T : Prop) (n : Node) : Prop :=
  n.inRange g.numRules ∧ (T ∨ n.guarded g nn)

/-- A well numbered grammar: what `Grammar.postinit` establishes. -/
structure Grammar.WfT (g : Grammar) (nn : Nat → Prop) (T : Prop) : Prop where
  rules : ∀ n ∈ g.rules, n.All (Node.Ok g nn T)
  lookup : ∀ nm id, g.lookup nm = some id → id < g.numRules

/-- Size, except that rule references by number are free. -/
noncomputable def Node.measure : Node → Nat
  | .rule _ => 0
  | n => sizeOf n

/-- Fuel that suffices for node `n` when the rule stack has `L` entries; `D` bounds the size of
rules. -/
noncomputable def need (len D : Nat) (n : Node) (L : Nat) : Nat := (stackCap - L) * (D + 1) + n.measure + len + 2

/-- Panics that are not failures of an internal assertion: raised by callbacks or by label merging,
undefined references, exhaustion of the 1024 entry stack, and the tracing code. -/
def OkPanic (env : Env V H) (e : Panic) : Prop :=
  (∃ c v p h, env.ops.cb c v p h = .error e) ∨
  (∃ v l w h, env.ops.mapSet v l w h = .error e) ∨
  (∃ v w h, env.ops.merge v w h = .error e) ∨
  (∃ nm, env.g.lookup nm = none ∧ e = .undefinedRef nm) ∨
  e = .stackOverflow ∨
  ((env.trace.stack = true ∨ ∃ n ∈ env.g.rules, n.info.debug = true) ∧
    ∃ p, p ≤ env.st.len ∧ env.st.render p = .error e) ∨
  ((env.trace.stack = true ∨ ∃ n ∈ env.g.rules, n.info.debug = true) ∧
    (∃ n ∈ env.g.rules, n.info.skipCache = true) ∧ e = .nilDeref) ∨
  (env.trace.loop = true ∧ 0 ≤ env.trace.filterLine ∧ e = .loopStackEmpty)

/-- Frame invariant. -/
structure FrameOk (len : Nat) (nn : Nat → Prop) (f : Frame V) : Prop where
  lo : -1 ≤ f.loopstage
  hi : f.loopstage ≤ 3
  endpos : ∀ e, f.endpos = some e → f.pos ≤ e ∧ e ≤ len
  mask : 2 ≤ f.loopstage → f.wipemask.isSome
  result : f.result.isSome → f.endpos.isSome
  nn : ∀ e, f.result.isSome → f.endpos = some e → nn f.id → f.pos < e

/-- State invariant. -/
structure Inv (env : Env V H) (nn : Nat → Prop) (s : St V H) : Prop where
  pos : s.pos ≤ env.st.len
  table : ∀ p i a, s.table p i = some a →
    a < s.next ∧ (s.heap a).pos = p ∧ (s.heap a).id = i ∧ p ≤ env.st.len ∧ i < env.g.numRules
  frame : ∀ a, a < s.next → FrameOk env.st.len nn (s.heap a)
  stack : ∀ a ∈ s.stack, a < s.next ∧ (s.heap a).pos ≤ s.pos
  sorted : s.stack.Pairwise (fun a b => (s.heap b).pos ≤ (s.heap a).pos)

/-- How a frame may evolve during a sub-parse. -/
structure FrameExt (f f' : Frame V) : Prop where
  pos : f'.pos = f.pos
  id : f'.id = f.id
  st0 : f.loopstage ≤ 0 → f'.loopstage ≤ 0
  st1 : f.loopstage = 1 → f'.loopstage = 1 ∨ f'.loopstage = 2
  st2 : f.loopstage = 2 → f'.loopstage = 2
  st3 : f.loopstage = 3 → f'.loopstage = 3
  ge1 : 1 ≤ f.loopstage → 1 ≤ f'.loopstage
  done : f.loopstage ≤ 0 → f.endpos.isSome → f'.result = f.result ∧ f'.endpos = f.endpos
  busy : 1 ≤ f.loopstage → f'.result = f.result ∧ f'.endpos = f.endpos
  mask : f.wipemask.isSome → f'.wipemask.isSome

theorem FrameExt.refl (f : Frame V) : FrameExt f f where
  pos := rfl
  id := rfl
  st0 h := h
  st1 h := Or.inl h
  st2 h := h
  st3 h := h
  ge1 h := h
  done _ _ := ⟨rfl, rfl⟩
  busy _ := ⟨rfl, rfl⟩
  mask h := h

theorem FrameExt.trans {f g h : Frame V} (a : FrameExt f g) (b : FrameExt g h) : FrameExt f h where
  pos := b.pos.trans a.pos
  id := b.id.trans a.id
  st0 h := b.st0 (a.st0 h)
  st1 h := by
    rcases a.st1 h with h | h
    · exact b.st1 h
    · exact Or.inr (b.st2 h)
  st2 h := b.st2 (a.st2 h)
  st3 h := b.st3 (a.st3 h)
  ge1 h := b.ge1 (a.ge1 h)
  done h he := by
    have ha := a.done h he
    have hb := b.done (a.st0 h) (by rw [ha.2]; exact he)
    exact ⟨hb.1.trans ha.1, hb.2.trans ha.2⟩
  busy h := by
    have ha := a.busy h
    have hb := b.busy (a.ge1 h)
    exact ⟨hb.1.trans ha.1, hb.2.trans ha.2⟩
  mask h := b.mask (a.mask h)

/-- How the state may evolve during a sub-parse. -/
structure Ext (env : Env V H) (s s' : St V H) : Prop where
  next : s.next ≤ s'.next
  pos : s.pos ≤ s'.pos
  stack : s'.stack = s.stack
  loop : (env.trace.loop = true → env.trace.filterLine < 0) → s'.loopStack = s.loopStack
  frame : ∀ a, a < s.next → FrameExt (s.heap a) (s'.heap a)

theorem Ext.refl (env : Env V H) (s : St V H) : Ext env s s :=
  ⟨Nat.le_refl _, Nat.le_refl _, rfl, fun _ => rfl, fun _ _ => FrameExt.refl _⟩

theorem Ext.trans {env : Env V H} {s t u : St V H} (a : Ext env s t) (b : Ext env t u) : Ext env s u where
  next := Nat.le_trans a.next b.next
  pos := Nat.le_trans a.pos b.pos
  stack := b.stack.trans a.stack
  loop h := (b.loop h).trans (a.loop h)
  frame x hx := (a.frame x hx).trans (b.frame x (Nat.lt_of_lt_of_le hx a.next))

/-- What a parser guarantees. -/
def Post (env : Env V H) (nn : Nat → Prop) (cons : Prop) (s : St V H) (x : Option V × St V H) : Prop :=
  Inv env nn x.2 ∧ Ext env s x.2 ∧ (cons → x.1.isSome → s.pos < x.2.pos)

/-- Moving the cursor back to somewhere not before the start of the sub-parse. -/
theorem Inv.reset {env : Env V H} {nn : Nat → Prop} {s s' : St V H} (h : Inv env nn s)
    (h' : Inv env nn s') (e : Ext env s s') {p : Nat} (hp : s.pos ≤ p) (hl : p ≤ env.st.len) :
    Inv env nn { s' with pos := p } ∧ Ext env s { s' with pos := p } := by
  refine ⟨⟨hl, h'.table, h'.frame, ?_, h'.sorted⟩, ⟨e.next, hp, e.stack, e.loop, e.frame⟩⟩
  intro a ha
  have ha' : a ∈ s.stack := by rw [← e.stack]; exact ha
  have := h.stack a ha'
  refine ⟨(h'.stack a ha).1, ?_⟩
  show (s'.heap a).pos ≤ p
  rw [(e.frame a this.1).pos]
  exact Nat.le_trans this.2 hp

theorem setPos_eq (env : Env V H) {n : Nat} (h : n ≤ env.st.len) (s : St V H) :
    setPos env n s = .ok { s with pos := n } := by simp [setPos, h]

theorem setHeap_self (m : Nat → Frame V) (a : Nat) (f : Frame V) : setHeap m a f a = f := by
  simp [setHeap]

theorem setHeap_ne (m : Nat → Frame V) {a b : Nat} (f : Frame V) (h : b ≠ a) : setHeap m a f b = m b := by
  simp [setHeap, h]

/-- Updating one frame without changing its place. -/
theorem Inv.upd {env : Env V H} {nn : Nat → Prop} {s : St V H} (h : Inv env nn s) (a : Nat)
    (g : Frame V → Frame V) (hp : (g (s.heap a)).pos = (s.heap a).pos)
    (hid : (g (s.heap a)).id = (s.heap a).id) (ho : FrameOk env.st.len nn (g (s.heap a))) :
    Inv env nn (updFrame a g s) := by
  have key : ∀ b, ((updFrame a g s).heap b).pos = (s.heap b).pos ∧
      ((updFrame a g s).heap b).id = (s.heap b).id := by
    intro b
    show (setHeap s.heap a (g (s.heap a)) b).pos = _ ∧ (setHeap s.heap a (g (s.heap a)) b).id = _
    by_cases hb : b = a
    · subst hb; rw [setHeap_self]; exact ⟨hp, hid⟩
    · rw [setHeap_ne _ _ hb]; exact ⟨rfl, rfl⟩
  refine ⟨h.pos, ?_, ?_, ?_, ?_⟩
  · intro p i b hb
    rw [(key b).1, (key b).2]
    exact h.table p i b hb
  · intro b hb
    show FrameOk _ _ (setHeap s.heap a (g (s.heap a)) b)
    by_cases hba : b = a
    · subst hba; rw [setHeap_self]; exact ho
    · rw [setHeap_ne _ _ hba]; exact h.frame b hb
  · intro b hb
    rw [(key b).1]
    exact h.stack b hb
  · have : (fun a_1 b => ((updFrame a g s).heap b).pos ≤ ((updFrame a g s).heap a_1).pos) =
        (fun a b => (s.heap b).pos ≤ (s.heap a).pos) := by
      funext x y; rw [(key x).1, (key y).1]
    rw [this]; exact h.sorted

theorem Ext.upd {env : Env V H} (s : St V H) (a : Nat) (g : Frame V → Frame V)
    (h : FrameExt (s.heap a) (g (s.heap a))) : Ext env s (updFrame a g s) := by
  refine ⟨Nat.le_refl _, Nat.le_refl _, rfl, fun _ => rfl, fun b _ => ?_⟩
  show FrameExt _ (setHeap s.heap a (g (s.heap a)) b)
  by_cases hb : b = a
  · subst hb; rw [setHeap_self]; exact h
  · rw [setHeap_ne _ _ hb]; exact FrameExt.refl _

theorem newFrame_ok (len : Nat) (nn : Nat → Prop) (p i : Nat) : FrameOk len nn (newFrame V p i) := by
  constructor <;> simp [newFrame]

theorem getFrame_ok {env : Env V H} {nn : Nat → Prop} {s : St V H} (h : Inv env nn s) {id : Nat}
    (hid : id < env.g.numRules) : ∃ a s1, getFrame env id s = .ok (a, s1) ∧ Inv env nn s1 ∧
      Ext env s s1 ∧ s1.pos = s.pos ∧ s1.table s.pos id = some a := by
  unfold getFrame
  rw [if_pos ⟨h.pos, hid⟩]
  cases ht : s.table s.pos id with
  | some a => exact ⟨a, s, rfl, h, Ext.refl _ _, rfl, ht⟩
  | none =>
    refine ⟨s.next, _, rfl, ?_, ?_, rfl, by simp [setTable]⟩
    · have hlt : ∀ a, a < s.next → setHeap s.heap s.next (newFrame V s.pos id) a = s.heap a :=
        fun a ha => setHeap_ne _ _ (by omega)
      refine ⟨h.pos, ?_, ?_, ?_, ?_⟩
      · intro p i a ha
        simp only [setTable] at ha
        dsimp only
        split at ha
        · rename_i hpi
          obtain ⟨rfl, rfl⟩ := hpi
          injection ha with ha
          subst ha
          rw [setHeap_self]
          exact ⟨by omega, rfl, rfl, h.pos, hid⟩
        · have := h.table p i a ha
          rw [hlt a this.1]
          exact ⟨by omega, this.2⟩
      · intro a ha
        dsimp only at ha ⊢
        by_cases hn : a = s.next
        · subst hn; rw [setHeap_self]; exact newFrame_ok _ _ _ _
        · rw [setHeap_ne _ _ hn]; exact h.frame a (by omega)
      · intro a ha
        have := h.stack a ha
        dsimp only
        rw [hlt a this.1]
        exact ⟨by omega, this.2⟩
      · refine List.Pairwise.imp_of_mem ?_ h.sorted
        intro a b ha hb hab
        dsimp only
        rw [hlt a (h.stack a ha).1, hlt b (h.stack b hb).1]
        exact hab
    · refine ⟨Nat.le_succ _, Nat.le_refl _, rfl, fun _ => rfl, fun a ha => ?_⟩
      dsimp only
      rw [setHeap_ne _ _ (by omega)]
      exact FrameExt.refl _

theorem logHook_holds {env : Env V H} (hs : env.trace.stack = true ∨ ∃ n ∈ env.g.rules, n.info.debug = true)
    (s : St V H) (hp : s.pos ≤ env.st.len) : (logHook env s).Holds T (OkPanic env) (fun _ => True) := by
  unfold logHook
  split
  · trivial
  · split
    · cases hr : env.st.render s.pos with
      | ok u => trivial
      | error e => exact Or.inr (Or.inr (Or.inr (Or.inr (Or.inr (Or.inl ⟨hs, _, hp, hr⟩)))))
    · trivial

theorem logIf_holds {env : Env V H} {b : Bool}
    (hs : b = true → env.trace.stack = true ∨ ∃ n ∈ env.g.rules, n.info.debug = true)
    (s : St V H) (hp : s.pos ≤ env.st.len) : (logIf env b s).Holds T (OkPanic env) (fun _ => True) := by
  unfold logIf
  split
  · exact logHook_holds (hs ‹_›) s hp
  · trivial

theorem collectMask_ok (heap : Nat → Frame V) (startPos id : Nat) : ∀ (l : List Nat) (m : Nat → Bool),
    (∀ a ∈ l, (heap a).pos ≤ startPos) → ∃ m', collectMask heap startPos id l m = .ok m'
  | [], m, _ => ⟨m, rfl⟩
  | b :: rest, m, h => by
    have hb : ¬ (heap b).pos > startPos := by
      have := h b (by simp)
      omega
    rw [collectMask, if_neg hb]
    split
    · exact ⟨m, rfl⟩
    · exact collectMask_ok heap startPos id rest _ (fun a ha => h a (by simp [ha]))

/-- Frames stashed by `wipeWith` are where `restoreWith` will put them back. -/
def StashOk (s : St V H) (p : Nat) (stash : Nat → Option Nat) (N : Nat) : Prop :=
  ∀ i b, stash i = some b → b < s.next ∧ (s.heap b).pos = p ∧ (s.heap b).id = i ∧ i < N

theorem wipeWith_ok {env : Env V H} {nn : Nat → Prop} {s : St V H} (h : Inv env nn s) {a : Nat}
    (hm : (s.heap a).wipemask.isSome) : ∃ st s1, wipeWith a s = .ok (st, s1) ∧ Inv env nn s1 ∧
      Ext env s s1 ∧ s1.pos = s.pos ∧ s1.heap = s.heap ∧ s1.next = s.next ∧
      StashOk s (s.heap a).pos st env.g.numRules := by
  obtain ⟨m, hm⟩ := Option.isSome_iff_exists.mp hm
  unfold wipeWith
  rw [hm]
  refine ⟨_, _, rfl, ⟨h.pos, ?_, h.frame, h.stack, h.sorted⟩,
    ⟨Nat.le_refl _, Nat.le_refl _, rfl, fun _ => rfl, fun _ _ => FrameExt.refl _⟩, rfl, rfl, rfl, ?_⟩
  · intro p i b hb
    dsimp only at hb
    split at hb
    · simp at hb
    · exact h.table p i b hb
  · intro i b hb
    dsimp only at hb
    split at hb
    · have := h.table _ i b hb
      exact ⟨this.1, this.2.1, this.2.2.1, this.2.2.2.2⟩
    · simp at hb

theorem restoreWith_ok {env : Env V H} {nn : Nat → Prop} {s : St V H} (h : Inv env nn s) {p : Nat}
    (hp : p ≤ env.st.len)
    {st : Nat → Option Nat} (hs : StashOk s p st env.g.numRules) :
    Inv env nn (restoreWith st s) := by
  refine ⟨h.pos, ?_, h.frame, h.stack, h.sorted⟩
  intro q i b hb
  simp only [restoreWith] at hb ⊢
  cases hst : st i with
  | none => rw [hst] at hb; exact h.table q i b hb
  | some c =>
    rw [hst] at hb
    dsimp only at hb
    split at hb
    · rename_i hq
      injection hb with hb
      subst hb
      have := hs i c hst
      refine ⟨this.1, hq.symm, this.2.2.1, ?_, this.2.2.2⟩
      rw [hq, this.2.1]; exact hp
    · exact h.table q i b hb

end Joeson
