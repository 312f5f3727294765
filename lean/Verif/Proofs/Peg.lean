import Verif.Proofs.Invariant3
import Verif.Spec.Peg
/-! # The engine refines `peg`: monotonicity and the memo invariant -/

namespace Joeson
variable {V H : Type}

/-! ## `peg` does not depend on the bounds -/

theorem pegChoice_mono {ev ev' : Node → Nat → Out (Option (V × Nat))} (h : ∀ n p, Out.le (ev n p) (ev' n p)) :
    ∀ l p, Out.le (pegChoice ev l p) (pegChoice ev' l p)
  | [], _ => Out.le_refl _
  | c :: cs, p => by
    rw [pegChoice, pegChoice]
    refine Out.le_bind (h c p) fun x => ?_
    cases x with
    | none => exact pegChoice_mono h cs p
    | some x => exact Out.le_refl _

theorem pegSeq_mono (E : PegEnv V) {ev ev' : Node → Nat → Out (Option (V × Nat))}
    (h : ∀ n p, Out.le (ev n p) (ev' n p)) (repr : SeqRepr) :
    ∀ l acc p, Out.le (pegSeq E ev repr l acc p) (pegSeq E ev' repr l acc p)
  | [], _, _ => Out.le_refl _
  | c :: cs, acc, p => by
    rw [pegSeq, pegSeq]
    refine Out.le_bind (h c p) fun x => ?_
    cases x with
    | none => exact Out.le_refl _
    | some x => exact Out.le_bind (Out.le_refl _) fun acc => pegSeq_mono E h repr cs acc x.2

theorem pegMore_mono {ev ev' : Node → Nat → Out (Option (V × Nat))} (h : ∀ n p, Out.le (ev n p) (ev' n p))
    (value : Node) (join : Option Node) (mx : Int) : ∀ k k', k ≤ k' → ∀ vs p,
    Out.le (pegMore ev value join mx k vs p) (pegMore ev' value join mx k' vs p)
  | 0, _, _, _, _ => Out.le_oof _
  | k + 1, 0, hk, _, _ => absurd hk (by omega)
  | k + 1, k' + 1, hk, vs, p => by
    unfold pegMore
    refine Out.le_bind ?_ fun q => ?_
    · cases join with
      | none => exact Out.le_refl _
      | some j => exact Out.le_bind (h j p) fun x => Out.le_refl _
    · cases q with
      | none => exact Out.le_refl _
      | some q =>
        refine Out.le_bind (h value q) fun x => ?_
        cases x with
        | none => exact Out.le_refl _
        | some x => exact Out.le_ite (Out.le_refl _) (pegMore_mono h value join mx k k' (by omega) _ _)

theorem pegKind_mono (E : PegEnv V) {ev ev' : Node → Nat → Out (Option (V × Nat))}
    (h : ∀ n p, Out.le (ev n p) (ev' n p)) {k k' : Nat} (hk : k ≤ k') (n : Node) (p : Nat) :
    Out.le (pegKind E ev k n p) (pegKind E ev' k' n p) := by
  cases n with
  | str i b => exact Out.le_refl _
  | regex i re => exact Out.le_refl _
  | choice i alts => exact pegChoice_mono h alts p
  | seq i repr items => exact pegSeq_mono E h repr items _ p
  | exist i it => exact Out.le_bind (h it p) fun x => Out.le_refl _
  | look i it => exact Out.le_bind (h it p) fun x => Out.le_refl _
  | not i it => exact Out.le_bind (h it p) fun x => Out.le_refl _
  | pattern i v j mn mx =>
    refine Out.le_bind (h v p) fun x => ?_
    cases x with
    | none => exact Out.le_refl _
    | some x => exact Out.le_bind (pegMore_mono h v j mx k k' hk _ _) fun y => Out.le_refl _
  | ref i nm =>
    rw [pegKind, pegKind]
    cases E.g.lookup nm with
    | none => exact Out.le_refl _
    | some id => exact h _ _
  | rule id => exact h _ _

theorem peg_mono (E : PegEnv V) : ∀ k k' d d', k ≤ k' → d ≤ d' → ∀ n q p,
    Out.le (peg E k d n q p) (peg E k' d' n q p)
  | 0, _, _, _, _, _, _, _, _ => Out.le_oof _
  | k + 1, 0, _, _, hk, _, _, _, _ => absurd hk (by omega)
  | k + 1, k' + 1, d, d', hk, hd, n, q, p => by
    cases n with
    | rule id =>
      unfold peg
      cases E.g.rules[id]? with
      | none => exact Out.le_refl _
      | some body =>
        cases d with
        | zero => exact Out.le_oof _
        | succ d =>
          cases d' with
          | zero => omega
          | succ d' =>
            exact Out.le_bind (pegKind_mono E (fun n p' => peg_mono E k k' d d' (by omega) (by omega) n p p')
              (by omega) body p) fun x => Out.le_refl _
    | _ =>
      rw [peg, peg]
      · refine Out.le_ite (Out.le_bind ?_ fun x => Out.le_refl _) ?_ <;>
          exact pegKind_mono E (fun n p' => peg_mono E k k' d d' (by omega) hd n q p') (by omega) _ p
      · intro id h; cases h
      · intro id h; cases h

/-- The meaning of a rule does not depend on where the calling rule starts. -/
theorem peg_rule (E : PegEnv V) (k d id q q' p : Nat) : peg E k d (.rule id) q p = peg E k d (.rule id) q' p := by
  cases k <;> rfl

/-- Two answers agree. -/
theorem peg_unique (E : PegEnv V) {k k' d d' : Nat} {n : Node} {q p : Nat}
    (h : peg E k d n q p ≠ .oof) (h' : peg E k' d' n q p ≠ .oof) : peg E k d n q p = peg E k' d' n q p := by
  have h1 := Out.le_eq (peg_mono E k (max k k') d (max d d') (by omega) (by omega) n q p) h
  have h2 := Out.le_eq (peg_mono E k' (max k k') d' (max d d') (by omega) (by omega) n q p) h'
  rw [← h1, ← h2]

/-! ## The memo invariant -/

/-- A memo entry for rule `i` at `p`: finished and correct, not started, or in progress, and then the
rule has no meaning at `p` within the bounds. -/
def GoodFrame (E : PegEnv V) (k d i p : Nat) (f : Frame V) : Prop :=
  (f.loopstage ≤ 0 ∧ ∀ e, f.endpos = some e → ∃ k' d', peg E k' d' (.rule i) 0 p = .ok (f.result.map (·, e))) ∨
  (f.loopstage = 1 ∧ peg E k d (.rule i) 0 p = .oof)

/-- Is rule `id` memoised. -/
def Grammar.cached (g : Grammar) (id : Nat) : Bool := match g.rules[id]? with
  | some n => !n.info.skipCache
  | none => true

/-- The calls of callbacks of memoised rules. -/
def ruleCalls (g : Grammar) (l : List Call) : List Call := l.filter fun c => c.ofRule && g.cached c.id

/-- The call log and the memo table agree: rules whose callback was called are finished. -/
structure CallsOk (env : Env V H) (s : St V H) : Prop where
  done : ∀ c ∈ ruleCalls env.g s.calls, ∃ a, s.table c.pos c.id = some a ∧ (s.heap a).loopstage ≤ 0 ∧
    (s.heap a).endpos.isSome
  once : (ruleCalls env.g s.calls).Pairwise fun c c' => ¬ (c.id = c'.id ∧ c.pos = c'.pos)

/-- The memo invariant, within bounds `k` and `d`. -/
structure Memo (E : PegEnv V) (env : Env V H) (k d : Nat) (s : St V H) : Prop where
  inv : Inv env (fun _ => False) s
  good : ∀ p i a, s.table p i = some a → GoodFrame E k d i p (s.heap a)
  calls : CallsOk env s
  masks : ∀ a, a < s.next → (s.heap a).wipemask = none

theorem GoodFrame.mono {E : PegEnv V} {k k' d d' i p : Nat} {f : Frame V} (hk : k' ≤ k) (hd : d' ≤ d)
    (h : GoodFrame E k d i p f) : GoodFrame E k' d' i p f := by
  rcases h with h | ⟨h1, h2⟩
  · exact Or.inl h
  · refine Or.inr ⟨h1, ?_⟩
    rcases peg_mono E k' k d' d hk hd (.rule i) 0 p with h | h
    · exact h
    · rw [h]; exact h2

theorem Memo.mono {E : PegEnv V} {env : Env V H} {k k' d d' : Nat} {s : St V H} (hk : k' ≤ k) (hd : d' ≤ d)
    (h : Memo E env k d s) : Memo E env k' d' s :=
  ⟨h.inv, fun p i a ha => (h.good p i a ha).mono hk hd, h.calls, h.masks⟩

/-- What a parser call does to the memo table, when `peg` has an answer. -/
structure Next (E : PegEnv V) (env : Env V H) (s s' : St V H) : Prop where
  memo : ∀ k d, Memo E env k d s → Memo E env k d s'
  ext : Ext env s s'
  keep : ∀ p i a, s.table p i = some a → s'.table p i = some a
  busy : ∀ p i a, s'.table p i = some a → (s'.heap a).loopstage = 1 →
    s.table p i = some a ∧ (s.heap a).loopstage = 1

theorem Next.refl (E : PegEnv V) (env : Env V H) (s : St V H) : Next E env s s :=
  ⟨fun _ _ h => h, Ext.refl _ _, fun _ _ _ h => h, fun _ _ _ h h' => ⟨h, h'⟩⟩

theorem Next.trans {E : PegEnv V} {env : Env V H} {s t u : St V H} (a : Next E env s t) (b : Next E env t u) :
    Next E env s u :=
  ⟨fun k d h => b.memo k d (a.memo k d h), a.ext.trans b.ext, fun p i x h => b.keep p i x (a.keep p i x h),
    fun p i x h h' => by obtain ⟨h, h'⟩ := b.busy p i x h h'; exact a.busy p i x h h'⟩

/-- Move the cursor back to the start. -/
theorem Next.reset {E : PegEnv V} {env : Env V H} {s s' : St V H} (a : Next E env s s')
    {p : Nat} (hp : s.pos ≤ p) (hl : p ≤ env.st.len) : Next E env s { s' with pos := p } := by
  refine ⟨fun k d h => ?_, ⟨a.ext.next, hp, a.ext.stack, a.ext.loop, a.ext.frame⟩, a.keep, a.busy⟩
  have hm := a.memo k d h
  exact ⟨(h.inv.reset hm.inv a.ext hp hl).1, hm.good, ⟨hm.calls.done, hm.calls.once⟩, hm.masks⟩

/-- Changing only the store, the counter, and the log of calls of inner nodes. -/
theorem Next.aux {E : PegEnv V} {env : Env V H} {s s' : St V H} (h1 : s'.pos = s.pos) (h2 : s'.heap = s.heap)
    (h3 : s'.next = s.next) (h4 : s'.table = s.table) (h5 : s'.stack = s.stack)
    (h6 : s'.loopStack = s.loopStack) (h7 : ruleCalls env.g s'.calls = ruleCalls env.g s.calls) :
    Next E env s s' := by
  obtain ⟨pos, heap, next, table, stack, counter, loopStack, hh, calls⟩ := s
  obtain ⟨pos', heap', next', table', stack', counter', loopStack', hh', calls'⟩ := s'
  dsimp only at *
  subst h1 h2 h3 h4 h5 h6
  refine ⟨fun k d h => ⟨⟨h.inv.pos, h.inv.table, h.inv.frame, h.inv.stack, h.inv.sorted⟩, h.good, ?_, h.masks⟩,
    ⟨Nat.le_refl _, Nat.le_refl _, rfl, fun _ => rfl, fun _ _ => FrameExt.refl _⟩,
    fun _ _ _ h => h, fun _ _ _ h h' => ⟨h, h'⟩⟩
  refine ⟨?_, ?_⟩
  · dsimp only; rw [h7]; exact h.calls.done
  · dsimp only; rw [h7]; exact h.calls.once

/-- The rule being parsed starts at `q`. -/
def TopPos (s : St V H) (q : Nat) : Prop := ∃ top rest, s.stack = top :: rest ∧ (s.heap top).pos = q

theorem TopPos.next {E : PegEnv V} {env : Env V H} {k d : Nat} {s s' : St V H} {q : Nat} (h : TopPos s q)
    (hm : Memo E env k d s) (hn : Next E env s s') : TopPos s' q := by
  obtain ⟨top, rest, h1, h2⟩ := h
  refine ⟨top, rest, hn.ext.stack.trans h1, ?_⟩
  rw [(hn.ext.frame top (hm.inv.stack top (by rw [h1]; simp)).1).pos, h2]

/-- The engine's outcome `x` is what `peg` says, or the rule stack is full, if `B` admits it. -/
def SimR (B : Prop) (R : St V H → Prop) (o : Out (Option (V × Nat))) (x : Out (Option V × St V H)) : Prop :=
  (B ∧ x = .panic .stackOverflow) ∨
  match o with
  | .oof => True
  | .panic e => x = .panic e
  | .ok none => ∃ s', x = .ok (none, s') ∧ R s'
  | .ok (some (v, p)) => ∃ s', x = .ok (some v, s') ∧ s'.pos = p ∧ R s'

/-- The engine does what `peg` says. -/
def Sim (E : PegEnv V) (env : Env V H) (B : Prop) (s : St V H) : Out (Option (V × Nat)) →
    Out (Option V × St V H) → Prop := SimR B (Next E env s)

theorem SimR.oof {B : Prop} {R : St V H → Prop} {x : Out (Option V × St V H)} : SimR B R .oof x := Or.inr trivial

theorem SimR.panic {B : Prop} {R : St V H → Prop} {e : Panic} : SimR B R (.panic e) (.panic e) := Or.inr rfl

theorem SimR.fail {B : Prop} {R : St V H → Prop} {s : St V H} (h : R s) : SimR B R (.ok none) (.ok (.none, s)) :=
  Or.inr ⟨s, rfl, h⟩

theorem SimR.val {B : Prop} {R : St V H → Prop} {s : St V H} {v : V} {p : Nat} (hp : s.pos = p) (h : R s) :
    SimR B R (.ok (some (v, p))) (.ok (.some v, s)) :=
  Or.inr ⟨s, rfl, hp, h⟩

/-- An answer of `SimR` as the engine's result. -/
theorem SimR.cases {B : Prop} {R : St V H → Prop} {o : Out (Option (V × Nat))} {x : Out (Option V × St V H)}
    (h : SimR B R o x) (ho : o ≠ .oof) : (B ∧ x = .panic .stackOverflow) ∨ (∃ e, o = .panic e ∧ x = .panic e) ∨
      ∃ r s', x = .ok (r, s') ∧ o = .ok (r.map (·, s'.pos)) ∧ R s' := by
  rcases h with h | h
  · exact Or.inl h
  · refine Or.inr ?_
    match o, h with
    | .oof, _ => exact absurd rfl ho
    | .panic e, h => exact Or.inl ⟨e, rfl, h⟩
    | .ok none, ⟨s', h1, h2⟩ => exact Or.inr ⟨_, s', h1, rfl, h2⟩
    | .ok (some (v, p)), ⟨s', h1, h2, h3⟩ => exact Or.inr ⟨_, s', h1, by subst h2; rfl, h3⟩

theorem SimR.of {B : Prop} {R : St V H → Prop} {o : Out (Option (V × Nat))} {x : Out (Option V × St V H)}
    {r : Option V} {s' : St V H} (hx : x = .ok (r, s')) (ho : o = .ok (r.map (·, s'.pos))) (h : R s') :
    SimR B R o x := by
  subst hx ho
  cases r with
  | none => exact SimR.fail h
  | some v => exact SimR.val rfl h

theorem SimR.imp {B : Prop} {R R' : St V H → Prop} {o : Out (Option (V × Nat))} {x : Out (Option V × St V H)}
    (h : SimR B R o x) (hi : ∀ s', R s' → R' s') : SimR B R' o x := by
  rcases h with h | h
  · exact Or.inl h
  · refine Or.inr ?_
    match o, h with
    | .oof, _ => trivial
    | .panic e, h => exact h
    | .ok none, ⟨s', h1, h2⟩ => exact ⟨s', h1, hi s' h2⟩
    | .ok (some (v, p)), ⟨s', h1, h2, h3⟩ => exact ⟨s', h1, h2, hi s' h3⟩

/-- What follows a sub-parse: an engine continuation `f` and a continuation `g` of `peg`. -/
theorem SimR.bind {B : Prop} {R R' : St V H → Prop} {o : Out (Option (V × Nat))} {x : Out (Option V × St V H)}
    {f : Option V × St V H → Out (Option V × St V H)} {g : Option (V × Nat) → Out (Option (V × Nat))}
    (h : SimR B R o x) (hn : ∀ s', R s' → SimR B R' (g .none) (f (.none, s')))
    (hs : ∀ v s', R s' → SimR B R' (g (.some (v, s'.pos))) (f (.some v, s'))) : SimR B R' (o >>= g) (x >>= f) := by
  by_cases ho : o = .oof
  · subst ho; exact .oof
  rcases h.cases ho with ⟨hB, h'⟩ | ⟨e, rfl, h'⟩ | ⟨r, s', h1, h2, h3⟩
  · rw [h']; exact Or.inl ⟨hB, rfl⟩
  · rw [h']; exact .panic
  · rw [h1, h2, Out.bind_ok, Out.bind_ok]
    cases r with
    | none => exact hn s' h3
    | some v => exact hs v s' h3

theorem Out.bind_assoc {α β γ : Type} (o : Out α) (f : α → Out β) (g : β → Out γ) :
    (o >>= f >>= g) = (o >>= fun a => f a >>= g) := by
  cases o <;> rfl

/-- Assumption on the recursive calls. -/
def RecSim (E : PegEnv V) (env : Env V H) (B : Prop) (k d q : Nat) (rec_ : Node → Run V H)
    (ev : Node → Nat → Out (Option (V × Nat))) : Prop :=
  ∀ n s, n.All (Node.Ok env.g (fun _ => False) True) → Memo E env k d s → TopPos s q ∨ (∃ id, n = .rule id) →
    (B ∨ s.stack.length + d ≤ stackCap) → Sim E env B s (ev n s.pos) (rec_ n s)

section
variable {E : PegEnv V} {env : Env V H} {B : Prop} {k d q : Nat} {rec_ : Node → Run V H}
  {ev : Node → Nat → Out (Option (V × Nat))}

theorem Sim.of_next {s t : St V H} {o : Out (Option (V × Nat))} {x : Out (Option V × St V H)}
    (hn : Next E env s t) (h : Sim E env B t o x) : Sim E env B s o x :=
  SimR.imp h fun _ h => hn.trans h

theorem depth_next {s t : St V H} (hd : B ∨ s.stack.length + d ≤ stackCap) (hn : Next E env s t) :
    B ∨ t.stack.length + d ≤ stackCap := by rw [hn.ext.stack]; exact hd

theorem parseAlts_sim (hr : RecSim E env B k d q rec_ ev) : ∀ (l : List Node) (s : St V H),
    (∀ c ∈ l, c.All (Node.Ok env.g (fun _ => False) True)) → Memo E env k d s →
    (TopPos s q ∨ ∀ c ∈ l, ∃ id, c = .rule id) → (B ∨ s.stack.length + d ≤ stackCap) →
    Sim E env B s (pegChoice ev l s.pos) (parseAlts env rec_ l s)
  | [], s, _, _, _, _ => SimR.fail (Next.refl _ _ _)
  | c :: cs, s, hl, hm, ht, hd => by
    have h1 := hr c s (hl c (by simp)) hm (ht.imp_right fun h => h c (by simp)) hd
    rw [pegChoice, parseAlts]
    refine SimR.bind h1 (fun s' h3 => ?_) (fun v s' h3 => SimR.val rfl h3)
    dsimp only
    rw [setPos_eq env hm.inv.pos, Out.bind_ok]
    have hn := h3.reset (Nat.le_refl _) hm.inv.pos
    refine Sim.of_next hn (parseAlts_sim hr cs { s' with pos := s.pos }
      (fun c hc => hl c (by simp [hc])) (hn.memo _ _ hm) ?_ (depth_next hd hn))
    exact ht.imp (fun h => h.next hm hn) (fun h c hc => h c (by simp [hc]))

/-- The engine's accumulator and the value so far. -/
def AccRel (repr : SeqRepr) (acc : SeqAcc V) (w : SeqVal V) : Prop :=
  match repr with
  | .array => acc.many = (match w with | .list l => l | _ => [])
  | _ => acc.one = (match w with | .just v => some v | _ => none)

theorem seqPut_sim (P : PureOps V) (repr : SeqRepr) (i : Info) {acc : SeqAcc V} {w : SeqVal V}
    (h : AccRel repr acc w) (v : V) (hh : H) :
    match seqPut P repr i w v with
    | .error e => seqAdd (P.ops H) repr i acc v hh = .error e
    | .ok w' => ∃ acc', seqAdd (P.ops H) repr i acc v hh = .ok (acc', hh) ∧ AccRel repr acc' w' := by
  cases repr with
  | single =>
    refine ⟨_, rfl, ?_⟩
    unfold AccRel at *
    dsimp only at *
    split <;> simp_all
  | array =>
    refine ⟨_, rfl, ?_⟩
    unfold AccRel at *
    dsimp only at *
    split
    · cases w <;> simp_all
    · exact h
  | object =>
    unfold AccRel at h
    dsimp only at h
    have hcur : acc.cur (P.ops H) = w.defined P := by
      unfold SeqAcc.cur
      rw [h]
      cases w <;> rfl
    simp only [seqPut, seqAdd]
    rw [hcur]
    by_cases h1 : i.label = ""
    · simp only [h1, if_true]
      exact ⟨acc, by simp, h⟩
    · simp only [h1, if_false]
      generalize w.defined P = old
      cases old with
      | none =>
        by_cases h2 : i.label = "&"
        · simp only [h2, true_or, if_true]
          exact ⟨_, rfl, rfl⟩
        · by_cases h3 : i.label = "@"
          · simp only [h3, or_true, if_true]
            exact ⟨{ acc with one := some v }, by simp, rfl⟩
          · simp only [h2, h3, or_self, if_false]
            exact ⟨_, rfl, rfl⟩
      | some r =>
        by_cases h2 : i.label = "&"
        · simp only [h2, if_true]
          show match (P.merge v r).map SeqVal.just with | .error e => _ | .ok w' => _
          cases hm : P.merge v r with
          | error e => simp [PureOps.ops, hm, Except.map, bind, Except.bind]
          | ok x => exact ⟨{ acc with one := some x }, by simp [PureOps.ops, hm, Except.map, bind, Except.bind, pure, Except.pure], rfl⟩
        · by_cases h3 : i.label = "@"
          · simp only [h3, if_true]
            cases hm : P.merge r v with
            | error e => simp [PureOps.ops, hm, Except.map, bind, Except.bind]
            | ok x => exact ⟨{ acc with one := some x }, by simp [PureOps.ops, hm, Except.map, bind, Except.bind, pure, Except.pure], rfl⟩
          · simp only [h2, h3, if_false]
            cases hm : P.mapSet r i.label v with
            | error e => simp [PureOps.ops, hm, Except.map, bind, Except.bind]
            | ok x => exact ⟨{ acc with one := some x }, by simp [PureOps.ops, hm, Except.map, bind, Except.bind, pure, Except.pure], rfl⟩


theorem parseItems_sim (hops : env.ops = E.P.ops H) (hg : env.g = E.g) (hr : RecSim E env B k d q rec_ ev)
    (repr : SeqRepr) : ∀ (l : List Node) (acc : SeqAcc V) (w : SeqVal V) (s : St V H), AccRel repr acc w →
    (∀ c ∈ l, c.All (Node.Ok env.g (fun _ => False) True)) → Memo E env k d s →
    TopPos s q → (B ∨ s.stack.length + d ≤ stackCap) →
    Sim E env B s (pegSeq E ev repr l w s.pos) (parseItems env rec_ repr l acc s)
  | [], acc, w, s, ha, _, _, _, _ => by
    rw [pegSeq, parseItems]
    have : seqDone env.ops repr acc s.h = (seqValue E.P repr w, s.h) := by
      rw [hops]
      cases repr <;> unfold AccRel at ha <;> dsimp only at ha <;> simp only [seqDone, ha] <;> cases w <;> rfl
    rw [this]
    exact SimR.val rfl (Next.aux rfl rfl rfl rfl rfl rfl rfl)
  | c :: cs, acc, w, s, ha, hl, hm, ht, hd => by
    have h1 := hr c s (hl c (by simp)) hm (Or.inl ht) hd
    rw [pegSeq, parseItems]
    refine SimR.bind h1 (fun s' h3 => SimR.fail h3) (fun v s' h3 => ?_)
    dsimp only
    have h5 := seqPut_sim E.P repr (env.g.info c) ha v s'.h
    rw [← hg, hops]
    cases hp : seqPut E.P repr (env.g.info c) w v with
    | error e => rw [hp] at h5; dsimp only at h5; rw [h5]; exact SimR.panic
    | ok w' =>
      rw [hp] at h5
      obtain ⟨acc', h6, h7⟩ := h5
      rw [h6, Out.ofExcept_ok, Out.bind_ok, Out.ofExcept_ok, Out.bind_ok]
      exact Sim.of_next h3 (parseItems_sim hops hg hr repr cs acc' w' s' h7
        (fun c hc => hl c (by simp [hc])) (h3.memo _ _ hm) (ht.next hm h3) (depth_next hd h3))

theorem parseRep_sim (hops : env.ops = E.P.ops H) (hr : RecSim E env B k d q rec_ ev) {value : Node}
    {join : Option Node} {mn mx : Int} {s0 : St V H} (hv : value.All (Node.Ok env.g (fun _ => False) True))
    (hj : ∀ j, join = some j → j.All (Node.Ok env.g (fun _ => False) True)) (hm0 : Memo E env k d s0)
    (ht0 : TopPos s0 q) (hd : B ∨ s0.stack.length + d ≤ stackCap) :
    ∀ (n : Nat) (ms : List V) (s : St V H), Next E env s0 s →
    Sim E env B s0 (pegMore ev value join mx n ms s.pos >>= fun y =>
        if mn > y.1.length then .ok none else .ok (some (E.P.arr y.1, y.2)))
      (parseRep env rec_ value join mn mx s0.pos n ms s)
  | 0, _, _, _ => SimR.oof
  | n + 1, ms, s, hn => by
    have hm := hn.memo _ _ hm0
    have ht := ht0.next hm0 hn
    have hsd := depth_next hd hn
    unfold parseRep
    extract_lets pos2 finish
    unfold pegMore
    -- giving up with the values `ms`
    have stop : ∀ t : St V H, Next E env s t → Sim E env B s0
        (if mn > ms.length then .ok none else .ok (some (E.P.arr ms, s.pos)))
        (setPos env pos2 t >>= finish) := by
      intro t hst
      rw [setPos_eq env hm.inv.pos, Out.bind_ok]
      have hn2 := hn.trans (hst.reset (Nat.le_refl _) hm.inv.pos)
      simp only [finish]
      by_cases hc : mn > (ms.length : Int)
      · rw [if_pos hc, if_pos (by omega), setPos_eq env hm0.inv.pos, Out.bind_ok]
        exact SimR.fail (hn2.reset (Nat.le_refl _) hm0.inv.pos)
      · rw [if_neg hc, if_neg (by omega), hops]
        exact SimR.val rfl (hn2.trans (Next.aux rfl rfl rfl rfl rfl rfl rfl))
    -- after the join
    have cont : ∀ t : St V H, Next E env s t → Sim E env B s0
        ((do
          match ← ev value t.pos with
          | none => .ok (ms, s.pos)
          | some (v, q) =>
            if 0 ≤ mx ∧ mx ≤ (ms ++ [v]).length then .ok (ms ++ [v], q)
            else pegMore ev value join mx n (ms ++ [v]) q) >>= fun y =>
          if mn > y.1.length then .ok none else .ok (some (E.P.arr y.1, y.2)))
        (do
          let (r, s) ← rec_ value t
          match r with
          | none => do
            let s ← setPos env pos2 s
            finish s
          | some v =>
            let ms' := ms ++ [v]
            if mx > -1 ∧ (ms'.length : Int) ≥ mx then
              if mn > -1 ∧ mn > (ms'.length : Int) then do
                let s ← setPos env s0.pos s
                .ok (none, s)
              else
                let (v, h) := env.ops.arr ms' s.h
                .ok (some v, { s with h := h })
            else parseRep env rec_ value join mn mx s0.pos n ms' s) := by
      intro t hst
      have hmt := hst.memo _ _ hm
      have h1 := hr value t hv hmt (Or.inl (ht.next hm hst)) (depth_next hsd hst)
      rw [Out.bind_assoc]
      refine SimR.bind h1 (fun s' h3 => stop s' (hst.trans h3)) (fun v s' h4 => ?_)
      dsimp only
      have hn' : Next E env s0 s' := hn.trans (hst.trans h4)
      by_cases hc : 0 ≤ mx ∧ mx ≤ ((ms ++ [v]).length : Int)
      · rw [if_pos hc, if_pos (by omega), Out.bind_ok]
        dsimp only
        by_cases hc2 : mn > ((ms ++ [v]).length : Int)
        · rw [if_pos hc2, if_pos (by omega), setPos_eq env hm0.inv.pos, Out.bind_ok]
          exact SimR.fail (hn'.reset (Nat.le_refl _) hm0.inv.pos)
        · rw [if_neg hc2, if_neg (by omega), hops]
          exact SimR.val rfl (hn'.trans (Next.aux rfl rfl rfl rfl rfl rfl rfl))
      · rw [if_neg hc, if_neg (by omega)]
        exact parseRep_sim hops hr hv hj hm0 ht0 hd n (ms ++ [v]) s' hn'
    cases join with
    | none =>
      simp only [Out.bind_ok, Bool.not_true, Bool.false_eq_true, if_false]
      exact cont s (Next.refl _ _ _)
    | some j =>
      dsimp only
      have h1 := hr j s (hj j rfl) hm (Or.inl ht) hsd
      rw [Out.bind_assoc, Out.bind_assoc, Out.bind_assoc]
      exact SimR.bind h1 (fun s' h3 => stop s' h3) (fun v s' h4 => cont s' h4)

theorem parseKind_sim (hops : env.ops = E.P.ops H) (hst : env.st = E.st) (hval : env.st.Valid) (hg : env.g = E.g)
    (hwf : env.g.WfT (fun _ => False) True)
    (hr : RecSim E env B k d q rec_ ev) (n : Node) (s : St V H)
    (hn : n.All (Node.Ok env.g (fun _ => False) True)) (hm : Memo E env k d s) (ht : TopPos s q)
    (hd : B ∨ s.stack.length + d ≤ stackCap) (hrule : ∀ id, n ≠ .rule id) :
    Sim E env B s (pegKind E ev k n s.pos) (parseKind env rec_ k n s) := by
  have back : ∀ {s' : St V H}, Next E env s s' → Next E env s { s' with pos := s.pos } :=
    fun h => h.reset (Nat.le_refl _) hm.inv.pos
  cases n with
  | str i b =>
    rw [pegKind, parseKind, ← hst]
    obtain ⟨r, p, h1, h2, h3, h4, h5⟩ := hval.string s.pos b hm.inv.pos
    rw [h1, Out.ofExcept_ok, Out.bind_ok, Out.bind_ok]
    dsimp only
    have hn := (Next.refl E env s).reset h2 h3
    cases r with
    | none => exact SimR.fail hn
    | some t => rw [hops]; exact SimR.val rfl hn
  | regex i re =>
    rw [pegKind, parseKind, ← hst]
    obtain ⟨r, p, h1, h2, h3, h4, h5⟩ := hval.regexp s.pos re hm.inv.pos
    rw [h1, Out.ofExcept_ok, Out.bind_ok, Out.bind_ok]
    dsimp only
    have hn := (Next.refl E env s).reset h2 h3
    cases r with
    | none => exact SimR.fail hn
    | some t => rw [hops]; exact SimR.val rfl hn
  | choice i l =>
    cases hn with
    | choice _ hl => exact parseAlts_sim hr l s hl hm (Or.inl ht) hd
  | seq i repr l =>
    cases hn with
    | seq _ hl => exact parseItems_sim hops hg hr repr l {} .nothing s (by cases repr <;> rfl) hl hm ht hd
  | exist i it =>
    cases hn with
    | exist _ hit =>
      rw [pegKind, parseKind]
      refine SimR.bind (hr it s hit hm (Or.inl ht) hd) (fun s' h3 => ?_) (fun v s' h3 => SimR.val rfl h3)
      dsimp only
      rw [setPos_eq env hm.inv.pos, Out.bind_ok, hops]
      exact SimR.val rfl (back h3)
  | look i it =>
    cases hn with
    | look _ hit =>
      rw [pegKind, parseKind]
      refine SimR.bind (hr it s hit hm (Or.inl ht) hd) (fun s' h3 => ?_) (fun v s' h3 => ?_)
      all_goals
        dsimp only
        rw [setPos_eq env hm.inv.pos, Out.bind_ok]
      · exact SimR.fail (back h3)
      · exact SimR.val rfl (back h3)
  | not i it =>
    cases hn with
    | not _ hit =>
      rw [pegKind, parseKind]
      refine SimR.bind (hr it s hit hm (Or.inl ht) hd) (fun s' h3 => ?_) (fun v s' h3 => ?_)
      all_goals
        dsimp only
        rw [setPos_eq env hm.inv.pos, Out.bind_ok]
      · rw [hops]; exact SimR.val rfl (back h3)
      · exact SimR.fail (back h3)
  | pattern i value join mn mx =>
    cases hn with
    | pattern _ hv hj =>
      rw [pegKind, parseKind]
      refine SimR.bind (hr value s hv hm (Or.inl ht) hd) (fun s' h3 => ?_) (fun v s' h3 => ?_)
      · dsimp only
        rw [setPos_eq env hm.inv.pos, Out.bind_ok, hops]
        split
        · exact SimR.fail (back h3)
        · exact SimR.val rfl ((back h3).trans (Next.aux rfl rfl rfl rfl rfl rfl rfl))
      · exact parseRep_sim hops hr hv hj hm ht hd k [v] s' h3
  | ref i nm =>
    rw [pegKind, parseKind, ← hg]
    cases hl : env.g.lookup nm with
    | none => exact SimR.panic
    | some id =>
      obtain ⟨top, rest, h1, -⟩ := ht
      dsimp only
      rw [show stackPeek s = .ok top by simp [stackPeek, h1], Out.bind_ok]
      exact hr (.rule id) s (.rule ⟨hwf.lookup nm id hl, Or.inr trivial⟩) hm (Or.inr ⟨id, rfl⟩) hd
  | rule id => exact absurd rfl (hrule id)

end
end Joeson
