import Verif.Proofs.Invariant
import Verif.Spec.Work
import Mathlib.Data.Finset.Card
import Mathlib.Data.Finset.Prod
/-!
# How often rules are evaluated, as long as no left recursion is met
-/

namespace Joeson
variable {V H : Type}

/-- Every answer satisfies `P`. -/
abbrev Gets {α : Type} (o : Out α) (P : α → Prop) : Prop := o.Holds True (fun _ => True) P

theorem gets_any {α : Type} (o : Out α) : Gets o (fun _ => True) := by cases o <;> trivial

theorem setPos_gets (env : Env V H) (n : Nat) (s : St V H) : Gets (setPos env n s) (fun s' => s' = { s with pos := n }) := by
  unfold setPos
  split
  · rfl
  · trivial

/-- A relation between the states before and after, blind to the cursor and the store. -/
structure Carry (R : St V H → St V H → Prop) : Prop where
  refl : ∀ s, R s s
  trans : ∀ {s t u}, R s t → R t u → R s u
  aux : ∀ {s t} p h, R s t → R s { t with pos := p, h := h }

theorem Carry.pos {R : St V H → St V H → Prop} (c : Carry R) {s t : St V H} (p : Nat) (h : R s t) : R s { t with pos := p } :=
  c.aux p t.h h

theorem Carry.store {R : St V H → St V H → Prop} (c : Carry R) {s t : St V H} (x : H) (h : R s t) : R s { t with h := x } :=
  c.aux t.pos x h

section kinds
variable {R : St V H → St V H → Prop} (c : Carry R) {env : Env V H} {rec_ : Node → Run V H} {Q : Node → Prop}
  (hrec : ∀ n s, Q n → Gets (rec_ n s) (fun x => R s x.2))
include c hrec

theorem parseAlts_gets : ∀ (l : List Node) (s : St V H), (∀ n ∈ l, Q n) → Gets (parseAlts env rec_ l s) (fun x => R s x.2)
  | [], s, _ => c.refl s
  | n :: l, s, hl => by
    rw [parseAlts]
    refine (hrec n s (hl n (by simp))).bind ?_
    rintro ⟨r, t⟩ h1
    cases r with
    | some v => exact h1
    | none =>
      refine (setPos_gets env s.pos t).bind ?_
      rintro _ rfl
      exact (parseAlts_gets l _ fun m hm => hl m (by simp [hm])).imp fun x hx => c.trans (c.pos _ h1) hx

theorem parseItems_gets (repr : SeqRepr) : ∀ (l : List Node) (acc : SeqAcc V) (s : St V H), (∀ n ∈ l, Q n) →
    Gets (parseItems env rec_ repr l acc s) (fun x => R s x.2)
  | [], acc, s, _ => c.store _ (c.refl s)
  | n :: l, acc, s, hl => by
    rw [parseItems]
    refine (hrec n s (hl n (by simp))).bind ?_
    rintro ⟨r, t⟩ h1
    cases r with
    | none => exact h1
    | some v =>
      dsimp only
      refine (gets_any (Out.ofExcept (seqAdd env.ops repr (env.g.info n) acc v t.h))).bind ?_
      rintro ⟨acc, x⟩ -
      exact (parseItems_gets repr l acc _ fun m hm => hl m (by simp [hm])).imp fun y hy => c.trans (c.store x h1) hy

theorem parseRep_gets (v : Node) (j : Option Node) (hv : Q v) (hj : ∀ n, j = some n → Q n) (mn mx : Int) (start : Nat) :
    ∀ (k : Nat) (ms : List V) (s : St V H), Gets (parseRep env rec_ v j mn mx start k ms s) (fun x => R s x.2)
  | 0, _, _ => trivial
  | k + 1, ms, s => by
    unfold parseRep
    extract_lets pos2 finish
    have hfin : ∀ t, R s t → Gets (finish t) (fun x => R s x.2) := by
      intro t ht
      show Gets (if _ then _ else _) _
      split
      · refine (setPos_gets env start t).bind ?_
        rintro _ rfl
        exact c.pos _ ht
      · exact c.store _ ht
    refine Out.Holds.bind (Q := fun x => R s x.2) ?_ ?_
    · cases j with
      | none => exact c.refl s
      | some n =>
        refine (hrec n s (hj n rfl)).bind ?_
        rintro ⟨r, t⟩ h1
        exact h1
    · rintro ⟨b, t⟩ h1
      dsimp only
      split
      · refine (setPos_gets env pos2 t).bind ?_
        rintro _ rfl
        exact hfin _ (c.pos _ h1)
      · refine (hrec v t hv).bind ?_
        rintro ⟨r, u⟩ h2
        have h3 := c.trans h1 h2
        cases r with
        | none =>
          refine (setPos_gets env pos2 u).bind ?_
          rintro _ rfl
          exact hfin _ (c.pos _ h3)
        | some w =>
          dsimp only
          split
          · split
            · refine (setPos_gets env start u).bind ?_
              rintro _ rfl
              exact c.pos _ h3
            · exact c.store _ h3
          · exact (parseRep_gets v j hv hj mn mx start k _ u).imp fun y hy => c.trans h3 hy

theorem parseKind_gets (k : Nat) (n : Node) (s : St V H) (hn : ∀ m ∈ n.inner, Q m) (hQ : ∀ id, Q (.rule id)) :
    Gets (parseKind env rec_ k n s) (fun x => R s x.2) := by
  cases n with
  | str i b =>
    refine (gets_any (Out.ofExcept (env.st.matchString s.pos b))).bind ?_
    rintro ⟨m, p⟩ -
    cases m <;> exact c.pos _ (c.refl s)
  | regex i re =>
    refine (gets_any (Out.ofExcept (env.st.matchRegexp s.pos re))).bind ?_
    rintro ⟨m, p⟩ -
    cases m <;> exact c.pos _ (c.refl s)
  | choice i l => exact parseAlts_gets c hrec l s hn
  | seq i repr l => exact parseItems_gets c hrec repr l _ s hn
  | exist i m =>
    refine (hrec m s (hn m (by simp [Node.inner]))).bind ?_
    rintro ⟨r, t⟩ h1
    cases r with
    | some v => exact h1
    | none =>
      refine (setPos_gets env s.pos t).bind ?_
      rintro _ rfl
      exact c.pos _ h1
  | look i m =>
    refine (hrec m s (hn m (by simp [Node.inner]))).bind ?_
    rintro ⟨r, t⟩ h1
    refine (setPos_gets env s.pos t).bind ?_
    rintro _ rfl
    exact c.pos _ h1
  | not i m =>
    refine (hrec m s (hn m (by simp [Node.inner]))).bind ?_
    rintro ⟨r, t⟩ h1
    refine (setPos_gets env s.pos t).bind ?_
    rintro _ rfl
    cases r <;> exact c.pos _ h1
  | pattern i v j mn mx =>
    have hv : Q v := hn v (by simp [Node.inner])
    refine (hrec v s hv).bind ?_
    rintro ⟨r, t⟩ h1
    cases r with
    | none =>
      refine (setPos_gets env s.pos t).bind ?_
      rintro _ rfl
      dsimp only
      split
      · exact c.pos _ h1
      · exact c.aux _ _ h1
    | some w =>
      exact (parseRep_gets c hrec v j hv (fun n hj => hn n (by simp [Node.inner, hj])) mn mx s.pos k _ t).imp fun y hy => c.trans h1 hy
  | ref i nm =>
    rw [parseKind]
    cases env.g.lookup nm with
    | none => trivial
    | some id =>
      refine (gets_any (stackPeek s)).bind fun _ _ => ?_
      exact hrec _ s (hQ id)
  | rule id => exact hrec _ s (hQ id)

end kinds

/-! ## The memo table as a measure -/

/-- What the memo table needs for the count. -/
structure Tidy (s : St V H) : Prop where
  table : ∀ p i a, s.table p i = some a → a < s.next ∧ (s.heap a).pos = p ∧ (s.heap a).id = i
  mask : ∀ a, a < s.next → 2 ≤ (s.heap a).loopstage → (s.heap a).wipemask.isSome
  stack : ∀ a ∈ s.stack, a < s.next

/-- No left recursion has been met. -/
def Unmasked (s : St V H) : Prop := ∀ a, a < s.next → (s.heap a).wipemask = none

/-- The entry says that the rule was evaluated, or is being evaluated. -/
def Frame.Used (f : Frame V) : Prop := 1 ≤ f.loopstage ∨ f.endpos.isSome

open Classical in
/-- The rules and positions evaluated so far. -/
noncomputable def used (len N : Nat) (s : St V H) : Finset (Nat × Nat) :=
  (Finset.range (len + 1) ×ˢ Finset.range N).filter fun x => ∃ a, s.table x.1 x.2 = some a ∧ (s.heap a).Used

theorem mem_used {len N : Nat} {s : St V H} {x : Nat × Nat} :
    x ∈ used len N s ↔ (x.1 ≤ len ∧ x.2 < N) ∧ ∃ a, s.table x.1 x.2 = some a ∧ (s.heap a).Used := by
  unfold used
  simp [Nat.lt_succ_iff]

theorem used_card_le (len N : Nat) (s : St V H) : (used len N s).card ≤ (Finset.range (len + 1) ×ˢ Finset.range N).card := by
  refine Finset.card_le_card fun x hx => ?_
  have := (mem_used.mp hx).1
  simp [Nat.lt_succ_iff, this]

/-- What a parser does to the counter. -/
structure Work (len N : Nat) (s t : St V H) : Prop where
  tidy : Tidy t
  next : s.next ≤ t.next
  stack : t.stack = s.stack
  same : ∀ a, a < s.next → (t.heap a).pos = (s.heap a).pos ∧ (t.heap a).id = (s.heap a).id
  mask : ∀ a, a < s.next → (s.heap a).wipemask.isSome → (t.heap a).wipemask.isSome
  count : Unmasked t → t.counter + (used len N s).card ≤ s.counter + (used len N t).card

theorem Work.noMask {len N : Nat} {s t : St V H} (h : Work len N s t) (hn : Unmasked t) : Unmasked s := by
  intro a ha
  cases hm : (s.heap a).wipemask with
  | none => rfl
  | some m =>
    have h1 := h.mask a ha (by rw [hm]; rfl)
    rw [hn a (Nat.lt_of_lt_of_le ha h.next)] at h1
    cases h1

theorem Work.trans {len N : Nat} {s t u : St V H} (h : Work len N s t) (h' : Work len N t u) : Work len N s u where
  tidy := h'.tidy
  next := Nat.le_trans h.next h'.next
  stack := h'.stack.trans h.stack
  same a ha := by
    have h1 := h.same a ha
    have h2 := h'.same a (Nat.lt_of_lt_of_le ha h.next)
    exact ⟨h2.1.trans h1.1, h2.2.trans h1.2⟩
  mask a ha hm := h'.mask a (Nat.lt_of_lt_of_le ha h.next) (h.mask a ha hm)
  count hn := by
    have h1 := h'.count hn
    have h2 := h.count (h'.noMask hn)
    omega

theorem Work.refl {len N : Nat} {s : St V H} (h : Tidy s) : Work len N s s :=
  ⟨h, Nat.le_refl _, rfl, fun _ _ => ⟨rfl, rfl⟩, fun _ _ h => h, fun _ => Nat.le_refl _⟩

theorem work_carry (len N : Nat) : Carry (fun s t : St V H => Tidy s → Work len N s t) where
  refl _ h := .refl h
  trans h1 h2 h := (h1 h).trans (h2 (h1 h).tidy)
  aux p x h ht := by
    have h := h ht
    exact ⟨⟨h.tidy.table, h.tidy.mask, h.tidy.stack⟩, h.next, h.stack, h.same, h.mask, h.count⟩

/-- A change of one entry. -/
theorem Tidy.upd {s : St V H} (h : Tidy s) (a : Nat) {f : Frame V → Frame V} (hp : ∀ x, (f x).pos = x.pos) (hi : ∀ x, (f x).id = x.id)
    (hm : a < s.next → 2 ≤ (f (s.heap a)).loopstage → (f (s.heap a)).wipemask.isSome) : Tidy (updFrame a f s) := by
  have hne : ∀ b, b ≠ a → (updFrame a f s).heap b = s.heap b := fun b hb => setHeap_ne _ _ hb
  have hself : (updFrame a f s).heap a = f (s.heap a) := setHeap_self _ _ _
  refine ⟨fun p i b hb => ?_, fun b hb h2 => ?_, h.stack⟩
  · have h1 := h.table p i b hb
    by_cases hba : b = a
    · subst hba; rw [hself, hp, hi]; exact h1
    · rw [hne b hba]; exact h1
  · by_cases hba : b = a
    · subst hba; rw [hself] at h2 ⊢; exact hm hb h2
    · rw [hne b hba] at h2 ⊢; exact h.mask b hb h2

/-- A change of one entry that leaves it used. -/
theorem used_upd {len N : Nat} {s : St V H} {a : Nat} {f : Frame V → Frame V} (h : (s.heap a).Used → (f (s.heap a)).Used) :
    used len N s ⊆ used len N (updFrame a f s) := by
  intro x hx
  obtain ⟨h1, b, h2, h3⟩ := mem_used.mp hx
  refine mem_used.mpr ⟨h1, b, h2, ?_⟩
  by_cases hba : b = a
  · subst hba
    rw [show (updFrame b f s).heap b = f (s.heap b) from setHeap_self _ _ _]
    exact h h3
  · rw [show (updFrame a f s).heap b = s.heap b from setHeap_ne _ _ hba]
    exact h3

theorem Work.upd {len N : Nat} {s t : St V H} (h : Work len N s t) (a : Nat) {f : Frame V → Frame V} (hp : ∀ x, (f x).pos = x.pos)
    (hi : ∀ x, (f x).id = x.id) (hm : ∀ x, x.wipemask.isSome → (f x).wipemask.isSome)
    (h2 : a < t.next → 2 ≤ (f (t.heap a)).loopstage → (f (t.heap a)).wipemask.isSome)
    (hu : Unmasked (updFrame a f t) → (t.heap a).Used → (f (t.heap a)).Used) : Work len N s (updFrame a f t) := by
  have hself : (updFrame a f t).heap a = f (t.heap a) := setHeap_self _ _ _
  have hne : ∀ b, b ≠ a → (updFrame a f t).heap b = t.heap b := fun b hb => setHeap_ne _ _ hb
  have key : ∀ b, ((updFrame a f t).heap b).pos = (t.heap b).pos ∧ ((updFrame a f t).heap b).id = (t.heap b).id ∧
      ((t.heap b).wipemask.isSome → ((updFrame a f t).heap b).wipemask.isSome) := by
    intro b
    by_cases hba : b = a
    · subst hba; rw [hself]; exact ⟨hp _, hi _, hm _⟩
    · rw [hne b hba]; exact ⟨rfl, rfl, fun h => h⟩
  refine ⟨h.tidy.upd a hp hi h2, h.next, h.stack, fun b hb => ?_, fun b hb hx => (key b).2.2 (h.mask b hb hx), fun hn => ?_⟩
  · have := h.same b hb
    exact ⟨(key b).1.trans this.1, (key b).2.1.trans this.2⟩
  · have hnt : Unmasked t := by
      intro b hb
      cases hx : (t.heap b).wipemask with
      | none => rfl
      | some m =>
        have h1 := (key b).2.2 (by rw [hx]; rfl)
        rw [hn b hb] at h1
        cases h1
    exact Nat.le_trans (h.count hnt) (Nat.add_le_add_left (Finset.card_le_card (used_upd (hu hn))) _)

/-- Entries appear unused. -/
theorem getFrame_gets (env : Env V H) (id : Nat) (s : St V H) (h : Tidy s) : Gets (getFrame env id s) (fun x =>
    s.pos ≤ env.st.len ∧ id < env.g.numRules ∧ x.2.pos = s.pos ∧ x.2.table s.pos id = some x.1 ∧ x.1 < x.2.next ∧ x.2.counter = s.counter ∧
      Work env.st.len env.g.numRules s x.2) := by
  unfold getFrame
  split
  · rename_i hc
    cases ht : s.table s.pos id with
    | some a => exact ⟨hc.1, hc.2, rfl, ht, (h.table _ _ _ ht).1, rfl, .refl h⟩
    | none =>
      have hlt : ∀ b, b < s.next → setHeap s.heap s.next (newFrame V s.pos id) b = s.heap b := fun b hb => setHeap_ne _ _ (by omega)
      refine ⟨hc.1, hc.2, rfl, by simp [setTable], Nat.lt_succ_self _, rfl, ⟨⟨?_, ?_, ?_⟩, Nat.le_succ _, rfl, ?_, ?_, ?_⟩⟩
      · intro p i a ha
        simp only [setTable] at ha
        dsimp only
        split at ha
        · rename_i hpi
          obtain ⟨rfl, rfl⟩ := hpi
          injection ha with ha
          subst ha
          rw [setHeap_self]
          exact ⟨by omega, rfl, rfl⟩
        · have := h.table p i a ha
          rw [hlt a this.1]
          exact ⟨by omega, this.2⟩
      · intro a ha h2
        dsimp only at ha h2 ⊢
        by_cases hn : a = s.next
        · subst hn; rw [setHeap_self] at h2; simp [newFrame] at h2
        · rw [setHeap_ne _ _ hn] at h2 ⊢; exact h.mask a (by omega) h2
      · intro a ha
        have := h.stack a ha
        dsimp only
        omega
      · intro a ha; dsimp only; rw [hlt a ha]; exact ⟨rfl, rfl⟩
      · intro a ha hm; dsimp only; rw [hlt a ha]; exact hm
      · intro _
        refine Nat.add_le_add_left (Finset.card_le_card fun x hx => ?_) _
        obtain ⟨h1, b, h2, h3⟩ := mem_used.mp hx
        refine mem_used.mpr ⟨h1, b, ?_, ?_⟩
        · dsimp only
          unfold setTable
          rw [if_neg]
          · exact h2
          · rintro ⟨hp, hi⟩
            rw [hp, hi, ht] at h2
            cases h2
        · dsimp only
          rw [hlt b (h.table _ _ _ h2).1]
          exact h3
  · trivial

/-- While a left recursive rule grows, only what does not concern the counter matters. -/
structure Grown (s t : St V H) : Prop where
  tidy : Tidy t
  next : s.next ≤ t.next
  stack : t.stack = s.stack
  same : ∀ a, a < s.next → (t.heap a).pos = (s.heap a).pos ∧ (t.heap a).id = (s.heap a).id
  mask : ∀ a, a < s.next → (s.heap a).wipemask.isSome → (t.heap a).wipemask.isSome

theorem Work.grown {len N : Nat} {s t : St V H} (h : Work len N s t) : Grown s t := ⟨h.tidy, h.next, h.stack, h.same, h.mask⟩

theorem Grown.trans {s t u : St V H} (h : Grown s t) (h' : Grown t u) : Grown s u where
  tidy := h'.tidy
  next := Nat.le_trans h.next h'.next
  stack := h'.stack.trans h.stack
  same a ha := by
    have h1 := h.same a ha
    have h2 := h'.same a (Nat.lt_of_lt_of_le ha h.next)
    exact ⟨h2.1.trans h1.1, h2.2.trans h1.2⟩
  mask a ha hm := h'.mask a (Nat.lt_of_lt_of_le ha h.next) (h.mask a ha hm)

theorem Grown.upd {s t : St V H} (h : Grown s t) (a : Nat) {f : Frame V → Frame V} (hp : ∀ x, (f x).pos = x.pos)
    (hi : ∀ x, (f x).id = x.id) (hm : ∀ x, x.wipemask.isSome → (f x).wipemask.isSome)
    (h2 : a < t.next → 2 ≤ (f (t.heap a)).loopstage → (f (t.heap a)).wipemask.isSome) : Grown s (updFrame a f t) := by
  have hself : (updFrame a f t).heap a = f (t.heap a) := setHeap_self _ _ _
  have hne : ∀ b, b ≠ a → (updFrame a f t).heap b = t.heap b := fun b hb => setHeap_ne _ _ hb
  have key : ∀ b, ((updFrame a f t).heap b).pos = (t.heap b).pos ∧ ((updFrame a f t).heap b).id = (t.heap b).id ∧
      ((t.heap b).wipemask.isSome → ((updFrame a f t).heap b).wipemask.isSome) := by
    intro b
    by_cases hba : b = a
    · subst hba; rw [hself]; exact ⟨hp _, hi _, hm _⟩
    · rw [hne b hba]; exact ⟨rfl, rfl, fun h => h⟩
  refine ⟨h.tidy.upd a hp hi h2, h.next, h.stack, fun b hb => ?_, fun b hb hx => (key b).2.2 (h.mask b hb hx)⟩
  have := h.same b hb
  exact ⟨(key b).1.trans this.1, (key b).2.1.trans this.2⟩

/-- Left recursion was met: nothing to count. -/
theorem Grown.work {len N : Nat} {s t : St V H} (h : Grown s t) {a : Nat} (ha : a < t.next) (hm : (t.heap a).wipemask.isSome) : Work len N s t :=
  ⟨h.tidy, h.next, h.stack, h.same, h.mask, fun hn => by rw [hn a ha] at hm; cases hm⟩

theorem Grown.aux {s t : St V H} (h : Grown s t) (p : Nat) (l : List String) : Grown s { t with pos := p, loopStack := l } :=
  ⟨⟨h.tidy.table, h.tidy.mask, h.tidy.stack⟩, h.next, h.stack, h.same, h.mask⟩

/-- What `wipeWith` keeps. -/
def StashTidy (s : St V H) (st : Nat → Option Nat) : Prop := ∀ i b, st i = some b → b < s.next ∧ (s.heap b).id = i

theorem StashTidy.grown {s t : St V H} {st : Nat → Option Nat} (h : StashTidy s st) (hg : Grown s t) : StashTidy t st := by
  intro i b hb
  have h1 := h i b hb
  exact ⟨Nat.lt_of_lt_of_le h1.1 hg.next, (hg.same b h1.1).2.trans h1.2⟩

theorem wipeWith_gets (a : Nat) {s t : St V H} (h : Grown s t) : Gets (wipeWith a t) (fun x => Grown s x.2 ∧ x.2.heap = t.heap ∧ x.2.next = t.next ∧ StashTidy x.2 x.1) := by
  unfold wipeWith
  cases (t.heap a).wipemask with
  | none => trivial
  | some m =>
    refine ⟨⟨⟨fun p i b hb => ?_, h.tidy.mask, h.tidy.stack⟩, h.next, h.stack, h.same, h.mask⟩, rfl, rfl, ?_⟩
    · dsimp only at hb
      split at hb
      · cases hb
      · exact h.tidy.table p i b hb
    · intro i b hb
      dsimp only at hb
      split at hb
      · have := h.tidy.table _ _ _ hb
        exact ⟨this.1, this.2.2⟩
      · cases hb

theorem restoreWith_grown {s t : St V H} (h : Grown s t) {st : Nat → Option Nat} (hst : StashTidy t st) : Grown s (restoreWith st t) := by
  refine ⟨⟨fun p i b hb => ?_, h.tidy.mask, h.tidy.stack⟩, h.next, h.stack, h.same, h.mask⟩
  unfold restoreWith at hb
  dsimp only at hb
  cases hs : st i with
  | none => rw [hs] at hb; exact h.tidy.table p i b hb
  | some c =>
    rw [hs] at hb
    dsimp only at hb
    split at hb
    · rename_i hp
      injection hb with hb
      subst hb
      have := hst i c hs
      exact ⟨this.1, hp.symm, this.2⟩
    · exact h.tidy.table p i b hb

section body
variable {env : Env V H} {f : Run V H}

theorem growLoop_gets (hf : ∀ s, Tidy s → Gets (f s) (fun x => Grown s x.2)) (sh : Bool) (a p : Nat) :
    ∀ (k : Nat) (r : V) (s t : St V H), Grown s t → Gets (growLoop env sh f a p k r t) (fun x => Grown s x.2 ∧ StashTidy x.2 x.1.1)
  | 0, _, _, _, _ => trivial
  | k + 1, r, s, t, h => by
    rw [growLoop]
    refine (wipeWith_gets a h).bind ?_
    rintro ⟨st, t1⟩ ⟨h1, h2, h3, h4⟩
    dsimp only at h1 h2 h3 h4 ⊢
    have h5 : Grown s (cacheSet a (some r) (some t1.pos) t1) := h1.upd a (fun _ => rfl) (fun _ => rfl) (fun _ h => h) (fun ha h => h1.tidy.mask a ha h)
    refine (gets_any _).bind fun _ _ => ?_
    refine (setPos_gets env p _).bind ?_
    rintro _ rfl
    have h6 : Grown s { cacheSet a (some r) (some t1.pos) t1 with pos := p } := h5.aux p _
    refine (hf _ h6.tidy).bind ?_
    rintro ⟨r', t2⟩ h7
    have h8 := h6.trans h7
    have h9 : StashTidy { cacheSet a (some r) (some t1.pos) t1 with pos := p } st := by
      intro i b hb
      have := h4 i b hb
      refine ⟨this.1, ?_⟩
      show (setHeap t1.heap a _ b).id = i
      by_cases hba : b = a
      · subst hba; rw [setHeap_self]; exact this.2
      · rw [setHeap_ne _ _ hba]; exact this.2
    dsimp only at h7 h8 ⊢
    split
    · exact ⟨h8, h9.grown h7⟩
    · cases r' with
      | none => exact ⟨h8, h9.grown h7⟩
      | some r' => exact growLoop_gets hf sh a p k r' s t2 h8

theorem loopify_gets (hf : ∀ s, Tidy s → Gets (f s) (fun x => Grown s x.2 ∧
      (Unmasked x.2 → x.2.counter + (used env.st.len env.g.numRules s).card ≤ s.counter + 1 + (used env.st.len env.g.numRules x.2).card)))
    (k id : Nat) (i : Info) (hsk : i.skipCache = false) (s : St V H) (h : Tidy s) :
    Gets (loopify env k id i f s) (fun x => Work env.st.len env.g.numRules s x.2) := by
  unfold loopify
  extract_lets show_
  refine (gets_any _).bind fun _ _ => ?_
  rw [if_neg (by rw [hsk]; simp)]
  refine (getFrame_gets env id s h).bind ?_
  rintro ⟨a, s1⟩ ⟨hp, hid, hpos, hta, han, hcnt, hw⟩
  dsimp only at hpos hta han hcnt hw ⊢
  have hw0 : Work env.st.len env.g.numRules s (if (s1.heap a).loopstage < 0 then setStage a 0 s1 else s1) := by
    split
    · exact hw.upd a (fun _ => rfl) (fun _ => rfl) (fun _ h => h) (fun _ h => by simp at h)
        (fun _ hu => by
          rcases hu with hu | hu
          · omega
          · exact Or.inr hu)
    · exact hw
  have ht0 : (if (s1.heap a).loopstage < 0 then setStage a 0 s1 else s1).table s.pos id = some a := by split <;> exact hta
  have ha0 : a < (if (s1.heap a).loopstage < 0 then setStage a 0 s1 else s1).next := by split <;> exact han
  generalize (if (s1.heap a).loopstage < 0 then setStage a 0 s1 else s1) = s0 at hw0 ht0 ha0
  split
  · rename_i hst0
    cases he : (s0.heap a).endpos with
    | some e =>
      dsimp only
      refine (gets_any _).bind fun _ _ => ?_
      refine (setPos_gets env e s0).bind ?_
      rintro _ rfl
      exact ((work_carry _ _).pos e (fun _ => hw0)) h
    | none =>
      dsimp only
      -- the entry becomes used
      have hb : cacheSet a none none (setStage a 1 s0) = updFrame a (fun f => { f with loopstage := 1, result := none, endpos := none }) s0 := by
        unfold cacheSet setStage updFrame
        dsimp only
        congr 1
        funext b
        unfold setHeap
        by_cases hba : b = a <;> simp [hba]
      rw [hb]
      have htid : Tidy (updFrame a (fun f => { f with loopstage := 1, result := none, endpos := none }) s0) :=
        hw0.tidy.upd a (fun _ => rfl) (fun _ => rfl) (fun _ h => by simp at h)
      have hgr : Grown s (updFrame a (fun f => { f with loopstage := 1, result := none, endpos := none }) s0) :=
        hw0.grown.upd a (fun _ => rfl) (fun _ => rfl) (fun _ h => h) (fun _ h => by simp at h)
      have hcard : (used env.st.len env.g.numRules s0).card + 1 ≤
          (used env.st.len env.g.numRules (updFrame a (fun f => { f with loopstage := 1, result := none, endpos := none }) s0)).card := by
        have hnot : (s.pos, id) ∉ used env.st.len env.g.numRules s0 := by
          intro hx
          obtain ⟨-, b, hb1, hb2⟩ := mem_used.mp hx
          rw [ht0] at hb1
          cases hb1
          rcases hb2 with hb2 | hb2
          · omega
          · rw [he] at hb2; cases hb2
        rw [← Finset.card_insert_of_notMem hnot]
        refine Finset.card_le_card fun x hx => ?_
        rcases Finset.mem_insert.mp hx with rfl | hx
        · refine mem_used.mpr ⟨⟨hp, hid⟩, a, ht0, Or.inl ?_⟩
          rw [show (updFrame a _ s0).heap a = _ from setHeap_self _ _ _]
        · exact used_upd (fun _ => Or.inl (by simp)) hx
      have hcnt0 : (updFrame a (fun f => { f with loopstage := 1, result := none, endpos := none }) s0).counter = s0.counter := rfl
      have hmask0 : Unmasked (updFrame a (fun f : Frame V => { f with loopstage := 1, result := none, endpos := none }) s0) → Unmasked s0 := by
        intro hn b hb
        have := hn b hb
        by_cases hba : b = a
        · subst hba; rwa [show (updFrame b _ s0).heap b = _ from setHeap_self _ _ _] at this
        · rwa [show (updFrame a _ s0).heap b = _ from setHeap_ne _ _ hba] at this
      have hanx : a < (updFrame a (fun f => { f with loopstage := 1, result := none, endpos := none }) s0).next := ha0
      generalize updFrame a (fun f => { f with loopstage := 1, result := none, endpos := none }) s0 = sb at htid hgr hcard hcnt0 hmask0 hanx
      refine (hf sb htid).bind ?_
      rintro ⟨r, t⟩ ⟨h1, h2⟩
      dsimp only at h1 h2 ⊢
      have hat : a < t.next := Nat.lt_of_lt_of_le hanx h1.next
      have hgt := hgr.trans h1
      have hwt : Work env.st.len env.g.numRules s t := by
        refine ⟨hgt.tidy, hgt.next, hgt.stack, hgt.same, hgt.mask, fun hn => ?_⟩
        have h3 := h2 hn
        have hnb : Unmasked sb := by
          intro b hb
          cases hx : (sb.heap b).wipemask with
          | none => rfl
          | some m =>
            have h1 := h1.mask b hb (by rw [hx]; rfl)
            rw [hn b (Nat.lt_of_lt_of_le hb (Grown.next ‹_›))] at h1
            cases h1
        have h4 := hw0.count (hmask0 hnb)
        omega
      split
      · rename_i hst1
        refine (gets_any _).bind fun _ _ => ?_
        have hd : cacheSet a r (some (setStage a 0 t).pos) (setStage a 0 t) = updFrame a (fun f => { f with loopstage := 0, result := r, endpos := some t.pos }) t := by
          unfold cacheSet setStage updFrame
          dsimp only
          congr 1
          funext b
          unfold setHeap
          by_cases hba : b = a <;> simp [hba]
        show Work _ _ s (cacheSet a r (some t.pos) (setStage a 0 t))
        rw [show cacheSet a r (some t.pos) (setStage a 0 t) = updFrame a (fun f => { f with loopstage := 0, result := r, endpos := some t.pos }) t from hd]
        exact hwt.upd a (fun _ => rfl) (fun _ => rfl) (fun _ h => h) (fun _ h => by simp at h) (fun _ _ => Or.inr rfl)
      · split
        · rename_i hst2
          have hma : (t.heap a).wipemask.isSome := hgt.tidy.mask a hat (by omega)
          cases r with
          | none =>
            refine (gets_any _).bind fun _ _ => ?_
            have hg0 : Grown s (setStage a 0 t) := hgt.upd a (fun _ => rfl) (fun _ => rfl) (fun _ h => h) (fun _ h => by simp at h)
            refine hg0.work (a := a) hat ?_
            rw [show (setStage a 0 t).heap a = _ from setHeap_self _ _ _]
            exact hma
          | some r =>
            dsimp only
            have hg3 : Grown s (setStage a 3 t) := hgt.upd a (fun _ => rfl) (fun _ => rfl) (fun _ h => h) (fun _ _ => hma)
            have hm3 : ((setStage a 3 t).heap a).wipemask.isSome := by
              rw [show (setStage a 3 t).heap a = _ from setHeap_self _ _ _]
              exact hma
            have hl3 : ∃ l, (if (env.trace.loop && (decide (env.trace.filterLine < 0) || env.st.line (setStage a 3 t).pos == env.trace.filterLine)) = true
                then { setStage a 3 t with loopStack := i.name :: (setStage a 3 t).loopStack } else setStage a 3 t) = { setStage a 3 t with loopStack := l } := by
              split
              · exact ⟨_, rfl⟩
              · exact ⟨_, rfl⟩
            obtain ⟨l, hl⟩ := hl3
            rw [hl]
            have hg4 : Grown s { setStage a 3 t with loopStack := l } := hg3.aux _ l
            have hm4 : (({ setStage a 3 t with loopStack := l } : St V H).heap a).wipemask.isSome := hm3
            have ha4 : a < ({ setStage a 3 t with loopStack := l } : St V H).next := hat
            generalize ({ setStage a 3 t with loopStack := l } : St V H) = t4 at hg4 hm4 ha4
            refine (growLoop_gets (env := env) (fun s hs => (hf s hs).imp fun _ h => h.1) show_ a s1.pos k r t4 t4
              ⟨hg4.tidy, Nat.le_refl _, rfl, fun _ _ => ⟨rfl, rfl⟩, fun _ _ h => h⟩).bind ?_
            rintro ⟨⟨st, e, r'⟩, t5⟩ ⟨h5, h6⟩
            dsimp only at h5 h6 ⊢
            have hg5 := hg4.trans h5
            have hm5 := h5.mask a ha4 hm4
            have ha5 : a < t5.next := Nat.lt_of_lt_of_le ha4 h5.next
            refine Out.Holds.bind (Q := fun u => ∃ l, u = { t5 with loopStack := l }) ?_ ?_
            · split
              · cases t5.loopStack with
                | nil => trivial
                | cons _ l => exact ⟨l, rfl⟩
              · exact ⟨_, rfl⟩
            · rintro _ ⟨l, rfl⟩
              have hg6 : Grown s { t5 with loopStack := l } := hg5.aux _ l
              refine (wipeWith_gets a hg6).bind ?_
              rintro ⟨_, t7⟩ ⟨h7, h8, h9, -⟩
              dsimp only at h7 h8 h9 ⊢
              have hst7 : StashTidy t7 st := by
                intro i b hb
                have := h6 i b hb
                rw [h8, h9]
                exact this
              have h10 := restoreWith_grown h7 hst7
              refine (setPos_gets env e _).bind ?_
              rintro _ rfl
              refine (gets_any _).bind fun _ _ => ?_
              have h11 : Grown s { restoreWith st t7 with pos := e } := h10.aux e _
              have h12 : Grown s (setStage a 0 { restoreWith st t7 with pos := e }) :=
                h11.upd a (fun _ => rfl) (fun _ => rfl) (fun _ h => h) (fun _ h => by simp at h)
              refine h12.work (a := a) (show a < t7.next by rw [h9]; exact ha5) ?_
              rw [show (setStage a 0 { restoreWith st t7 with pos := e }).heap a = { t7.heap a with loopstage := 0 } from setHeap_self _ _ _, h8]
              exact hm5
        · trivial
  · split
    · refine (gets_any _).bind fun _ _ => ?_
      refine (gets_any _).bind fun m _ => ?_
      have heq : updFrame a (fun f => { f with wipemask := some m }) (if (s0.heap a).loopstage = 1 then setStage a 2 s0 else s0) =
          updFrame a (fun f => { f with loopstage := if f.loopstage = 1 then 2 else f.loopstage, wipemask := some m }) s0 := by
        by_cases h1 : (s0.heap a).loopstage = 1
        · rw [if_pos h1]
          unfold setStage updFrame
          dsimp only
          congr 1
          funext b
          unfold setHeap
          by_cases hba : b = a <;> simp [hba, h1]
        · rw [if_neg h1]
          unfold updFrame
          dsimp only
          rw [if_neg h1]
      rw [heq]
      have hg : Grown s (updFrame a (fun f => { f with loopstage := if f.loopstage = 1 then 2 else f.loopstage, wipemask := some m }) s0) :=
        hw0.grown.upd a (fun _ => rfl) (fun _ => rfl) (fun _ _ => rfl) (fun _ _ => rfl)
      have hmask : ((updFrame a (fun f => { f with loopstage := if f.loopstage = 1 then 2 else f.loopstage, wipemask := some m }) s0).heap a).wipemask.isSome := by
        rw [show (updFrame a _ s0).heap a = _ from setHeap_self _ _ _]
        rfl
      have hlt : a < (updFrame a (fun f => { f with loopstage := if f.loopstage = 1 then 2 else f.loopstage, wipemask := some m }) s0).next := ha0
      generalize updFrame a (fun f => { f with loopstage := if f.loopstage = 1 then 2 else f.loopstage, wipemask := some m }) s0 = u at hg hmask hlt
      cases (u.heap a).endpos with
      | none => exact hg.work hlt hmask
      | some e =>
        dsimp only
        refine (setPos_gets env e u).bind ?_
        rintro _ rfl
        have hg' : Grown s { u with pos := e } := hg.aux e _
        exact hg'.work (a := a) hlt hmask
    · trivial

theorem prepareResult_gets {f : Run V H} (hf : ∀ s, Tidy s → Gets (f s) (fun x => Work env.st.len env.g.numRules s x.2)) (b : Bool) (i : Info)
    (s : St V H) (h : Tidy s) : Gets (prepareResult env b i f s) (fun x => Grown s x.2 ∧
      (Unmasked x.2 → x.2.counter + (used env.st.len env.g.numRules s).card ≤ s.counter + 1 + (used env.st.len env.g.numRules x.2).card)) := by
  unfold prepareResult
  extract_lets s1
  have h1 : Tidy s1 := ⟨h.table, h.mask, h.stack⟩
  refine (hf s1 h1).bind ?_
  rintro ⟨r, t⟩ hw
  dsimp only at hw
  have key : ∀ (x : H) (l : List Call), Grown s { t with h := x, calls := l } ∧ (Unmasked ({ t with h := x, calls := l } : St V H) →
      t.counter + (used env.st.len env.g.numRules s).card ≤ s.counter + 1 + (used env.st.len env.g.numRules ({ t with h := x, calls := l } : St V H)).card) :=
    fun x l => ⟨⟨⟨hw.tidy.table, hw.tidy.mask, hw.tidy.stack⟩, hw.next, hw.stack, hw.same, hw.mask⟩, fun hn => hw.count hn⟩
  cases r with
  | none => exact key t.h t.calls
  | some v =>
    dsimp only
    cases i.cb with
    | none =>
      dsimp only
      refine (gets_any _).bind fun top _ => ?_
      exact key _ _
    | some c =>
      dsimp only
      refine (gets_any _).bind ?_
      rintro ⟨rv, x⟩ -
      cases rv with
      | none => exact key _ _
      | some w =>
        dsimp only
        refine (gets_any _).bind fun top _ => ?_
        exact key _ _

/-- Parsing a bare node or a rule. -/
theorem parse_gets (hc : env.g.AllCached) (ho : env.g.OnRules) : ∀ (k : Nat) (n : Node) (s : St V H), n.AllBare →
    Gets (parse env k n s) (fun x => Tidy s → Work env.st.len env.g.numRules s x.2)
  | 0, _, _, _ => trivial
  | k + 1, n, s, hn => by
    have hrule : ∀ id, (Node.rule id).AllBare := fun id => .mk ⟨rfl, rfl⟩ (by simp [Node.inner])
    have hkind : ∀ n s, (∀ m ∈ n.inner, m.AllBare) → Gets (parseKind env (parse env k) k n s) (fun x => Tidy s → Work env.st.len env.g.numRules s x.2) :=
      fun n s hn => parseKind_gets (work_carry _ _) (parse_gets hc ho k) k n s hn hrule
    rw [parse]
    unfold wrap
    split
    · rename_i id
      split
      · trivial
      · rename_i body hb
        have hmem := List.mem_of_getElem? hb
        by_cases ht : Tidy s
        · unfold stackPush
          refine Out.Holds.bind (Q := fun t => ∃ a, t.stack = a :: s.stack ∧ a < t.next ∧ Tidy t ∧ ∀ u, Work env.st.len env.g.numRules t u →
              Work env.st.len env.g.numRules s (stackPop u)) ?_ ?_
          · refine (getFrame_gets env id s ht).bind ?_
            rintro ⟨a, t⟩ ⟨-, -, -, -, h1, -, h2⟩
            dsimp only at h1 h2 ⊢
            split
            · refine ⟨a, by rw [← h2.stack], h1, ⟨h2.tidy.table, h2.tidy.mask, ?_⟩, fun u hu => ?_⟩
              · intro b hb
                rcases List.mem_cons.mp hb with rfl | hb
                · exact h1
                · exact h2.tidy.stack b hb
              · have h3 : Work env.st.len env.g.numRules t (stackPop u) :=
                  ⟨⟨hu.tidy.table, hu.tidy.mask, fun b hb => hu.tidy.stack b (List.mem_of_mem_tail hb)⟩, hu.next,
                    by show u.stack.tail = _; rw [hu.stack]; rfl, hu.same, hu.mask, hu.count⟩
                exact h2.trans h3
            · trivial
          · rintro t ⟨a, -, -, ht2, hpop⟩
            refine (loopify_gets (fun s hs => prepareResult_gets (fun s hs => (hkind body s (ho body hmem)).imp fun _ h => h hs) true body.info s hs)
              k id body.info (hc body hmem) t ht2).bind ?_
            rintro ⟨r, u⟩ hu
            exact fun _ => hpop u hu
        · refine (gets_any _).imp fun _ _ h => absurd h ht
    · cases hn with
      | mk h1 h2 =>
        rw [if_neg (by rw [h1.1, h1.2]; simp)]
        exact hkind n s h2

end body

end Joeson
