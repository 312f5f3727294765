import Verif.Spec.Renamed
import Verif.Spec.Grammar
import Verif.Proofs.ValueSim
/-!
# A grammar within another parses the same
-/

namespace Joeson
variable {V H : Type}

theorem renamedAll_map (φ : Nat → Nat) (ρ : String → String) : ∀ l : List Node, renamedAll φ ρ l = l.map (·.renamed φ ρ)
  | [] => rfl
  | n :: l => by rw [renamedAll, renamedAll_map φ ρ l]; rfl

theorem Node.renamed_pattern (φ : Nat → Nat) (ρ : String → String) (i : Info) (v : Node) (j : Option Node) (mn mx : Int) :
    (Node.pattern i v j mn mx).renamed φ ρ = .pattern (i.renamed ρ) (v.renamed φ ρ) (j.map (·.renamed φ ρ)) mn mx := by
  cases j <;> rw [Node.renamed] <;> rfl

theorem Node.renamed_info (φ : Nat → Nat) (ρ : String → String) (n : Node) (hn : ∀ id, n ≠ .rule id) : (n.renamed φ ρ).info = n.info.renamed ρ := by
  cases n with
  | rule id => exact absurd rfl (hn id)
  | pattern i v j mn mx => rw [Node.renamed_pattern]; rfl
  | _ => rw [Node.renamed]; rfl

/-- The same panic up to names, both out of fuel, or related values. -/
def RenOut {α β : Type} (ρ : String → String) (Q : α → β → Prop) : Out α → Out β → Prop
  | .ok a, .ok b => Q a b
  | .panic e, .panic e' => e.Renamed ρ e'
  | .oof, .oof => True
  | _, _ => False

section
variable {ρ : String → String}

theorem RenOut.bind {α β γ δ : Type} {Q : α → β → Prop} {Q' : γ → δ → Prop} {x : Out α} {y : Out β}
    {f : α → Out γ} {g : β → Out δ} (h : RenOut ρ Q x y) (hf : ∀ a b, Q a b → RenOut ρ Q' (f a) (g b)) :
    RenOut ρ Q' (x >>= f) (y >>= g) := by
  cases x <;> cases y <;> first | exact h.elim | skip
  · exact hf _ _ h
  · exact h
  · trivial

theorem RenOut.imp {α β : Type} {Q Q' : α → β → Prop} {x : Out α} {y : Out β} (h : RenOut ρ Q x y)
    (hf : ∀ a b, Q a b → Q' a b) : RenOut ρ Q' x y := by
  cases x <;> cases y <;> first | exact h.elim | skip
  · exact hf _ _ h
  · exact h
  · trivial

theorem RenOut.same {α : Type} (x : Out α) : RenOut ρ Eq x x := by
  cases x with
  | ok a => exact rfl
  | panic e => exact .inl rfl
  | oof => trivial

theorem RenOut.panic {α β : Type} {Q : α → β → Prop} (e : Panic) : RenOut (α := α) (β := β) ρ Q (.panic e) (.panic e) := .inl rfl
end

/-- Frames of the same rule under its two numbers, `id` aside. -/
structure RenFrame (N : Nat) (φ : Nat → Nat) (f f' : Frame V) : Prop where
  result : f'.result = f.result
  endpos : f'.endpos = f.endpos
  loopstage : f'.loopstage = f.loopstage
  pos : f'.pos = f.pos
  none : f.wipemask = none → f'.wipemask = none
  some : ∀ m, f.wipemask = some m → ∃ m', f'.wipemask = some m' ∧ ∀ i, i < N → m' (φ i) = m i

/-- States of the two parses. -/
structure RenSt (N : Nat) (φ : Nat → Nat) (s s' : St V H) : Prop where
  pos : s'.pos = s.pos
  next : s'.next = s.next
  stack : s'.stack = s.stack
  counter : s'.counter = s.counter
  h : s'.h = s.h
  loopStack : s'.loopStack.length = s.loopStack.length
  calls : s'.calls.map Call.seen = s.calls.map Call.seen
  heap : ∀ a, RenFrame N φ (s.heap a) (s'.heap a)
  ids : ∀ a, a < s.next → (s.heap a).id < N ∧ (s'.heap a).id = φ (s.heap a).id
  table : ∀ p i, i < N → s'.table p (φ i) = s.table p i
  other : ∀ p j, (∀ i, i < N → j ≠ φ i) → s'.table p j = none
  addr : ∀ p i a, i < N → s.table p i = some a → a < s.next
  top : ∀ a ∈ s.stack, a < s.next

section
variable {N : Nat} {φ : Nat → Nat} {ρ : String → String} {s s' : St V H}

theorem RenSt.at (hs : RenSt N φ s s') (p : Nat) : RenSt N φ { s with pos := p } { s' with pos := p } :=
  ⟨rfl, hs.next, hs.stack, hs.counter, hs.h, hs.loopStack, hs.calls, hs.heap, hs.ids, hs.table, hs.other, hs.addr, hs.top⟩

theorem RenSt.store (hs : RenSt N φ s s') (h : H) : RenSt N φ { s with h := h } { s' with h := h } :=
  ⟨hs.pos, hs.next, hs.stack, hs.counter, rfl, hs.loopStack, hs.calls, hs.heap, hs.ids, hs.table, hs.other, hs.addr, hs.top⟩

theorem RenSt.upd (hs : RenSt N φ s s') (a : Nat) {f f' : Frame V → Frame V} (hf : RenFrame N φ (f (s.heap a)) (f' (s'.heap a)))
    (h1 : (f (s.heap a)).id = (s.heap a).id) (h2 : (f' (s'.heap a)).id = (s'.heap a).id) : RenSt N φ (updFrame a f s) (updFrame a f' s') := by
  refine ⟨hs.pos, hs.next, hs.stack, hs.counter, hs.h, hs.loopStack, hs.calls, fun b => ?_, fun b hb => ?_, hs.table, hs.other, hs.addr, hs.top⟩
  · show RenFrame N φ (setHeap _ _ _ b) (setHeap _ _ _ b)
    unfold setHeap
    split
    · exact hf
    · exact hs.heap b
  · show (setHeap _ _ _ b : Frame V).id < N ∧ (setHeap _ _ _ b : Frame V).id = φ (setHeap _ _ _ b : Frame V).id
    unfold setHeap
    split
    · rename_i hba
      subst hba
      rw [h1, h2]
      exact hs.ids b hb
    · exact hs.ids b hb

theorem RenSt.stage (hs : RenSt N φ s s') (a : Nat) (n : Int) : RenSt N φ (setStage a n s) (setStage a n s') :=
  hs.upd a (f := fun f => { f with loopstage := n }) (f' := fun f => { f with loopstage := n })
    ⟨(hs.heap a).result, (hs.heap a).endpos, rfl, (hs.heap a).pos, (hs.heap a).none, (hs.heap a).some⟩ rfl rfl

theorem RenSt.cache (hs : RenSt N φ s s') (a : Nat) (r : Option V) (e : Option Nat) : RenSt N φ (cacheSet a r e s) (cacheSet a r e s') :=
  hs.upd a (f := fun f => { f with result := r, endpos := e }) (f' := fun f => { f with result := r, endpos := e })
    ⟨rfl, rfl, (hs.heap a).loopstage, (hs.heap a).pos, (hs.heap a).none, (hs.heap a).some⟩ rfl rfl
end

/-- Results are the same, states related, and no address is lost. -/
def RenGood (N : Nat) (φ : Nat → Nat) (s : St V H) (x y : Option V × St V H) : Prop :=
  y.1 = x.1 ∧ RenSt N φ x.2 y.2 ∧ s.next ≤ x.2.next

def RenRun (N : Nat) (φ : Nat → Nat) (ρ : String → String) (f f' : Run V H) : Prop :=
  ∀ s s', RenSt N φ s s' → RenOut ρ (RenGood N φ s) (f s) (f' s')

/-- The environment with the other grammar. -/
abbrev Env.swap (env : Env V H) (g' : Grammar) : Env V H := { env with g := g' }

section
variable {env : Env V H} {g' : Grammar} {φ : Nat → Nat} {ρ : String → String} {s s' : St V H}

theorem setPos_ren (hs : RenSt env.g.numRules φ s s') (n : Nat) :
    RenOut ρ (fun x y => RenSt env.g.numRules φ x y ∧ x.next = s.next) (setPos env n s) (setPos (env.swap g') n s') := by
  unfold setPos
  show RenOut _ _ _ (if n ≤ env.st.len then _ else _)
  split
  · exact ⟨hs.at n, rfl⟩
  · exact .panic _

theorem logHook_ren (hs : RenSt env.g.numRules φ s s') : logHook (env.swap g') s' = logHook env s := by
  unfold logHook
  rw [hs.pos]

theorem logIf_ren (hs : RenSt env.g.numRules φ s s') (b : Bool) : logIf (env.swap g') b s' = logIf env b s := by
  unfold logIf logHook
  rw [hs.pos]

theorem stackPeek_ren {N : Nat} (hs : RenSt N φ s s') : stackPeek s' = stackPeek s := by
  unfold stackPeek
  rw [hs.stack]

variable (hw : env.g.Within φ ρ g')
include hw

theorem Grammar.Within.bound {i : Nat} (hi : i < env.g.numRules) : φ i < g'.numRules := by
  have := hw.rules i _ (List.getElem?_eq_getElem hi)
  exact (List.getElem?_eq_some_iff.mp this).1

theorem getFrame_ren (hs : RenSt env.g.numRules φ s s') {id : Nat} (hid : id < env.g.numRules) :
    RenOut ρ (fun x y => y.1 = x.1 ∧ RenSt env.g.numRules φ x.2 y.2 ∧ x.1 < x.2.next ∧ s.next ≤ x.2.next) (getFrame env id s) (getFrame (env.swap g') (φ id) s') := by
  unfold getFrame
  show RenOut _ _ _ (if s'.pos ≤ env.st.len ∧ φ id < g'.numRules then _ else _)
  have hb := Grammar.Within.bound hw hid
  rw [hs.pos, hs.table _ _ hid]
  by_cases hp : s.pos ≤ env.st.len
  · rw [if_pos ⟨hp, hid⟩, if_pos ⟨hp, hb⟩]
    cases ht : s.table s.pos id with
    | some a => exact ⟨rfl, hs, hs.addr _ _ _ hid ht, Nat.le_refl _⟩
    | none =>
      dsimp only
      rw [hs.next]
      refine ⟨rfl, ⟨rfl, rfl, hs.stack, hs.counter, hs.h, hs.loopStack, hs.calls, fun b => ?_, fun b hb => ?_, fun p i hi => ?_, fun p j hj => ?_,
        fun p i a hi ha => ?_, fun a ha => Nat.lt_succ_of_lt (hs.top a ha)⟩, Nat.lt_succ_self _, Nat.le_succ _⟩
      · show RenFrame _ φ (setHeap _ _ _ b) (setHeap _ _ _ b)
        unfold setHeap
        split
        · exact ⟨rfl, rfl, rfl, rfl, fun _ => rfl, fun m hm => by cases hm⟩
        · exact hs.heap b
      · show (setHeap _ _ _ b : Frame V).id < _ ∧ (setHeap _ _ _ b : Frame V).id = φ (setHeap _ _ _ b : Frame V).id
        unfold setHeap
        split
        · exact ⟨hid, rfl⟩
        · rename_i hne
          have hb : b < s.next + 1 := hb
          exact hs.ids b (by omega)
      · show setTable _ _ _ _ p (φ i) = setTable _ _ _ _ p i
        unfold setTable
        by_cases hc : p = s.pos ∧ i = id
        · rw [if_pos hc, if_pos ⟨hc.1, congrArg φ hc.2⟩]
        · rw [if_neg hc, if_neg fun h => hc ⟨h.1, hw.inj i id hi hid h.2⟩]
          exact hs.table p i hi
      · show setTable _ _ _ _ p j = none
        unfold setTable
        rw [if_neg fun h => hj id hid h.2]
        exact hs.other p j hj
      · have ha : setTable _ _ _ _ p i = some a := ha
        unfold setTable at ha
        split at ha
        · cases ha; exact Nat.lt_succ_self _
        · exact Nat.lt_succ_of_lt (hs.addr p i a hi ha)
  · rw [if_neg fun h => hp h.1, if_neg fun h => hp h.1]
    exact .panic _

theorem stackPush_ren (hs : RenSt env.g.numRules φ s s') {id : Nat} (hid : id < env.g.numRules) :
    RenOut ρ (fun x y => RenSt env.g.numRules φ x y ∧ s.next ≤ x.next) (stackPush env id s) (stackPush (env.swap g') (φ id) s') := by
  unfold stackPush
  refine (getFrame_ren hw hs hid).bind ?_
  rintro ⟨a, t⟩ ⟨a', t'⟩ ⟨h1, ht, ha, hn⟩
  dsimp only at h1 ht ha hn ⊢
  subst h1
  rw [ht.stack]
  split
  · refine ⟨⟨ht.pos, ht.next, rfl, ht.counter, ht.h, ht.loopStack, ht.calls, ht.heap, ht.ids, ht.table, ht.other, ht.addr, fun b hb => ?_⟩, hn⟩
    rcases List.mem_cons.mp hb with rfl | hb
    · exact ha
    · exact ht.top b hb
  · exact .panic _

omit hw in
/-- Stashes of the two parses. -/
theorem wipeWith_ren {N : Nat} (hs : RenSt N φ s s') (a : Nat) :
    RenOut ρ (fun x y => (∀ i, i < N → y.1 (φ i) = x.1 i) ∧ (∀ j, (∀ i, i < N → j ≠ φ i) → y.1 j = none) ∧
      (∀ i b, i < N → x.1 i = some b → b < s.next) ∧ RenSt N φ x.2 y.2 ∧ x.2.next = s.next) (wipeWith a s) (wipeWith a s') := by
  unfold wipeWith
  cases hm : (s.heap a).wipemask with
  | none => rw [(hs.heap a).none hm]; exact .panic _
  | some m =>
    obtain ⟨m', hm', he⟩ := (hs.heap a).some m hm
    rw [hm']
    dsimp only
    rw [(hs.heap a).pos]
    refine ⟨fun i hi => ?_, fun j hj => ?_, fun i b hi hb => ?_, ⟨hs.pos, hs.next, hs.stack, hs.counter, hs.h, hs.loopStack, hs.calls, hs.heap, hs.ids,
      fun p i hi => ?_, fun p j hj => ?_, fun p i b hi hb => ?_, hs.top⟩, rfl⟩
    · dsimp only
      rw [he i hi, hs.table _ _ hi]
    · dsimp only
      rw [hs.other _ _ hj]
      split <;> rfl
    · dsimp only at hb
      split at hb
      · exact hs.addr _ _ _ hi hb
      · cases hb
    · dsimp only
      rw [he i hi, hs.table _ _ hi]
    · dsimp only
      rw [hs.other _ _ hj]
      split <;> rfl
    · dsimp only at hb
      split at hb
      · cases hb
      · exact hs.addr _ _ _ hi hb

omit hw in
theorem restoreWith_ren {N : Nat} (hs : RenSt N φ s s') {st st' : Nat → Option Nat} (h1 : ∀ i, i < N → st' (φ i) = st i)
    (h2 : ∀ j, (∀ i, i < N → j ≠ φ i) → st' j = none) (h3 : ∀ i b, i < N → st i = some b → b < s.next) :
    RenSt N φ (restoreWith st s) (restoreWith st' s') := by
  refine ⟨hs.pos, hs.next, hs.stack, hs.counter, hs.h, hs.loopStack, hs.calls, hs.heap, hs.ids, fun p i hi => ?_, fun p j hj => ?_, fun p i a hi ha => ?_, hs.top⟩
  · unfold restoreWith
    dsimp only
    rw [h1 i hi, hs.table _ _ hi]
    split
    · rw [(hs.heap _).pos]
    · rfl
  · unfold restoreWith
    dsimp only
    rw [h2 j hj]
    exact hs.other p j hj
  · unfold restoreWith at ha
    dsimp only at ha
    split at ha
    · rename_i b hb
      split at ha
      · cases ha; exact h3 i a hi hb
      · exact hs.addr _ _ _ hi ha
    · exact hs.addr _ _ _ hi ha

theorem collectMask_ren (hs : RenSt env.g.numRules φ s s') (p : Nat) {id : Nat} (hid : id < env.g.numRules) : ∀ (l : List Nat) (m m' : Nat → Bool),
    (∀ a ∈ l, a < s.next) → (∀ i, i < env.g.numRules → m' (φ i) = m i) →
    RenOut ρ (fun x y => ∀ i, i < env.g.numRules → y (φ i) = x i) (collectMask s.heap p id l m) (collectMask s'.heap p (φ id) l m')
  | [], m, m', _, hm => hm
  | b :: l, m, m', hl, hm => by
    unfold collectMask
    obtain ⟨h1, h2⟩ := hs.ids b (hl b (by simp))
    rw [(hs.heap b).pos, h2]
    split
    · exact .panic _
    · by_cases hc : (s.heap b).pos < p ∨ (s.heap b).id = id
      · rw [if_pos hc, if_pos (hc.imp_right (congrArg φ))]
        exact hm
      · rw [if_neg hc, if_neg fun h => hc (h.imp_right (hw.inj _ _ h1 hid))]
        refine collectMask_ren hs p hid l _ _ (fun a ha => hl a (by simp [ha])) fun i hi => ?_
        by_cases hb : i = (s.heap b).id
        · rw [if_pos hb, if_pos (congrArg φ hb)]
        · rw [if_neg hb, if_neg fun h => hb (hw.inj _ _ hi h1 h)]
          exact hm i hi

omit hw in
theorem growLoop_ren {f f' : Run V H} (hf : RenRun env.g.numRules φ ρ f f') (sh : Bool) (a p : Nat) : ∀ (k : Nat) (s s' : St V H) (r : V), RenSt env.g.numRules φ s s' →
    RenOut ρ (fun x y => (∀ i, i < env.g.numRules → y.1.1 (φ i) = x.1.1 i) ∧ (∀ j, (∀ i, i < env.g.numRules → j ≠ φ i) → y.1.1 j = none) ∧
      (∀ i b, i < env.g.numRules → x.1.1 i = some b → b < x.2.next) ∧ y.1.2 = x.1.2 ∧ RenSt env.g.numRules φ x.2 y.2 ∧ s.next ≤ x.2.next)
        (growLoop env sh f a p k r s) (growLoop (env.swap g') sh f' a p k r s')
  | 0, _, _, _, _ => trivial
  | k + 1, s, s', r, hs => by
    unfold growLoop
    refine (wipeWith_ren hs a).bind ?_
    rintro ⟨st, t⟩ ⟨st', t'⟩ ⟨h1, h2, h3, ht, hn⟩
    dsimp only at h1 h2 h3 ht hn ⊢
    rw [ht.pos]
    have hc := ht.cache a (some r) (some t.pos)
    rw [logIf_ren hc]
    refine (RenOut.same _).bind ?_
    rintro _ _ rfl
    refine (setPos_ren hc p).bind ?_
    rintro t2 t2' ⟨ht2, hn2⟩
    refine (hf t2 t2' ht2).bind ?_
    rintro ⟨q, t3⟩ ⟨q', t3'⟩ ⟨hq, ht3, hn3⟩
    dsimp only at hq ht3 hn3 ⊢
    subst hq
    have hn2 : t2.next = t.next := hn2
    rw [ht3.pos]
    have h3' : ∀ i b, i < env.g.numRules → st i = some b → b < t3.next := fun i b hi hb => by
      have := h3 i b hi hb
      omega
    split
    · exact ⟨h1, h2, h3', rfl, ht3, by show s.next ≤ t3.next; omega⟩
    · cases q' with
      | none => exact ⟨h1, h2, h3', rfl, ht3, by show s.next ≤ t3.next; omega⟩
      | some q =>
        refine (growLoop_ren hf sh a p k t3 t3' q ht3).imp ?_
        rintro x y ⟨i1, i2, i3, i4, i5, i6⟩
        exact ⟨i1, i2, i3, i4, i5, by omega⟩

end
end Joeson
