import Verif.Spec.Overlap
import Verif.Proofs.Overlap
/-!
# C90: the flag and lazy values
-/

namespace Joeson
open Spec

theorem setDebug_skipCache {g : Grammar} {f : Nat → Bool} {n : Node} (hn : n ∈ (g.setDebug f).rules) (hs : n.info.skipCache = true) :
    ∃ n ∈ g.rules, n.info.skipCache = true := by
  obtain ⟨i, hi, he⟩ := List.getElem_of_mem hn
  have hi' : (g.setDebug f).rules[i]? = some n := by rw [List.getElem?_eq_getElem hi, he]
  rw [Grammar.setDebug_rules] at hi'
  cases hb : g.rules[i]? with
  | none => rw [hb] at hi'; cases hi'
  | some b =>
    rw [hb] at hi'
    cases hi'
    refine ⟨b, List.mem_of_getElem? hb, ?_⟩
    cases b with
    | rule j => exact hs
    | _ => exact hs

theorem run_append (s : StackState) (l l' : List StackStep) : s.run (l ++ l') = (s.run l).run l' := List.foldl_append ..

theorem run_cons (s : StackState) (x : StackStep) (l : List StackStep) : s.run (x :: l) = (s.step x).run l := rfl

/-- Calls inside a call leave the flag and what the call remembers. -/
theorem nested_run {l : List StackStep} (h : Nested l) : ∀ s : StackState, (s.run l).flag = s.flag ∧
    ∀ id, (∀ d, StackStep.enter id d ∉ l) → (s.run l).old id = s.old id := by
  induction h with
  | nil => exact fun s => ⟨rfl, fun _ _ => rfl⟩
  | @call id debug inner rest hi hr own ih1 ih2 =>
    intro s
    rw [run_cons, run_append, run_cons]
    have h1 := ih1 (s.step (.enter id debug))
    have hold : ((s.step (.enter id debug)).run inner).old id = some s.flag := by
      rw [h1.2 id own]
      exact if_pos rfl
    have hst : ((s.step (.enter id debug)).run inner).step (.leave id) =
        { flag := s.flag, old := fun i => if i = id then none else ((s.step (.enter id debug)).run inner).old i } := by
      simp only [StackState.step] at hold ⊢
      rw [hold]
    rw [hst]
    refine ⟨(ih2 _).1, fun j hj => ?_⟩
    have hne : j ≠ id := fun e => hj debug (by rw [e]; exact List.mem_cons_self ..)
    rw [(ih2 _).2 j (fun d hd => hj d (by simp [hd]))]
    dsimp only
    rw [if_neg hne, h1.2 j (fun d hd => hj d (by simp [hd]))]
    exact if_neg hne

theorem step_leave (s : StackState) (id : Nat) : s.step (.leave id) = match s.old id with
    | none => s
    | some b => { flag := b, old := fun i => if i = id then none else s.old i } := rfl

/-- The flag stays `b` if nobody turns it on, or if it is on. -/
theorem run_flag {b : Bool} : ∀ (l : List StackStep) {s : StackState}, (∀ id, StackStep.enter id true ∈ l → b = true) →
    s.flag = b → (∀ i x, s.old i = some x → x = b) → (s.run l).flag = b
  | [], _, _, hs, _ => hs
  | x :: l, s, hl, hs, ho => by
    rw [run_cons]
    refine run_flag l (fun id hid => hl id (List.mem_cons_of_mem _ hid)) ?_ ?_
    · cases x with
      | enter id d =>
        cases d with
        | true =>
          have := hl id (List.mem_cons_self ..)
          subst this
          simp [StackState.step]
        | false => simp [StackState.step, hs]
      | leave id =>
        rw [step_leave]
        cases hi : s.old id with
        | none => exact hs
        | some y => exact ho id y hi
    · intro i y hy
      cases x with
      | enter id d =>
        simp only [StackState.step] at hy
        split at hy
        · cases hy; exact hs
        · exact ho i y hy
      | leave id =>
        rw [step_leave] at hy
        cases hi : s.old id with
        | none => rw [hi] at hy; exact ho i y hy
        | some z =>
          rw [hi] at hy
          dsimp only at hy
          split at hy
          · cases hy
          · exact ho i y hy

section
variable {α : Type} {f : α}

theorem lazy_run_append (s : LazyState α) (l l' : List Nat) : s.run f (l ++ l') = (s.run f l).run f l' := List.foldl_append ..

theorem lazy_run_cons (s : LazyState α) (i : Nat) (l : List Nat) : s.run f (i :: l) = (s.step f i).run f l := rfl

/-- What holds at any moment. -/
structure LazyOk (f : α) (s : LazyState α) : Prop where
  val : ∀ x, s.val = some x → x = f
  store : ∀ i x, s.at_ i = .store x → x = f
  load : ∀ i, s.at_ i = .load → s.val ≠ none
  done : ∀ i x, s.at_ i = .done x → x = f
  doneSet : ∀ i x, s.at_ i = .done x → s.val ≠ none
  crashed : ∀ i, s.at_ i ≠ .crashed
  evals : ∀ i ∈ s.evals, s.at_ i ≠ .begin ∧ s.at_ i ≠ .evaluate
  nodup : s.evals.Nodup

theorem LazyOk.init : LazyOk f (LazyState.init α) :=
  ⟨(by intro x h; cases h), (by intro i x h; cases h), (by intro i h; cases h), (by intro i x h; cases h), (by intro i x h; cases h),
    (by intro i h; cases h), (by intro i h; cases h), List.nodup_nil⟩

theorem LazyOk.step {s : LazyState α} (h : LazyOk f s) (i : Nat) : LazyOk f (s.step f i) := by
  have hv : s.val = none ∨ s.val = some f := by
    cases hx : s.val with
    | none => exact Or.inl rfl
    | some x => rw [h.val x hx]; exact Or.inr rfl
  unfold LazyState.step
  cases hi : s.at_ i with
  | begin =>
    rcases hv with hv | hv
    · simp only [hv, Option.isNone_none, if_true]
      refine ⟨(by intro x hx; cases hx), fun j x => ?_, fun j => ?_, fun j x => ?_, fun j x => ?_, fun j => ?_, fun j hj => ?_, h.nodup⟩ <;> dsimp only <;> split
      all_goals first | (intro hx; cases hx; done) | skip
      · exact h.store j x
      · exact fun hx => hv ▸ h.load j hx
      · exact h.done j x
      · exact fun hx => hv ▸ h.doneSet j x hx
      · exact h.crashed j
      · subst j; exact absurd hi (h.evals i hj).1
      · exact h.evals j hj
    · simp only [hv, Option.isNone_some, Bool.false_eq_true, if_false]
      refine ⟨fun x hx => by cases hx; rfl, fun j x => ?_, fun j => ?_, fun j x => ?_, fun j x => ?_, fun j => ?_, fun j hj => ?_, h.nodup⟩ <;> dsimp only <;> split
      all_goals first | (intro hx; cases hx; done) | skip
      · exact h.store j x
      · exact fun _ hx => by cases hx
      · exact fun _ hx => by cases hx
      · exact h.done j x
      · exact fun _ hx => by cases hx
      · exact h.crashed j
      · exact ⟨by simp, by simp⟩
      · exact h.evals j hj
  | evaluate =>
    dsimp only
    have hni : i ∉ s.evals := fun hx => (h.evals i hx).2 hi
    refine ⟨h.val, fun j x => ?_, fun j => ?_, fun j x => ?_, fun j x => ?_, fun j => ?_, fun j hj => ?_, List.nodup_cons.mpr ⟨hni, h.nodup⟩⟩ <;> dsimp only <;> split
    all_goals first | (intro hx; cases hx; done) | skip
    · exact fun hx => by cases hx; rfl
    · exact h.store j x
    · exact h.load j
    · exact h.done j x
    · exact h.doneSet j x
    · exact h.crashed j
    · exact ⟨by simp, by simp⟩
    · rename_i hne
      exact h.evals j ((List.mem_cons.mp hj).resolve_left hne)
  | store x =>
    dsimp only
    have hxf := h.store i x hi
    subst hxf
    refine ⟨fun y hy => by cases hy; rfl, fun j y => ?_, fun j => ?_, fun j y => ?_, fun j y => ?_, fun j => ?_, fun j hj => ?_, h.nodup⟩ <;> dsimp only <;> split
    all_goals first | (intro hx; cases hx; done) | skip
    · exact h.store j y
    · exact fun _ hx => by cases hx
    · exact fun _ hx => by cases hx
    · exact h.done j y
    · exact fun _ hx => by cases hx
    · exact h.crashed j
    · exact ⟨by simp, by simp⟩
    · exact h.evals j hj
  | load =>
    rcases hv with hv | hv
    · exact absurd hv (h.load i hi)
    · dsimp only
      simp only [hv]
      refine ⟨fun y hy => by cases hy; rfl, fun j y => ?_, fun j => ?_, fun j y => ?_, fun j y => ?_, fun j => ?_, fun j hj => ?_, h.nodup⟩ <;> dsimp only <;> split
      all_goals first | (intro hx; cases hx; done) | skip
      · exact h.store j y
      · exact fun _ hx => by cases hx
      · exact fun hx => by cases hx; rfl
      · exact h.done j y
      · exact fun _ hx => by cases hx
      · exact fun _ hx => by cases hx
      · exact h.crashed j
      · exact ⟨by simp, by simp⟩
      · exact h.evals j hj
  | done x => exact h
  | crashed => exact absurd hi (h.crashed i)

theorem LazyOk.run : ∀ (l : List Nat) {s : LazyState α}, LazyOk f s → LazyOk f (s.run f l)
  | [], _, h => h
  | i :: l, _, h => LazyOk.run l (h.step i)

/-- Steps left. -/
def lazyRank : LazyAt α → Nat
  | .begin => 4
  | .evaluate => 3
  | .store _ => 2
  | .load => 1
  | _ => 0

theorem step_at (s : LazyState α) {i j : Nat} (h : j ≠ i) : (s.step f i).at_ j = s.at_ j := by
  unfold LazyState.step
  cases s.at_ i with
  | load => cases hv : s.val <;> exact if_neg h
  | done x => rfl
  | crashed => rfl
  | _ => exact if_neg h

theorem lazy_step_rank (s : LazyState α) (i : Nat) : lazyRank ((s.step f i).at_ i) ≤ lazyRank (s.at_ i) - 1 := by
  unfold LazyState.step
  cases hi : s.at_ i with
  | begin => cases hv : s.val <;> simp [lazyRank]
  | load => cases hv : s.val <;> simp [lazyRank]
  | done x => simp [hi, lazyRank]
  | crashed => simp [hi, lazyRank]
  | _ => simp [lazyRank]

theorem lazy_rank (i : Nat) : ∀ (l : List Nat) (s : LazyState α), lazyRank ((s.run f l).at_ i) ≤ lazyRank (s.at_ i) - l.count i
  | [], s => by simp [LazyState.run]
  | j :: l, s => by
    rw [lazy_run_cons]
    have ih := lazy_rank i l (s.step f j)
    by_cases h : i = j
    · subst h
      have := lazy_step_rank (f := f) s i
      rw [List.count_cons_self]
      omega
    · rw [step_at s h] at ih
      rw [List.count_cons_of_ne (fun e => h e.symm)]
      exact ih

theorem step_evals (s : LazyState α) (i : Nat) : (s.step f i).evals = s.evals ∨ (s.at_ i = .evaluate ∧ (s.step f i).evals = i :: s.evals) := by
  unfold LazyState.step
  cases hi : s.at_ i with
  | evaluate => exact Or.inr ⟨rfl, rfl⟩
  | load => cases hv : s.val <;> exact Or.inl rfl
  | _ => exact Or.inl rfl

theorem lazy_evals_mem : ∀ (l : List Nat) (s : LazyState α) (i : Nat), i ∈ (s.run f l).evals → i ∈ s.evals ∨ i ∈ l
  | [], s, i, h => Or.inl h
  | j :: l, s, i, h => by
    rcases lazy_evals_mem l (s.step f j) i h with h | h
    · rcases step_evals (f := f) s j with he | ⟨-, he⟩
      · rw [he] at h; exact Or.inl h
      · rw [he] at h
        rcases List.mem_cons.mp h with rfl | h
        · exact Or.inr (List.mem_cons_self ..)
        · exact Or.inl h
    · exact Or.inr (List.mem_cons_of_mem _ h)

theorem lazy_untouched : ∀ (l : List Nat) (s : LazyState α) {j : Nat}, j ∉ l → (s.run f l).at_ j = s.at_ j
  | [], _, _, _ => rfl
  | i :: l, s, j, h => by
    have hne : j ≠ i := fun e => h (by rw [e]; exact List.mem_cons_self ..)
    rw [lazy_run_cons, lazy_untouched l _ (fun hj => h (List.mem_cons_of_mem _ hj)), step_at s hne]

theorem step_val (s : LazyState α) (i : Nat) (h : s.val ≠ none) : (s.step f i).val ≠ none := by
  unfold LazyState.step
  cases hi : s.at_ i with
  | store x => intro hx; cases hx
  | load =>
    cases hv : s.val with
    | none => exact absurd hv h
    | some x => exact fun hx => h (by rw [hv] at hx ⊢; exact hx)
  | _ => exact h

/-- Once there is a value, a call that is not evaluating does not begin to. -/
theorem lazy_late : ∀ (l : List Nat) {s : LazyState α} {j : Nat}, s.val ≠ none → s.at_ j ≠ .evaluate → j ∉ s.evals → j ∉ (s.run f l).evals
  | [], _, _, _, _, h => h
  | i :: l, s, j, hv, ha, he => by
    rw [lazy_run_cons]
    refine lazy_late l (step_val s i hv) ?_ ?_
    · by_cases h : j = i
      · subst h
        unfold LazyState.step
        cases hj : s.at_ j with
        | begin =>
          cases hx : s.val with
          | none => exact absurd hx hv
          | some x => simp
        | evaluate => exact absurd hj ha
        | load => cases hx : s.val <;> simp
        | store x => simp
        | done x => simp [hj]
        | crashed => simp [hj]
      · rw [step_at s h]; exact ha
    · rcases step_evals (f := f) s i with hx | ⟨hx, hy⟩
      · rw [hx]; exact he
      · rw [hy]
        intro hm
        rcases List.mem_cons.mp hm with rfl | hm
        · exact ha hx
        · exact he hm

end

end Joeson
