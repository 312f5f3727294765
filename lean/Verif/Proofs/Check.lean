import Verif.Spec.Grammar
import Verif.Model.Samples
/-! # Deciding `Built` for concrete grammars -/

namespace Joeson

mutual
/-- Decides `Node.Below`. -/
def Node.belowB (N : Nat) : Node → Bool
  | .str _ _ => true
  | .regex _ _ => true
  | .choice _ l => Node.belowBs N l
  | .seq _ _ l => Node.belowBs N l
  | .exist _ n => n.belowB N
  | .look _ n => n.belowB N
  | .not _ n => n.belowB N
  | .pattern _ v none _ _ => v.belowB N
  | .pattern _ v (some j) _ _ => v.belowB N && j.belowB N
  | .ref _ _ => true
  | .rule id => decide (id < N)
/-- For lists. -/
def Node.belowBs (N : Nat) : List Node → Bool
  | [] => true
  | n :: l => n.belowB N && Node.belowBs N l
end

mutual
theorem Node.below_of_belowB {N : Nat} : ∀ n : Node, n.belowB N = true → n.Below N
  | .str _ _, _ => .str
  | .regex _ _, _ => .regex
  | .choice _ l, h => .choice (Node.below_of_belowBs l (by simpa [Node.belowB] using h))
  | .seq _ _ l, h => .seq (Node.below_of_belowBs l (by simpa [Node.belowB] using h))
  | .exist _ n, h => .exist (Node.below_of_belowB n (by simpa [Node.belowB] using h))
  | .look _ n, h => .look (Node.below_of_belowB n (by simpa [Node.belowB] using h))
  | .not _ n, h => .not (Node.below_of_belowB n (by simpa [Node.belowB] using h))
  | .pattern _ v none _ _, h => .pattern (Node.below_of_belowB v (by simpa [Node.belowB] using h))
      (by intro j hj; cases hj)
  | .pattern _ v (some j) _ _, h => by
    simp only [Node.belowB, Bool.and_eq_true] at h
    refine .pattern (Node.below_of_belowB v h.1) ?_
    intro j' hj
    cases hj
    exact Node.below_of_belowB j h.2
  | .ref _ _, _ => .ref
  | .rule id, h => .rule (by simpa [Node.belowB] using h)
theorem Node.below_of_belowBs {N : Nat} : ∀ l : List Node, Node.belowBs N l = true → ∀ n ∈ l, n.Below N
  | [], _, n, hn => (List.not_mem_nil hn).elim
  | m :: l, h, n, hn => by
    simp only [Node.belowBs, Bool.and_eq_true] at h
    rcases List.mem_cons.mp hn with hn | hn
    · exact hn ▸ Node.below_of_belowB m h.1
    · exact Node.below_of_belowBs l h.2 n hn
end

/-- Is this a link to rule below `N`? -/
def Node.linkB (N : Nat) : Node → Bool
  | .rule id => decide (id < N)
  | _ => false

/-- Is the root a rank? -/
def Grammar.rootB (g : Grammar) : Bool :=
  match g.root with
  | .choice i l => i.label == "" && i.cb == none && l.all (Node.linkB g.numRules)
  | _ => false

theorem Grammar.built_of_checks (g : Grammar) (names : List (String × Nat)) (hl : g.lookup = Sample.lookupIn names)
    (hn : (names.all fun p => decide (p.2 < g.numRules)) = true)
    (hr : (g.rules.all fun n => n.belowB g.numRules && !Node.linkB (g.numRules) n) = true)
    (h : g.rootB = true) : g.Built := by
  rw [List.all_eq_true] at hn hr
  have hb : ∀ n ∈ g.rules, n.Below g.numRules := fun n hm => by
    have := hr n hm
    simp only [Bool.and_eq_true] at this
    exact Node.below_of_belowB n this.1
  refine ⟨hb, ?_, ?_, ?_⟩
  · rintro n hm id rfl
    have := hr _ hm
    simp only [Node.belowB, Node.linkB, Bool.and_eq_true, Bool.not_eq_true'] at this
    rw [this.1] at this
    exact absurd this.2 (by simp)
  · intro nm id hnm
    rw [hl] at hnm
    unfold Sample.lookupIn at hnm
    cases hf : names.find? fun p => p.1 == nm with
    | none => rw [hf] at hnm; cases hnm
    | some p =>
      rw [hf] at hnm
      cases hnm
      simpa using hn p (List.mem_of_find?_eq_some hf)
  · unfold Grammar.rootB at h
    split at h
    · rename_i i l hroot
      simp only [Bool.and_eq_true, beq_iff_eq, List.all_eq_true] at h
      refine ⟨i, l, hroot, h.1.1, h.1.2, fun c hc => ?_⟩
      have hc := h.2 c hc
      unfold Node.linkB at hc
      split at hc
      · exact ⟨_, rfl, by simpa using hc⟩
      · cases hc
    · cases h

mutual
/-- Decides `Consumes` on nodes without regular expressions. -/
def Node.consumesB (g : Grammar) (nn : Nat → Bool) : Node → Bool
  | .str _ b => !b.isEmpty
  | .regex _ _ => false
  | .choice _ l => Node.consumesAll g nn l
  | .seq _ _ l => Node.consumesAny g nn l
  | .exist _ _ => false
  | .look _ _ => false
  | .not _ _ => false
  | .pattern _ v _ mn _ => decide (0 < mn) && v.consumesB g nn
  | .ref _ nm => match g.lookup nm with
    | some id => nn id
    | none => false
  | .rule id => nn id
/-- All alternatives consume. -/
def Node.consumesAll (g : Grammar) (nn : Nat → Bool) : List Node → Bool
  | [] => true
  | n :: l => n.consumesB g nn && Node.consumesAll g nn l
/-- Some item consumes. -/
def Node.consumesAny (g : Grammar) (nn : Nat → Bool) : List Node → Bool
  | [] => false
  | n :: l => n.consumesB g nn || Node.consumesAny g nn l
end

mutual
theorem Node.consumes_of {g : Grammar} {nn : Nat → Bool} : ∀ n : Node, n.consumesB g nn = true →
    Consumes g (fun id => nn id = true) n
  | .str _ b, h => .str (by rintro rfl; simp [Node.consumesB] at h)
  | .regex _ _, h => by simp [Node.consumesB] at h
  | .choice _ l, h => .choice (Node.consumes_of_all l (by simpa [Node.consumesB] using h))
  | .seq _ _ l, h => by
    obtain ⟨c, hc, hh⟩ := Node.consumes_of_any l (by simpa [Node.consumesB] using h)
    exact .seq hc hh
  | .exist _ n, h => by simp [Node.consumesB] at h
  | .look _ n, h => by simp [Node.consumesB] at h
  | .not _ n, h => by simp [Node.consumesB] at h
  | .pattern _ v j mn mx, h => by
    simp only [Node.consumesB, Bool.and_eq_true, decide_eq_true_eq] at h
    exact .pattern h.1 (Node.consumes_of v h.2)
  | .ref _ nm, h => by
    simp only [Node.consumesB] at h
    cases hl : g.lookup nm with
    | none => rw [hl] at h; cases h
    | some id => rw [hl] at h; exact .ref hl h
  | .rule id, h => .rule (by simpa [Node.consumesB] using h)
theorem Node.consumes_of_all {g : Grammar} {nn : Nat → Bool} : ∀ l : List Node, Node.consumesAll g nn l = true →
    ∀ n ∈ l, Consumes g (fun id => nn id = true) n
  | [], _, n, hn => (List.not_mem_nil hn).elim
  | m :: l, h, n, hn => by
    simp only [Node.consumesAll, Bool.and_eq_true] at h
    rcases List.mem_cons.mp hn with hn | hn
    · exact hn ▸ Node.consumes_of m h.1
    · exact Node.consumes_of_all l h.2 n hn
theorem Node.consumes_of_any {g : Grammar} {nn : Nat → Bool} : ∀ l : List Node, Node.consumesAny g nn l = true →
    ∃ n, n ∈ l ∧ Consumes g (fun id => nn id = true) n
  | [], h => by simp [Node.consumesAny] at h
  | m :: l, h => by
    simp only [Node.consumesAny, Bool.or_eq_true] at h
    rcases h with h | h
    · exact ⟨m, List.mem_cons_self, Node.consumes_of m h⟩
    · obtain ⟨n, h1, h2⟩ := Node.consumes_of_any l h
      exact ⟨n, List.mem_cons_of_mem _ h1, h2⟩
end

mutual
/-- Decides `Node.Guarded` on nodes without repeated regular expressions. -/
def Node.guardedB (g : Grammar) (nn : Nat → Bool) : Node → Bool
  | .str _ _ => true
  | .regex _ _ => true
  | .choice _ l => Node.guardedAll g nn l
  | .seq _ _ l => Node.guardedAll g nn l
  | .exist _ n => n.guardedB g nn
  | .look _ n => n.guardedB g nn
  | .not _ n => n.guardedB g nn
  | .pattern _ v none _ _ => v.consumesB g nn && v.guardedB g nn
  | .pattern _ v (some j) _ _ => (v.consumesB g nn || j.consumesB g nn) && (v.guardedB g nn && j.guardedB g nn)
  | .ref _ _ => true
  | .rule _ => true
/-- For lists. -/
def Node.guardedAll (g : Grammar) (nn : Nat → Bool) : List Node → Bool
  | [] => true
  | n :: l => n.guardedB g nn && Node.guardedAll g nn l
end

mutual
theorem Node.guarded_of {g : Grammar} {nn : Nat → Bool} : ∀ n : Node, n.guardedB g nn = true →
    n.Guarded g (fun id => nn id = true)
  | .str _ _, _ => .str
  | .regex _ _, _ => .regex
  | .choice _ l, h => .choice (Node.guarded_of_all l (by simpa [Node.guardedB] using h))
  | .seq _ _ l, h => .seq (Node.guarded_of_all l (by simpa [Node.guardedB] using h))
  | .exist _ n, h => .exist (Node.guarded_of n (by simpa [Node.guardedB] using h))
  | .look _ n, h => .look (Node.guarded_of n (by simpa [Node.guardedB] using h))
  | .not _ n, h => .not (Node.guarded_of n (by simpa [Node.guardedB] using h))
  | .pattern _ v none _ _, h => by
    simp only [Node.guardedB, Bool.and_eq_true] at h
    exact .pattern (Or.inl (Node.consumes_of v h.1)) (Node.guarded_of v h.2) (by intro j hj; cases hj)
  | .pattern _ v (some j) _ _, h => by
    simp only [Node.guardedB, Bool.and_eq_true, Bool.or_eq_true] at h
    refine .pattern ?_ (Node.guarded_of v h.2.1) ?_
    · rcases h.1 with h | h
      · exact Or.inl (Node.consumes_of v h)
      · exact Or.inr ⟨j, rfl, Node.consumes_of j h⟩
    · intro j' hj
      cases hj
      exact Node.guarded_of j h.2.2
  | .ref _ _, _ => .ref
  | .rule id, _ => .rule
theorem Node.guarded_of_all {g : Grammar} {nn : Nat → Bool} : ∀ l : List Node, Node.guardedAll g nn l = true →
    ∀ n ∈ l, n.Guarded g (fun id => nn id = true)
  | [], _, n, hn => (List.not_mem_nil hn).elim
  | m :: l, h, n, hn => by
    simp only [Node.guardedAll, Bool.and_eq_true] at h
    rcases List.mem_cons.mp hn with hn | hn
    · exact hn ▸ Node.guarded_of m h.1
    · exact Node.guarded_of_all l h.2 n hn
end

theorem Grammar.guarded_of_checks (g : Grammar) (nn : Nat → Bool)
    (h1 : ((List.range g.rules.length).all fun id => !nn id ||
      match g.rules[id]? with
      | some n => n.consumesB g nn
      | none => true) = true)
    (h2 : (g.rules.all fun n => n.guardedB g nn) = true) : g.Guarded := by
  rw [List.all_eq_true] at h1 h2
  refine ⟨fun id => nn id = true, fun id n hid hn => ?_, fun n hn => Node.guarded_of n (h2 n hn)⟩
  have hlt : id < g.rules.length := (List.getElem?_eq_some_iff.mp hn).1
  have h1 := h1 id (List.mem_range.mpr hlt)
  rw [hid, hn] at h1
  simp only [Bool.not_true, Bool.false_or] at h1
  exact Node.consumes_of n h1

end Joeson
