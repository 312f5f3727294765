import Verif.Spec.NoLeftRec
/-!
# A check for the absence of left recursion

The analysis of Spec/NoLeftRec.lean as a computation. It takes for granted that regular expressions match no empty text,
which is a hypothesis of the theorems.
-/

namespace Joeson

mutual
/-- Decides `Consumes` for the rules `nn`. -/
def consumesB (g : Grammar) (nn : List Nat) : Node → Bool
  | .str _ b => !b.isEmpty
  | .regex _ _ => true
  | .choice _ l => consumesAllB g nn l
  | .seq _ _ l => consumesAnyB g nn l
  | .pattern _ v _ mn _ => decide (0 < mn) && consumesB g nn v
  | .ref _ nm => match g.lookup nm with
    | some id => nn.contains id
    | none => false
  | .rule id => nn.contains id
  | .exist _ _ | .look _ _ | .not _ _ => false
/-- All of them. -/
def consumesAllB (g : Grammar) (nn : List Nat) : List Node → Bool
  | [] => true
  | n :: l => consumesB g nn n && consumesAllB g nn l
/-- One of them. -/
def consumesAnyB (g : Grammar) (nn : List Nat) : List Node → Bool
  | [] => false
  | n :: l => consumesB g nn n || consumesAnyB g nn l
end

mutual
/-- Decides `Node.Guarded`. -/
def guardedB (g : Grammar) (nn : List Nat) : Node → Bool
  | .choice _ l | .seq _ _ l => guardedAllB g nn l
  | .exist _ n | .look _ n | .not _ n => guardedB g nn n
  | .pattern _ v none _ _ => consumesB g nn v && guardedB g nn v
  | .pattern _ v (some j) _ _ => (consumesB g nn v || consumesB g nn j) && guardedB g nn v && guardedB g nn j
  | .str _ _ | .regex _ _ | .ref _ _ | .rule _ => true
/-- All of them. -/
def guardedAllB (g : Grammar) (nn : List Nat) : List Node → Bool
  | [] => true
  | n :: l => guardedB g nn n && guardedAllB g nn l
end

mutual
/-- The rules of `First`, and possibly more. -/
def firsts (g : Grammar) (nn : List Nat) : Node → List Nat
  | .rule id => [id]
  | .ref _ nm => (g.lookup nm).toList
  | .choice _ l => firstsAll g nn l
  | .seq _ _ l => firstsSeq g nn l
  | .exist _ n | .look _ n | .not _ n => firsts g nn n
  | .pattern _ v none _ _ => firsts g nn v
  | .pattern _ v (some j) _ _ => firsts g nn v ++ if consumesB g nn v then [] else firsts g nn j
  | .str _ _ | .regex _ _ => []
/-- Of any. -/
def firstsAll (g : Grammar) (nn : List Nat) : List Node → List Nat
  | [] => []
  | n :: l => firsts g nn n ++ firstsAll g nn l
/-- Of those that can be reached without consuming. -/
def firstsSeq (g : Grammar) (nn : List Nat) : List Node → List Nat
  | [] => []
  | n :: l => firsts g nn n ++ if consumesB g nn n then [] else firstsSeq g nn l
end

mutual
/-- No regular expression of the node matches the empty text. -/
def Node.SolidRe : Node → Prop
  | .regex _ re => ∀ bs, re.find bs ≠ some (0, 0)
  | .choice _ l | .seq _ _ l => SolidAll l
  | .exist _ n | .look _ n | .not _ n => n.SolidRe
  | .pattern _ v none _ _ => v.SolidRe
  | .pattern _ v (some j) _ _ => v.SolidRe ∧ j.SolidRe
  | .str _ _ | .ref _ _ | .rule _ => True
/-- All of them. -/
def SolidAll : List Node → Prop
  | [] => True
  | n :: l => n.SolidRe ∧ SolidAll l
end

/-- The whole analysis: the rules `nn` consume, repetitions are guarded, and `rk` decreases along `First`. -/
def noLeftRecB (g : Grammar) (nn : List Nat) (rk : Nat → Nat) : Bool :=
  (nn.all fun id => match g.rules[id]? with
    | some n => consumesB g nn n
    | none => true) &&
  guardedAllB g nn g.rules &&
  (List.range g.rules.length).all fun id => match g.rules[id]? with
    | some n => (firsts g nn n).all fun id' => decide (rk id' < rk id)
    | none => true

section
variable {g : Grammar} {nn : List Nat}

mutual
theorem consumesB_ok : ∀ (n : Node), n.SolidRe → consumesB g nn n = true → Consumes g (· ∈ nn) n
  | .str i b, _, h => .str (by simpa [consumesB] using h)
  | .regex i re, hs, _ => .regex hs
  | .choice i l, hs, h => .choice (consumesAllB_ok l hs h)
  | .seq i r l, hs, h => by
    obtain ⟨c, hc, h⟩ := consumesAnyB_ok l hs h
    exact .seq hc h
  | .pattern i v none mn mx, hs, h => by
    simp only [consumesB, Bool.and_eq_true, decide_eq_true_eq] at h
    exact .pattern h.1 (consumesB_ok v hs h.2)
  | .pattern i v (some j) mn mx, hs, h => by
    simp only [consumesB, Bool.and_eq_true, decide_eq_true_eq] at h
    exact .pattern h.1 (consumesB_ok v hs.1 h.2)
  | .ref i nm, _, h => by
    simp only [consumesB] at h
    split at h
    · rename_i id hl
      exact .ref hl (by simpa using h)
    · cases h
  | .rule id, _, h => .rule (by simpa [consumesB] using h)
  | .exist _ _, _, h => by cases h
  | .look _ _, _, h => by cases h
  | .not _ _, _, h => by cases h
theorem consumesAllB_ok : ∀ (l : List Node), SolidAll l → consumesAllB g nn l = true → ∀ c ∈ l, Consumes g (· ∈ nn) c
  | [], _, _, c, hc => by simp at hc
  | n :: l, hs, h, c, hc => by
    simp only [consumesAllB, Bool.and_eq_true] at h
    have h1 := consumesB_ok n hs.1 h.1
    rcases List.mem_cons.mp hc with rfl | hc
    · exact h1
    · exact consumesAllB_ok l hs.2 h.2 c hc
theorem consumesAnyB_ok : ∀ (l : List Node), SolidAll l → consumesAnyB g nn l = true → ∃ c ∈ l, Consumes g (· ∈ nn) c
  | [], _, h => by cases h
  | n :: l, hs, h => by
    simp only [consumesAnyB, Bool.or_eq_true] at h
    rcases h with h | h
    · exact ⟨n, List.mem_cons_self .., consumesB_ok n hs.1 h⟩
    · obtain ⟨c, hc, h⟩ := consumesAnyB_ok l hs.2 h
      exact ⟨c, List.mem_cons_of_mem _ hc, h⟩
end

mutual
theorem guardedB_ok : ∀ (n : Node), n.SolidRe → guardedB g nn n = true → n.Guarded g (· ∈ nn)
  | .str i b, _, _ => .str
  | .regex i re, _, _ => .regex
  | .ref i nm, _, _ => .ref
  | .rule id, _, _ => .rule
  | .choice i l, hs, h => .choice (guardedAllB_ok l hs h)
  | .seq i r l, hs, h => .seq (guardedAllB_ok l hs h)
  | .exist i n, hs, h => .exist (guardedB_ok n hs h)
  | .look i n, hs, h => .look (guardedB_ok n hs h)
  | .not i n, hs, h => .not (guardedB_ok n hs h)
  | .pattern i v none mn mx, hs, h => by
    simp only [guardedB, Bool.and_eq_true] at h
    exact .pattern (.inl (consumesB_ok v hs h.1)) (guardedB_ok v hs h.2) (by simp)
  | .pattern i v (some j) mn mx, hs, h => by
    simp only [guardedB, Bool.and_eq_true, Bool.or_eq_true] at h
    refine .pattern ?_ (guardedB_ok v hs.1 h.1.2) ?_
    · rcases h.1.1 with h | h
      · exact .inl (consumesB_ok v hs.1 h)
      · exact .inr ⟨j, rfl, consumesB_ok j hs.2 h⟩
    · intro c hc
      cases hc
      exact guardedB_ok j hs.2 h.2
theorem guardedAllB_ok : ∀ (l : List Node), SolidAll l → guardedAllB g nn l = true → ∀ c ∈ l, c.Guarded g (· ∈ nn)
  | [], _, _, c, hc => by simp at hc
  | n :: l, hs, h, c, hc => by
    simp only [guardedAllB, Bool.and_eq_true] at h
    have h1 := guardedB_ok n hs.1 h.1
    rcases List.mem_cons.mp hc with rfl | hc
    · exact h1
    · exact guardedAllB_ok l hs.2 h.2 c hc
end

theorem solidAll_mem : ∀ {l : List Node}, SolidAll l → ∀ c ∈ l, c.SolidRe
  | n :: l, h, c, hc => by
    rcases List.mem_cons.mp hc with rfl | hc
    · exact h.1
    · exact solidAll_mem h.2 c hc

theorem firstsAll_mem {c : Node} {id : Nat} : ∀ {l : List Node}, c ∈ l → id ∈ firsts g nn c → id ∈ firstsAll g nn l
  | n :: l, hc, h => by
    rw [firstsAll]
    rcases List.mem_cons.mp hc with rfl | hc
    · exact List.mem_append_left _ h
    · exact List.mem_append_right _ (firstsAll_mem hc h)

theorem firstsSeq_mem {c : Node} {post : List Node} {id : Nat} (h : id ∈ firsts g nn c) : ∀ {pre : List Node}, SolidAll (pre ++ c :: post) →
    (∀ x ∈ pre, ¬ Consumes g (· ∈ nn) x) → id ∈ firstsSeq g nn (pre ++ c :: post)
  | [], _, _ => by
    rw [List.nil_append, firstsSeq]
    exact List.mem_append_left _ h
  | n :: pre, hs, hn => by
    rw [List.cons_append, firstsSeq]
    refine List.mem_append_right _ ?_
    rw [if_neg fun hc => hn n (List.mem_cons_self ..) (consumesB_ok n hs.1 hc)]
    exact firstsSeq_mem h hs.2 fun x hx => hn x (List.mem_cons_of_mem _ hx)

theorem firsts_mem {n : Node} {id : Nat} (h : First g (· ∈ nn) n id) (hs : n.SolidRe) : id ∈ firsts g nn n := by
  induction h with
  | rule => simp [firsts]
  | ref h => simp [firsts, h]
  | choice hc _ ih => exact firstsAll_mem hc (ih (solidAll_mem hs _ hc))
  | seq hp _ ih => exact firstsSeq_mem (ih (solidAll_mem hs _ (by simp))) hs hp
  | exist _ ih => exact ih hs
  | look _ ih => exact ih hs
  | not _ ih => exact ih hs
  | @patValue i v j mn mx id _ ih =>
    cases j with
    | none => exact ih hs
    | some j => rw [firsts]; exact List.mem_append_left _ (ih hs.1)
  | @patJoin i v j mn mx id hc _ ih =>
    rw [firsts, if_neg fun h => hc (consumesB_ok v hs.1 h)]
    exact List.mem_append_right _ (ih hs.2)

/-- A grammar that passes the check has no left recursion. -/
theorem noLeftRecB_ok {rk : Nat → Nat} (hs : SolidAll g.rules) (h : noLeftRecB g nn rk = true) : g.NoLeftRec := by
  simp only [noLeftRecB, Bool.and_eq_true, List.all_eq_true, List.mem_range] at h
  obtain ⟨⟨h1, h2⟩, h3⟩ := h
  refine ⟨(· ∈ nn), ?_, guardedAllB_ok _ hs h2, ?_⟩
  · intro id n hid hn
    have := h1 id hid
    rw [hn] at this
    exact consumesB_ok n (solidAll_mem hs n (List.mem_of_getElem? hn)) this
  · have key : ∀ a b, Reaches g (· ∈ nn) a b → rk b < rk a := by
      intro a b hr
      induction hr with
      | @one id body id' hb hf =>
        have hlt : id < g.rules.length := (List.getElem?_eq_some_iff.mp hb).1
        have := h3 id hlt
        rw [hb] at this
        simp only [List.all_eq_true, decide_eq_true_eq] at this
        exact this id' (firsts_mem hf (solidAll_mem hs body (List.mem_of_getElem? hb)))
      | trans _ _ h1 h2 => exact Nat.lt_trans h2 h1
    exact fun id hr => Nat.lt_irrefl _ (key id id hr)

end
end Joeson
