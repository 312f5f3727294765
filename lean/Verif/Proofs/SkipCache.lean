import Verif.Proofs.Means
/-! # The meaning of a grammar does not mention caching -/

namespace Joeson
variable {V : Type}

/-- Set the `skipCache` flag of a node. -/
def Node.setSkip (b : Bool) : Node → Node
  | .str i s => .str { i with skipCache := b } s
  | .regex i re => .regex { i with skipCache := b } re
  | .choice i l => .choice { i with skipCache := b } l
  | .seq i r l => .seq { i with skipCache := b } r l
  | .exist i n => .exist { i with skipCache := b } n
  | .look i n => .look { i with skipCache := b } n
  | .not i n => .not { i with skipCache := b } n
  | .pattern i v j mn mx => .pattern { i with skipCache := b } v j mn mx
  | .ref i nm => .ref { i with skipCache := b } nm
  | .rule id => .rule id

/-- Choose for each rule whether it skips the cache. -/
def Grammar.setSkip (g : Grammar) (f : Nat → Bool) : Grammar :=
  { g with rules := g.rules.mapIdx fun id n => n.setSkip (f id) }

theorem Grammar.setSkip_rules (g : Grammar) (f : Nat → Bool) (id : Nat) :
    (g.setSkip f).rules[id]? = (g.rules[id]?).map (Node.setSkip (f id)) := by
  simp [Grammar.setSkip, List.getElem?_mapIdx]

theorem Node.setSkip_label (b : Bool) (n : Node) : (n.setSkip b).info.label = n.info.label := by cases n <;> rfl
theorem Node.setSkip_capture (b : Bool) (n : Node) : (n.setSkip b).info.capture = n.info.capture := by
  cases n <;> rfl
theorem Node.setSkip_parent (b : Bool) (n : Node) : (n.setSkip b).info.parent = n.info.parent := by cases n <;> rfl
theorem Node.setSkip_cb (b : Bool) (n : Node) : (n.setSkip b).info.cb = n.info.cb := by cases n <;> rfl
theorem Node.setSkip_ruleName (b : Bool) (n : Node) : (n.setSkip b).info.ruleName = n.info.ruleName := by
  cases n <;> rfl
theorem Node.setSkip_debug (b : Bool) (n : Node) : (n.setSkip b).info.debug = n.info.debug := by cases n <;> rfl

theorem Grammar.setSkip_info (g : Grammar) (f : Nat → Bool) (c : Node) :
    ((g.setSkip f).info c).label = (g.info c).label ∧ ((g.setSkip f).info c).capture = (g.info c).capture := by
  cases c with
  | rule id =>
    unfold Grammar.info
    dsimp only
    rw [Grammar.setSkip_rules]
    cases g.rules[id]? with
    | none => exact ⟨rfl, rfl⟩
    | some n => exact ⟨n.setSkip_label _, n.setSkip_capture _⟩
  | _ => exact ⟨rfl, rfl⟩

/-- The same environment with other cache flags. -/
def PegEnv.setSkip (E : PegEnv V) (f : Nat → Bool) : PegEnv V := { E with g := E.g.setSkip f }

theorem seqPut_setSkip (E : PegEnv V) (f : Nat → Bool) (repr : SeqRepr) (c : Node) (acc : SeqVal V) (v : V) :
    seqPut E.P repr ((E.g.setSkip f).info c) acc v = seqPut E.P repr (E.g.info c) acc v := by
  obtain ⟨h1, h2⟩ := E.g.setSkip_info f c
  unfold seqPut
  rw [h1, h2]

theorem pegSeq_setSkip (E : PegEnv V) (f : Nat → Bool) (ev : Node → Nat → Out (Option (V × Nat))) (repr : SeqRepr) :
    ∀ l acc p, pegSeq (E.setSkip f) ev repr l acc p = pegSeq E ev repr l acc p
  | [], _, _ => rfl
  | c :: cs, acc, p => by
    rw [pegSeq, pegSeq]
    congr 1
    funext x
    cases x with
    | none => rfl
    | some x =>
      obtain ⟨v, q⟩ := x
      dsimp only
      rw [show (E.setSkip f).P = E.P from rfl, show (E.setSkip f).g = E.g.setSkip f from rfl, seqPut_setSkip]
      congr 1
      funext acc
      exact pegSeq_setSkip E f ev repr cs acc q

theorem pegKind_setSkip (E : PegEnv V) (f : Nat → Bool) (ev : Node → Nat → Out (Option (V × Nat))) (k : Nat) (n : Node)
    (p : Nat) : pegKind (E.setSkip f) ev k n p = pegKind E ev k n p := by
  cases n <;> first | rfl | exact pegSeq_setSkip E f ev _ _ _ p

theorem pegKind_setSkip_node (E : PegEnv V) (b : Bool) (ev : Node → Nat → Out (Option (V × Nat))) (k : Nat) (n : Node)
    (p : Nat) : pegKind E ev k (n.setSkip b) p = pegKind E ev k n p := by
  cases n <;> rfl

theorem pegFinish_setSkip (E : PegEnv V) (f : Nat → Bool) (b : Bool) (n : Node) (q : Nat) :
    pegFinish (E.setSkip f) (n.setSkip b).info q = pegFinish E n.info q := by
  funext x
  match x with
  | none => rfl
  | some (v, p) =>
    unfold pegFinish Info.ownLabel
    rw [n.setSkip_label, n.setSkip_parent, n.setSkip_cb, n.setSkip_ruleName]
    rfl

theorem pegFinish_env (E : PegEnv V) (f : Nat → Bool) (i : Info) (q : Nat) :
    pegFinish (E.setSkip f) i q = pegFinish E i q := by
  funext x
  match x with
  | none => rfl
  | some (v, p) => rfl

theorem peg_setSkip (E : PegEnv V) (f : Nat → Bool) : ∀ k d n q p,
    peg (E.setSkip f) k d n q p = peg E k d n q p
  | 0, _, _, _, _ => rfl
  | k + 1, d, n, q, p => by
    have ih : ∀ d q, (fun n p' => peg (E.setSkip f) k d n q p') = fun n p' => peg E k d n q p' := by
      intro d q
      funext n p'
      exact peg_setSkip E f k d n q p'
    by_cases hn : n.isRule = false
    · have h1 := evalTask_node (E.setSkip f) hn k d q p
      have h2 := evalTask_node E hn k d q p
      simp only [evalTask] at h1 h2
      rw [h1, h2, ih, pegKind_setSkip, pegFinish_env]
    · cases n with
      | rule id =>
        unfold peg
        rw [show (E.setSkip f).g = E.g.setSkip f from rfl, Grammar.setSkip_rules]
        cases E.g.rules[id]? with
        | none => rfl
        | some body =>
          cases d with
          | zero => rfl
          | succ d =>
            dsimp only [Option.map_some]
            rw [ih, pegKind_setSkip, pegKind_setSkip_node, pegFinish_setSkip]
      | _ => exact absurd rfl hn

theorem Node.Below.setSkip {N : Nat} {n : Node} (h : n.Below N) (b : Bool) : (n.setSkip b).Below N := by
  cases h with
  | str => exact .str
  | regex => exact .regex
  | choice h => exact .choice h
  | seq h => exact .seq h
  | exist h => exact .exist h
  | look h => exact .look h
  | not h => exact .not h
  | pattern h h' => exact .pattern h h'
  | ref => exact .ref
  | rule h => exact .rule h

theorem Grammar.Built.setSkip {g : Grammar} (h : g.Built) (f : Nat → Bool) : (g.setSkip f).Built := by
  have hn : (g.setSkip f).numRules = g.numRules := by simp [Grammar.setSkip, Grammar.numRules]
  have hmem : ∀ n ∈ (g.setSkip f).rules, ∃ m b, m ∈ g.rules ∧ n = m.setSkip b := by
    intro n hn
    obtain ⟨id, hid⟩ := List.mem_iff_getElem?.mp hn
    rw [Grammar.setSkip_rules] at hid
    cases hm : g.rules[id]? with
    | none => rw [hm] at hid; cases hid
    | some m =>
      rw [hm] at hid
      cases hid
      exact ⟨m, f id, List.mem_of_getElem? hm, rfl⟩
  refine ⟨?_, ?_, ?_, ?_⟩
  · intro n hmn
    obtain ⟨m, b, hm, rfl⟩ := hmem n hmn
    rw [hn]
    exact (h.rules m hm).setSkip b
  · intro n hmn id hid
    obtain ⟨m, b, hm, rfl⟩ := hmem n hmn
    cases m with
    | rule id' => exact h.noAlias _ hm id' rfl
    | _ => cases hid
  · intro nm id hl
    rw [hn]
    exact h.lookup nm id hl
  · obtain ⟨i, l, h1, h2, h3, h4⟩ := h.root
    exact ⟨i, l, h1, h2, h3, fun c hc => by rw [hn]; exact h4 c hc⟩

end Joeson
