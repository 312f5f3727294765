import Verif.Spec.LeftAssoc
import Verif.Proofs.LeftRec
import Verif.Proofs.Means
/-! # Rules `E: E op T | T` in `lpeg` -/

namespace Joeson
variable {V : Type} {E : PegEnv V} {d id q : Nat}

/-- From enough fuel on, in every context for rule `id`. -/
theorem GivesIn.at {n : Node} {p : Nat} {r : Option (V × Nat)} (h : GivesIn E d id q n p r) :
    ∃ k, ∀ k' x, k ≤ k' → lpeg E k' d (some (id, x)) n q p = .ok r := by
  obtain ⟨k, hk⟩ := h
  refine ⟨k, fun k' x hk' => ?_⟩
  have := Out.le_eq (lpeg_mono E k k' d d (some (id, .unknown)) (some (id, x)) hk' (Nat.le_refl _)
    ⟨rfl, Seed.unknown_le x⟩ n q p) (by rw [hk]; simp)
  rw [this, hk]

/-- The left recursive call. -/
theorem self_call {body : Node} (hb : E.g.rules[id]? = some body) {r : Info} {nm : String}
    (hn : E.g.lookup nm = some id) (hw : (Node.ref r nm).wraps = false) (k : Nat) (x : Option (V × Nat)) :
    lpeg E (k + 2) (d + 1) (some (id, .known x)) (.ref r nm) q q = .ok x := by
  rw [lpeg_node E (k + 1) (d + 1) _ q q (by simp)]
  unfold Node.wraps at hw
  rw [hw]
  simp only [Bool.false_eq_true, if_false, pegKind, hn]
  rw [lpeg_rule_succ E k d _ q q hb]
  simp [lrSeed]

section
variable {i j r : Info} {nm : String} {op t t' : Node}

/-- What the rule's body gives with seed `x`. -/
def bodyWith (E : PegEnv V) (d id q : Nat) (body : Node) (k : Nat) (x : Seed V) : Out (Option (V × Nat)) :=
  ruleBody E (fun n p' => lpeg E k d (some (id, x)) n q p') k body q

theorem LeftAssoc.lpeg_seq (h : LeftAssoc E.g id i j r nm op t t') (k : Nat) (x : Option (V × Nat)) :
    lpeg E (k + 3) (d + 1) (some (id, .known x)) (.seq j .array [.ref r nm, op, t]) q q =
      (match x with
      | none => .ok none
      | some (v, e) => do
        let acc ← Out.ofExcept (seqPut E.P .array (E.g.info (.ref r nm)) .nothing v)
        pegSeq E (fun n p => lpeg E (k + 2) (d + 1) (some (id, .known x)) n q p) .array [op, t] acc e) := by
  rw [lpeg_node E (k + 2) (d + 1) _ q q (by simp)]
  have hw := h.seqPlain
  unfold Node.wraps at hw
  rw [hw]
  simp only [Bool.false_eq_true, if_false, pegKind]
  rw [pegSeq, self_call h.rule h.self h.refPlain, Out.bind_ok]
  rfl

/-- Either the sequence gives a value, or the operand does. -/
theorem bodyWith_eq (k : Nat) (x : Option (V × Nat)) :
    bodyWith E (d + 1) id q (.choice i [.seq j .array [.ref r nm, op, t], t']) (k + 3) (.known x) =
      (do
        match ← lpeg E (k + 3) (d + 1) (some (id, .known x)) (.seq j .array [.ref r nm, op, t]) q q with
        | some y => .ok (some y)
        | none => pegChoice (fun n p => lpeg E (k + 3) (d + 1) (some (id, .known x)) n q p) [t'] q) >>=
      pegFinish E i q := by
  unfold bodyWith ruleBody
  rfl

/-- With the operand only. -/
theorem LeftAssoc.body_operand (h : LeftAssoc E.g id i j r nm op t t') {k : Nat} {x : Option (V × Nat)}
    {t0 : V} {f0 : Nat} {fin : V → Nat → V}
    (hfin : ∀ v e, Res.finish E i q (.ok (some (v, e))) = .ok (some (fin v e, e)))
    (hseq : lpeg E (k + 3) (d + 1) (some (id, .known x)) (.seq j .array [.ref r nm, op, t]) q q = .ok none)
    (ht : lpeg E (k + 3) (d + 1) (some (id, .known x)) t' q q = .ok (some (t0, f0))) :
    bodyWith E (d + 1) id q (.choice i [.seq j .array [.ref r nm, op, t], t']) (k + 3) (.known x) =
      .ok (some (fin t0 f0, f0)) := by
  rw [bodyWith_eq, hseq, Out.bind_ok]
  dsimp only
  rw [pegChoice]
  rw [ht, Out.bind_ok]
  dsimp only
  rw [Out.bind_ok]
  have := Res.finish_out E i q (.ok (some (t0, f0)))
  rw [hfin] at this
  exact this

/-- The value of the sequence. -/
def nested (P : PureOps V) (g : Grammar) (self op t : Node) (v o w : V) : V :=
  P.arr (capturedBy g [(self, v), (op, o), (t, w)])

theorem seq_value (E : PegEnv V) {ev : Node → Nat → Out (Option (V × Nat))} (self op t : Node) {v o w : V}
    {e p1 p2 : Nat} (ho : ev op e = .ok (some (o, p1))) (ht : ev t p1 = .ok (some (w, p2))) :
    (do
      let acc ← Out.ofExcept (seqPut E.P .array (E.g.info self) .nothing v)
      pegSeq E ev .array [op, t] acc e) = .ok (some (nested E.P E.g self op t v o w, p2)) := by
  unfold seqPut nested capturedBy
  dsimp only [Out.ofExcept]
  rw [Out.bind_ok, pegSeq, ho, Out.bind_ok]
  dsimp only
  unfold seqPut
  dsimp only [Out.ofExcept]
  rw [Out.bind_ok, pegSeq, ht, Out.bind_ok]
  dsimp only
  unfold seqPut
  dsimp only [Out.ofExcept]
  rw [Out.bind_ok, pegSeq]
  cases h1 : (E.g.info self).capture <;> cases h2 : (E.g.info op).capture <;> cases h3 : (E.g.info t).capture <;>
    simp [seqValue, List.filter, h1, h2, h3]

theorem seq_noOp (E : PegEnv V) {ev : Node → Nat → Out (Option (V × Nat))} (self op t : Node) {v : V}
    {e : Nat} (ho : ev op e = .ok none) :
    (do
      let acc ← Out.ofExcept (seqPut E.P .array (E.g.info self) .nothing v)
      pegSeq E ev .array [op, t] acc e) = .ok none := by
  unfold seqPut
  dsimp only [Out.ofExcept]
  rw [Out.bind_ok, pegSeq, ho, Out.bind_ok]

theorem seq_noOperand (E : PegEnv V) {ev : Node → Nat → Out (Option (V × Nat))} (self op t : Node) {v o : V}
    {e p1 : Nat} (ho : ev op e = .ok (some (o, p1))) (ht : ev t p1 = .ok none) :
    (do
      let acc ← Out.ofExcept (seqPut E.P .array (E.g.info self) .nothing v)
      pegSeq E ev .array [op, t] acc e) = .ok none := by
  unfold seqPut
  dsimp only [Out.ofExcept]
  rw [Out.bind_ok, pegSeq, ho, Out.bind_ok]
  dsimp only
  unfold seqPut
  dsimp only [Out.ofExcept]
  rw [Out.bind_ok, pegSeq, ht, Out.bind_ok]

/-- Growing along the operands. -/
theorem LeftAssoc.grow (h : LeftAssoc E.g id i j r nm op t t') {t0 : V} {f0 : Nat} {fin : V → Nat → V}
    (hfin : ∀ v e, Res.finish E i q (.ok (some (v, e))) = .ok (some (fin v e, e)))
    (ht0 : GivesIn E (d + 1) id q t' q (some (t0, f0))) {e : Nat} {l : List (V × V × Nat)} {f : Nat}
    (hl : Operands E (d + 1) id q op t e l f) : f0 ≤ e → ∃ K, ∀ k, K ≤ k → ∃ m, ∀ m', m ≤ m' → ∀ v,
      growSeed (fun x => bodyWith E (d + 1) id q (.choice i [.seq j .array [.ref r nm, op, t], t']) k (.known x)) m' v e =
        .ok (some (leftNest E.P E.g fin (.ref r nm) op t v l, f)) := by
  obtain ⟨k0, hk0⟩ := ht0.at
  have stop : ∀ {e}, f0 ≤ e → ∀ k, k0 + 3 ≤ k → (∀ v, lpeg E k (d + 1) (some (id, .known (some (v, e))))
      (.seq j .array [.ref r nm, op, t]) q q = .ok none) → ∃ m, ∀ m', m ≤ m' → ∀ v,
      growSeed (fun x => bodyWith E (d + 1) id q (.choice i [.seq j .array [.ref r nm, op, t], t']) k (.known x)) m' v e =
        .ok (some (v, e)) := by
    intro e he k hk hseq
    refine ⟨1, fun m' hm v => ?_⟩
    obtain ⟨m', rfl⟩ : ∃ m, m' = m + 1 := ⟨m' - 1, by omega⟩
    obtain ⟨k, rfl⟩ : ∃ k1, k = k1 + 3 := ⟨k - 3, by omega⟩
    rw [growSeed]
    rw [h.body_operand hfin (hseq v) (hk0 _ _ (by omega)), Out.bind_ok]
    dsimp only
    rw [if_pos he]
  induction hl with
  | noOp ho =>
    intro he
    obtain ⟨k1, hk1⟩ := ho.at
    refine ⟨k0 + k1 + 3, fun k hk => stop he k (by omega) fun v => ?_⟩
    obtain ⟨k, rfl⟩ : ∃ k1, k = k1 + 3 := ⟨k - 3, by omega⟩
    rw [h.lpeg_seq]
    exact seq_noOp E _ _ _ (hk1 _ _ (by omega))
  | noOperand ho ht =>
    intro he
    obtain ⟨k1, hk1⟩ := ho.at
    obtain ⟨k2, hk2⟩ := ht.at
    refine ⟨k0 + k1 + k2 + 3, fun k hk => stop he k (by omega) fun v => ?_⟩
    obtain ⟨k, rfl⟩ : ∃ k1, k = k1 + 3 := ⟨k - 3, by omega⟩
    rw [h.lpeg_seq]
    exact seq_noOperand E _ _ _ (hk1 _ _ (by omega)) (hk2 _ _ (by omega))
  | @more p o p1 w p2 l e ho ht hlt hl ih =>
    intro he
    obtain ⟨k1, hk1⟩ := ho.at
    obtain ⟨k2, hk2⟩ := ht.at
    obtain ⟨K, hK⟩ := ih (by omega)
    refine ⟨k0 + k1 + k2 + K + 3, fun k hk => ?_⟩
    obtain ⟨m, hm⟩ := hK k (by omega)
    refine ⟨m + 1, fun m' hm' v => ?_⟩
    obtain ⟨m', rfl⟩ : ∃ m, m' = m + 1 := ⟨m' - 1, by omega⟩
    obtain ⟨k, rfl⟩ : ∃ k1, k = k1 + 3 := ⟨k - 3, by omega⟩
    rw [growSeed]
    rw [bodyWith_eq, h.lpeg_seq]
    dsimp only
    rw [seq_value E (.ref r nm) op t (hk1 _ _ (by omega)) (hk2 _ _ (by omega)), Out.bind_ok]
    dsimp only
    have := Res.finish_out E i q (.ok (some (nested E.P E.g (.ref r nm) op t v o w, p2)))
    rw [hfin] at this
    rw [show (Out.ok (some (nested E.P E.g (.ref r nm) op t v o w, p2)) >>= pegFinish E i q) = _ from this]
    show (Out.ok _ >>= _) = _
    rw [Out.bind_ok]
    dsimp only
    rw [if_neg (by omega), hm m' (by omega)]
    rfl

/-- The whole rule. -/
theorem LeftAssoc.means (h : LeftAssoc E.g id i j r nm op t t') {t0 : V} {f0 : Nat} {fin : V → Nat → V}
    (hfin : ∀ v e, Res.finish E i q (.ok (some (v, e))) = .ok (some (fin v e, e)))
    (ht0 : GivesIn E (d + 1) id q t' q (some (t0, f0))) {l : List (V × V × Nat)} {f : Nat}
    (hl : Operands E (d + 1) id q op t f0 l f) : ∃ K, ∀ k, K ≤ k → ∀ q',
      lpeg E k (d + 2) none (.rule id) q' q =
        .ok (some (leftNest E.P E.g fin (.ref r nm) op t (fin t0 f0) l, f)) := by
  obtain ⟨k0, hk0⟩ := ht0.at
  obtain ⟨K, hK⟩ := h.grow hfin ht0 hl (Nat.le_refl _)
  obtain ⟨m, hm⟩ := hK (k0 + K + 3) (by omega)
  refine ⟨k0 + K + m + 4, fun k hk q' => ?_⟩
  have key : lpeg E (k0 + K + m + 4) (d + 2) none (.rule id) q' q =
      .ok (some (leftNest E.P E.g fin (.ref r nm) op t (fin t0 f0) l, f)) := by
    rw [lpeg_rule_succ E _ (d + 1) none q' q h.rule]
    simp only [lrSeed, Node.info, h.cached, Bool.false_eq_true, if_false]
    show ruleGrow (bodyWith E (d + 1) id q (.choice i [.seq j .array [.ref r nm, op, t], t']) (k0 + K + m + 3)) _ = _
    have h1 : bodyWith E (d + 1) id q (.choice i [.seq j .array [.ref r nm, op, t], t']) (k0 + K + m + 3) (.known none) =
        .ok (some (fin t0 f0, f0)) := by
      refine h.body_operand (k := k0 + K + m) hfin ?_ (hk0 _ _ (by omega))
      rw [h.lpeg_seq]
    unfold ruleGrow
    rw [h1, Out.bind_ok]
    dsimp only
    obtain ⟨m1, hm1⟩ := hK (k0 + K + m + 3) (by omega)
    have h2 := hm _ (Nat.le_refl m) (fin t0 f0)
    have h3 := Out.le_eq (growSeed_mono (run := fun x => bodyWith E (d + 1) id q
      (.choice i [.seq j .array [.ref r nm, op, t], t']) (k0 + K + 3) (.known x))
      (run' := fun x => bodyWith E (d + 1) id q
      (.choice i [.seq j .array [.ref r nm, op, t], t']) (k0 + K + m + 3) (.known x)) (fun x => 
        ruleBody_mono E (fun n p => lpeg_mono E _ _ _ _ _ _ (by omega) (Nat.le_refl _) (Ctx.le_refl _) n q p) (by omega) _ _)
      m (k0 + K + m + 3) (by omega) (fin t0 f0) f0) (by rw [h2]; simp)
    rw [h3]
    exact h2
  have := Out.le_eq (lpeg_mono E _ k (d + 2) (d + 2) none none hk (Nat.le_refl _) trivial (.rule id) q' q)
    (by rw [key]; simp)
  rw [this, key]

end
end Joeson
