import Verif.Model.Visits
import Verif.Spec.Visits
import Verif.Proofs.Invariant3
import Verif.Proofs.Work
import Verif.Proofs.ValueSim
/-!
# How often `parse` is called
-/

namespace Joeson
variable {V H : Type}

/-! ## Counting changes nothing -/

theorem lrel_eq {α : Type} {l l' : List α} (h : LRel Eq l l') : l = l' := by
  induction h with
  | nil => rfl
  | cons h _ ih => rw [h, ih]

theorem orel_eq {α : Type} {x y : Option α} (h : ORel Eq x y) : x = y := by
  cases h with
  | none => rfl
  | some h => rw [h]

/-- The engine without and with the counter. -/
def countSim (ops : Ops V H) : ValSim ops ops.counted where
  W := Unit
  I _ h h' := h'.1 = h
  R _ _ _ v v' := v = v'
  Le _ _ _ _ _ := True
  le_refl _ _ _ := trivial
  le_trans _ _ := trivial
  mono _ h := h
  str _ _ _ _ := rfl
  undef _ _ _ := rfl
  arr := by rintro w h h' l l' rfl hl; cases lrel_eq hl; exact ⟨rfl, trivial, rfl⟩
  newMap := by rintro w h h' v v' k rfl rfl; exact ⟨rfl, trivial, rfl⟩
  origin := by rintro w h h' v v' o rfl rfl; exact ⟨rfl, trivial, rfl⟩
  cb := by
    rintro w h h' v v' c p rfl rfl
    show ERel _ (ops.cb c v p h'.1) ((ops.cb c v p h'.1).map _)
    rcases ops.cb c v p h'.1 with e | ⟨r, k⟩
    · rfl
    · refine ⟨rfl, trivial, ?_⟩
      cases r with
      | none => exact .none
      | some x => exact .some rfl
  Acc _ _ _ _ _ r r' _ := r = r'
  acc_undef := by rintro w h0 h0' h h' r r' w2 rfl; rfl
  acc_le h _ := h
  acc_done h hi := ⟨hi, trivial, h, fun _ _ h => h⟩
  acc_new := by rintro w h0 h0' h h' v v' k - rfl rfl; exact ⟨(), rfl, rfl, fun _ _ h => h⟩
  acc_set := by
    rintro w h0 h0' h h' r r' w2 v v' k rfl rfl rfl
    show ERel _ (ops.mapSet r k v h'.1) ((ops.mapSet r k v h'.1).map _)
    rcases ops.mapSet r k v h'.1 with e | ⟨r, k⟩
    · rfl
    · exact ⟨(), rfl, rfl, fun _ _ h => h⟩
  splice := True
  acc_def := Or.inl trivial
  acc_val _ := fun {w h0 h0' h h' v v'} _ hi hv => ⟨(), hv, hi, fun _ _ h => h⟩
  acc_merge := by
    rintro w h0 h0' h h' r r' w2 v v' rfl rfl rfl
    show ERel _ (ops.merge r v h'.1) ((ops.merge r v h'.1).map _)
    rcases ops.merge r v h'.1 with e | ⟨r, k⟩
    · rfl
    · exact ⟨(), rfl, rfl, fun _ _ h => h⟩
  acc_merge' _ := by
    rintro w h0 h0' h h' r r' w2 v v' rfl rfl rfl
    show ERel _ (ops.merge v r h'.1) ((ops.merge v r h'.1).map _)
    rcases ops.merge v r h'.1 with e | ⟨r, k⟩
    · rfl
    · exact ⟨(), rfl, rfl, fun _ _ h => h⟩

theorem countSim_ok (ops : Ops V H) (g : Grammar) (n : Node) : (countSim ops).NodeOk g n := by
  unfold ValSim.NodeOk
  split
  · exact Or.inl trivial
  · trivial

mutual
theorem all_of_every {P : Node → Prop} (h : ∀ n, P n) : ∀ n : Node, n.All P
  | .str _ _ => .str (h _)
  | .regex _ _ => .regex (h _)
  | .choice _ l => .choice (h _) (all_of_everyL h l)
  | .seq _ _ l => .seq (h _) (all_of_everyL h l)
  | .exist _ n => .exist (h _) (all_of_every h n)
  | .look _ n => .look (h _) (all_of_every h n)
  | .not _ n => .not (h _) (all_of_every h n)
  | .pattern _ v none _ _ => .pattern (h _) (all_of_every h v) fun c hc => by cases hc
  | .pattern _ v (some j) _ _ => .pattern (h _) (all_of_every h v) (by
      have h1 := all_of_every h j
      rintro c ⟨⟩
      exact h1)
  | .ref _ _ => .ref (h _)
  | .rule _ => .rule (h _)
theorem all_of_everyL {P : Node → Prop} (h : ∀ n, P n) : ∀ l : List Node, ∀ c ∈ l, c.All P
  | [] => fun _ hc => by cases hc
  | n :: l => by
    have h1 := all_of_every h n
    have h2 := all_of_everyL h l
    intro c hc
    rcases List.mem_cons.mp hc with rfl | hc
    · exact h1
    · exact h2 c hc
end

theorem parseV_rel (env : Env V H) (k : Nat) :
    (countSim env.ops).RecRel (fun n => n.All ((countSim env.ops).NodeOk env.g)) (parse env k) (parseV env.counted k) := by
  induction k with
  | zero => intro n hn w s s' hs; trivial
  | succ k ih =>
    intro n hn w s s' hs
    have h := (countSim env.ops).wrap_rel (env := env) rfl (fun n _ => all_of_every (countSim_ok _ _) n) ih k n hn w s (tick s')
      ⟨hs.pos, hs.next, hs.table, hs.stack, hs.counter, hs.loopStack, hs.calls, hs.inv, fun a =>
        ⟨(hs.heap a).endpos, (hs.heap a).loopstage, (hs.heap a).wipemask, (hs.heap a).pos, (hs.heap a).id, (hs.heap a).result⟩⟩
    exact h

/-- What the parse with the counter gives. -/
theorem parseV_same (env : Env V H) (k : Nat) (n : Node) (h : H) (c p : Nat) :
    match parse env k n (newState h p), parseV env.counted k n (newState (h, c) p) with
    | .ok (r, s), .ok (r', s') => r' = r ∧ s'.h.1 = s.h ∧ s'.pos = s.pos ∧ s'.counter = s.counter ∧ s'.calls = s.calls
    | .panic e, .panic e' => e = e'
    | .oof, .oof => True
    | _, _ => False := by
  have key := parseV_rel env k n (all_of_every (countSim_ok _ _) n) () (newState h p) (newState (h, c) p)
    ⟨rfl, rfl, rfl, rfl, rfl, rfl, rfl, rfl, fun a => ⟨rfl, rfl, rfl, rfl, rfl, .none⟩⟩
  revert key
  generalize parse env k n (newState h p) = x
  generalize parseV env.counted k n (newState (h, c) p) = y
  intro key
  cases x <;> cases y <;> first | exact key.elim | skip
  · obtain ⟨k1, -, k3⟩ := key
    exact ⟨(orel_eq k3).symm, k1.inv, k1.pos, k1.counter, k1.calls⟩
  · exact key
  · trivial

/-- The memo table has the same masks. -/
theorem parseV_masks {env : Env V H} {k : Nat} {n : Node} {h : H} {c p : Nat} {r r' : Option V} {s : St V H} {s' : St V (H × Nat)}
    (h1 : parse env k n (newState h p) = .ok (r, s)) (h2 : parseV env.counted k n (newState (h, c) p) = .ok (r', s')) :
    s'.next = s.next ∧ ∀ a, (s'.heap a).wipemask = (s.heap a).wipemask := by
  have key := parseV_rel env k n (all_of_every (countSim_ok _ _) n) () (newState h p) (newState (h, c) p)
    ⟨rfl, rfl, rfl, rfl, rfl, rfl, rfl, rfl, fun a => ⟨rfl, rfl, rfl, rfl, rfl, .none⟩⟩
  rw [h1, h2] at key
  obtain ⟨k1, -, -⟩ := key
  exact ⟨k1.next, fun a => (k1.heap a).wipemask⟩

/-! ## The local cost -/

mutual
/-- Calls made by one call of an expression on a text of length `n`, if calling a rule costs one. -/
def Node.callsN (n : Nat) : Node → Nat
  | .str _ _ => 1
  | .regex _ _ => 1
  | .choice _ l => 1 + callsAllN n l
  | .seq _ _ l => 1 + callsAllN n l
  | .exist _ c => 1 + c.callsN n
  | .look _ c => 1 + c.callsN n
  | .not _ c => 1 + c.callsN n
  | .pattern _ v none _ _ => 1 + (n + 2) * v.callsN n
  | .pattern _ v (some j) _ _ => 1 + (n + 2) * (v.callsN n + j.callsN n)
  | .ref _ _ => 2
  | .rule _ => 1
def callsAllN (n : Nat) : List Node → Nat
  | [] => 0
  | c :: l => c.callsN n + callsAllN n l
end

theorem pow_pos' (n d : Nat) : 0 < (n + 2) ^ d := Nat.pow_pos (by omega)

theorem pow_le' (n : Nat) {d e : Nat} (h : d ≤ e) : (n + 2) ^ d ≤ (n + 2) ^ e := Nat.pow_le_pow_right (by omega) h

mutual
theorem callsN_le (n : Nat) : ∀ c : Node, c.callsN n ≤ c.parts * (n + 2) ^ c.loops
  | .str _ _ => by simp [Node.callsN, Node.parts, Node.loops]
  | .regex _ _ => by simp [Node.callsN, Node.parts, Node.loops]
  | .choice _ l => by
    have := callsAllN_le n l
    have := pow_pos' n (loopsAll l)
    simp only [Node.callsN, Node.parts, Node.loops, Nat.add_mul]
    omega
  | .seq _ _ l => by
    have := callsAllN_le n l
    have := pow_pos' n (loopsAll l)
    simp only [Node.callsN, Node.parts, Node.loops, Nat.add_mul]
    omega
  | .exist _ c => by
    have := callsN_le n c
    have := pow_pos' n c.loops
    simp only [Node.callsN, Node.parts, Node.loops, Nat.add_mul]
    omega
  | .look _ c => by
    have := callsN_le n c
    have := pow_pos' n c.loops
    simp only [Node.callsN, Node.parts, Node.loops, Nat.add_mul]
    omega
  | .not _ c => by
    have := callsN_le n c
    have := pow_pos' n c.loops
    simp only [Node.callsN, Node.parts, Node.loops, Nat.add_mul]
    omega
  | .pattern _ v none _ _ => by
    have h1 := Nat.mul_le_mul_left (n + 2) (callsN_le n v)
    have h2 := pow_pos' n (1 + v.loops)
    have h3 : (n + 2) * (v.parts * (n + 2) ^ v.loops) = v.parts * (n + 2) ^ (1 + v.loops) := by rw [Nat.add_comm 1, Nat.pow_succ, Nat.mul_comm ((n + 2) ^ _) (n + 2), Nat.mul_left_comm]
    simp only [Node.callsN, Node.parts, Node.loops, Nat.add_mul (1 : Nat)]
    omega
  | .pattern _ v (some j) _ _ => by
    have h1 := callsN_le n v
    have h1' := callsN_le n j
    have h4 := Nat.mul_le_mul_left v.parts (pow_le' n (Nat.le_max_left v.loops j.loops))
    have h5 := Nat.mul_le_mul_left j.parts (pow_le' n (Nat.le_max_right v.loops j.loops))
    have h6 : v.callsN n + j.callsN n ≤ (v.parts + j.parts) * (n + 2) ^ max v.loops j.loops := by rw [Nat.add_mul]; omega
    have h1 := Nat.mul_le_mul_left (n + 2) h6
    have h2 := pow_pos' n (1 + max v.loops j.loops)
    have h3 : (n + 2) * ((v.parts + j.parts) * (n + 2) ^ max v.loops j.loops) = (v.parts + j.parts) * (n + 2) ^ (1 + max v.loops j.loops) := by rw [Nat.add_comm 1, Nat.pow_succ, Nat.mul_comm ((n + 2) ^ _) (n + 2), Nat.mul_left_comm]
    simp only [Node.callsN, Node.parts, Node.loops, Nat.add_mul (1 : Nat)]
    omega
  | .ref _ _ => by simp [Node.callsN, Node.parts, Node.loops]
  | .rule _ => by simp [Node.callsN, Node.parts, Node.loops]
theorem callsAllN_le (n : Nat) : ∀ l : List Node, callsAllN n l ≤ partsAll l * (n + 2) ^ loopsAll l
  | [] => by simp [callsAllN]
  | c :: l => by
    have h1 := callsN_le n c
    have h2 := callsAllN_le n l
    have h4 := Nat.mul_le_mul_left c.parts (pow_le' n (Nat.le_max_left c.loops (loopsAll l)))
    have h5 := Nat.mul_le_mul_left (partsAll l) (pow_le' n (Nat.le_max_right c.loops (loopsAll l)))
    simp only [callsAllN, partsAll, loopsAll, Nat.add_mul]
    omega
end

theorem callsN_le_all (n : Nat) : ∀ (l : List Node), ∀ c ∈ l, c.callsN n ≤ callsAllN n l
  | [], _, h => by cases h
  | a :: l, c, h => by
    rw [callsAllN]
    rcases List.mem_cons.mp h with rfl | h
    · omega
    · have := callsN_le_all n l c h
      omega

theorem callsN_pos (n : Nat) (c : Node) (h : ∀ id, c ≠ .rule id) : 1 ≤ c.callsN n := by
  match c with
  | .pattern _ v none _ _ => rw [Node.callsN]; omega
  | .pattern _ v (some j) _ _ => rw [Node.callsN]; omega
  | .rule id => exact absurd rfl (h id)
  | .str _ _ | .regex _ _ | .choice _ _ | .seq _ _ _ | .exist _ _ | .look _ _ | .not _ _ | .ref _ _ => simp [Node.callsN]

/-! ## Walking through the engine -/

/-- From `s` to `t` at most `c` calls were made, and `M` for each evaluation. -/
def CallsSpent (M c : Nat) (s t : St V (H × Nat)) : Prop := t.h.2 + M * s.counter ≤ s.h.2 + c + M * t.counter

/-- Operations that leave the counter alone. -/
structure Keeps (ops : Ops V (H × Nat)) : Prop where
  arr : ∀ l h, (ops.arr l h).2.2 = h.2
  newMap : ∀ k v h, (ops.newMap k v h).2.2 = h.2
  origin : ∀ v o h, (ops.origin v o h).2.2 = h.2
  mapSet : ∀ r k v h x, ops.mapSet r k v h = .ok x → x.2.2 = h.2
  merge : ∀ r v h x, ops.merge r v h = .ok x → x.2.2 = h.2
  cb : ∀ c v p h x, ops.cb c v p h = .ok x → x.2.2 = h.2

theorem map_ok {α β : Type} {f : α → β} {x : Except Panic α} {y : β} (h : x.map f = .ok y) : ∃ a, y = f a := by
  cases x with
  | error e => cases h
  | ok a => exact ⟨a, by cases h; rfl⟩

theorem counted_keeps (ops : Ops V H) : Keeps ops.counted where
  arr _ _ := rfl
  newMap _ _ _ := rfl
  origin _ _ _ := rfl
  mapSet r k v h x hx := by obtain ⟨a, rfl⟩ := map_ok hx; rfl
  merge r v h x hx := by obtain ⟨a, rfl⟩ := map_ok hx; rfl
  cb c v p h x hx := by obtain ⟨a, rfl⟩ := map_ok hx; rfl

theorem seqAdd_keeps {ops : Ops V (H × Nat)} (K : Keeps ops) {repr : SeqRepr} {i : Info} {acc : SeqAcc V} {v : V} {h : H × Nat}
    {x : SeqAcc V × (H × Nat)} (hx : seqAdd ops repr i acc v h = .ok x) : x.2.2 = h.2 := by
  unfold seqAdd at hx
  cases repr with
  | single => cases hx; rfl
  | array => cases hx; rfl
  | object =>
    dsimp only at hx
    split at hx
    · split at hx
      · cases hx; rfl
      · rename_i r _
        cases hm : ops.merge v r h with
        | error e => rw [hm] at hx; cases hx
        | ok y => rw [hm] at hx; cases hx; exact K.merge _ _ _ _ hm
    · split at hx
      · split at hx
        · cases hx; rfl
        · rename_i r _
          cases hm : ops.merge r v h with
          | error e => rw [hm] at hx; cases hx
          | ok y => rw [hm] at hx; cases hx; exact K.merge _ _ _ _ hm
      · split at hx
        · cases hx; rfl
        · split at hx
          · cases hx; exact K.newMap _ _ _
          · rename_i r _
            cases hm : ops.mapSet r i.label v h with
            | error e => rw [hm] at hx; cases hx
            | ok y => rw [hm] at hx; cases hx; exact K.mapSet _ _ _ _ _ hm

theorem gets_of {α : Type} {o : Out α} {P : α → Prop} (h : ∀ a, o = .ok a → P a) : Gets o P := by
  cases o with
  | ok a => exact h a rfl
  | panic e => trivial
  | oof => trivial

theorem ofExcept_ok' {α : Type} {x : Except Panic α} {a : α} (h : Out.ofExcept x = .ok a) : x = .ok a := by
  cases x with
  | error e => cases h
  | ok b => cases h; rfl

section walk
variable {env : Env V (H × Nat)} (K : Keeps env.ops) {rec_ : Node → Run V (H × Nat)} {M : Nat} {nn : Nat → Prop}
  (hrec : ∀ n s, Gets (rec_ n s) fun x => s.pos ≤ x.2.pos ∧ x.2.pos ≤ env.st.len ∧ (Consumes env.g nn n → x.1.isSome → s.pos < x.2.pos) ∧
    CallsSpent M (n.callsN env.st.len) s x.2)
include hrec

theorem alts_callsSpent : ∀ (l : List Node) (s : St V (H × Nat)), Gets (parseAlts env rec_ l s) fun x => CallsSpent M (callsAllN env.st.len l) s x.2
  | [], s => by show CallsSpent _ _ _ _; simp [CallsSpent, callsAllN]
  | n :: l, s => by
    rw [parseAlts]
    refine (hrec n s).bind ?_
    rintro ⟨r, t⟩ ⟨-, -, -, h1⟩
    simp only [CallsSpent] at h1
    rw [callsAllN]
    cases r with
    | some v => show CallsSpent _ _ _ _; simp only [CallsSpent]; omega
    | none =>
      refine (setPos_gets env s.pos t).bind ?_
      rintro _ rfl
      refine (alts_callsSpent l _).imp fun x hx => ?_
      simp only [CallsSpent] at hx ⊢
      omega

include K
theorem items_callsSpent (repr : SeqRepr) : ∀ (l : List Node) (acc : SeqAcc V) (s : St V (H × Nat)),
    Gets (parseItems env rec_ repr l acc s) fun x => CallsSpent M (callsAllN env.st.len l) s x.2
  | [], acc, s => by
    rw [parseItems]
    have : (seqDone env.ops repr acc s.h).2.2 = s.h.2 := by
      unfold seqDone
      split
      · exact K.arr _ _
      · split <;> rfl
    show CallsSpent _ _ _ _
    simp only [CallsSpent, callsAllN]
    show (seqDone env.ops repr acc s.h).2.2 + _ ≤ _
    omega
  | n :: l, acc, s => by
    rw [parseItems]
    refine (hrec n s).bind ?_
    rintro ⟨r, t⟩ ⟨-, -, -, h1⟩
    simp only [CallsSpent] at h1
    rw [callsAllN]
    cases r with
    | none => show CallsSpent _ _ _ _; simp only [CallsSpent]; omega
    | some v =>
      dsimp only
      refine (gets_of (P := fun x => x.2.2 = t.h.2) fun a ha => seqAdd_keeps K (ofExcept_ok' ha)).bind ?_
      rintro ⟨acc, x⟩ hx
      refine (items_callsSpent repr l acc _).imp fun y hy => ?_
      simp only [CallsSpent] at hy ⊢
      dsimp only at hx
      omega

/-- The calls of one round of a repetition. -/
def roundN (n : Nat) (v : Node) : Option Node → Nat
  | none => v.callsN n
  | some j => v.callsN n + j.callsN n

theorem rep_callsSpent (v : Node) (j : Option Node) (hg : Consumes env.g nn v ∨ ∃ c, j = some c ∧ Consumes env.g nn c) (mn mx : Int) (start : Nat) :
    ∀ (k : Nat) (ms : List V) (s : St V (H × Nat)), s.pos ≤ env.st.len →
      Gets (parseRep env rec_ v j mn mx start k ms s) fun x => CallsSpent M ((env.st.len - s.pos + 1) * roundN env.st.len v j) s x.2
  | 0, _, _, _ => trivial
  | k + 1, ms, s, hs => by
    unfold parseRep
    extract_lets pos2 finish
    have hfin : ∀ c t, CallsSpent M c s t → Gets (finish t) (fun x => CallsSpent M c s x.2) := by
      intro c t ht
      show Gets (if _ then _ else _) _
      split
      · refine (setPos_gets env start t).bind ?_
        rintro _ rfl
        exact ht
      · have := K.arr ms t.h
        show CallsSpent _ _ _ _
        simp only [CallsSpent] at ht ⊢
        show (env.ops.arr ms t.h).2.2 + _ ≤ _
        omega
    have h1 : roundN env.st.len v j ≤ (env.st.len - s.pos + 1) * roundN env.st.len v j := Nat.le_mul_of_pos_left _ (by omega)
    refine Out.Holds.bind (Q := fun x => s.pos ≤ x.2.pos ∧ x.2.pos ≤ env.st.len ∧ ((∃ c, j = some c ∧ Consumes env.g nn c) → x.1 = true → s.pos < x.2.pos) ∧
      CallsSpent M (roundN env.st.len v j - v.callsN env.st.len) s x.2) ?_ ?_
    · cases j with
      | none =>
        refine ⟨Nat.le_refl _, hs, ?_, ?_⟩
        · rintro ⟨c, hc, -⟩; cases hc
        · simp [CallsSpent, roundN]
      | some n =>
        refine (hrec n s).bind ?_
        rintro ⟨r, t⟩ ⟨e1, e2, e3, e4⟩
        refine ⟨e1, e2, ?_, ?_⟩
        · rintro ⟨c, hc, hc'⟩ hr
          cases hc
          exact e3 hc' hr
        · simp only [CallsSpent, roundN] at e4 ⊢
          omega
    · rintro ⟨b, t⟩ ⟨e1, e2, e3, e4⟩
      have hvr : v.callsN env.st.len ≤ roundN env.st.len v j := by cases j <;> simp [roundN]
      dsimp only at e1 e2 e3 e4 ⊢
      split
      · refine (setPos_gets env pos2 t).bind ?_
        rintro _ rfl
        refine hfin _ _ ?_
        simp only [CallsSpent] at e4 ⊢
        omega
      · rename_i hb
        have hb : b = true := by simpa using hb
        subst hb
        refine (hrec v t).bind ?_
        rintro ⟨r, u⟩ ⟨f1, f2, f3, f4⟩
        have h3 : CallsSpent M (roundN env.st.len v j) s u := by
          simp only [CallsSpent] at e4 f4 ⊢
          omega
        have h4 : CallsSpent M ((env.st.len - s.pos + 1) * roundN env.st.len v j) s u := by
          simp only [CallsSpent] at h3 ⊢
          omega
        dsimp only at f1 f2 f3 f4
        cases r with
        | none =>
          refine (setPos_gets env pos2 u).bind ?_
          rintro _ rfl
          exact hfin _ _ h4
        | some w =>
          dsimp only
          split
          · split
            · refine (setPos_gets env start u).bind ?_
              rintro _ rfl
              exact h4
            · have := K.arr (ms ++ [w]) u.h
              show CallsSpent _ _ _ _
              simp only [CallsSpent] at h4 ⊢
              show (env.ops.arr (ms ++ [w]) u.h).2.2 + _ ≤ _
              omega
          · have hlt : s.pos < u.pos := by
              rcases hg with hc | hc
              · have := f3 hc rfl; omega
              · have := e3 hc rfl; omega
            refine (rep_callsSpent v j hg mn mx start k _ u f2).imp fun y hy => ?_
            have h5 : (env.st.len - u.pos + 1) * roundN env.st.len v j + roundN env.st.len v j ≤ (env.st.len - s.pos + 1) * roundN env.st.len v j := by
              rw [← Nat.succ_mul]
              exact Nat.mul_le_mul_right _ (by omega)
            simp only [CallsSpent] at h3 hy ⊢
            omega

/-- The calls that a parser makes. -/
def kindN (n : Nat) : Node → Nat
  | .rule _ => 1
  | c => c.callsN n - 1

theorem kind_callsSpent (k : Nat) (n : Node) (hn : n.guarded env.g nn) (s : St V (H × Nat)) :
    Gets (parseKind env rec_ k n s) fun x => CallsSpent M (kindN env.st.len n) s x.2 := by
  cases n with
  | str i b =>
    refine (gets_any (Out.ofExcept (env.st.matchString s.pos b))).bind ?_
    rintro ⟨m, p⟩ -
    cases m <;> (show CallsSpent _ _ _ _; simp [CallsSpent])
  | regex i re =>
    refine (gets_any (Out.ofExcept (env.st.matchRegexp s.pos re))).bind ?_
    rintro ⟨m, p⟩ -
    cases m <;> (show CallsSpent _ _ _ _; simp [CallsSpent])
  | choice i l =>
    refine (alts_callsSpent hrec l s).imp fun x hx => ?_
    simp only [CallsSpent, kindN, Node.callsN] at hx ⊢
    omega
  | seq i repr l =>
    refine (items_callsSpent K hrec repr l _ s).imp fun x hx => ?_
    simp only [CallsSpent, kindN, Node.callsN] at hx ⊢
    omega
  | exist i m =>
    refine (hrec m s).bind ?_
    rintro ⟨r, t⟩ ⟨-, -, -, h1⟩
    have h2 : CallsSpent M ((Node.exist i m).callsN env.st.len - 1) s t := by simp only [CallsSpent, Node.callsN] at h1 ⊢; omega
    cases r with
    | some v => exact h2
    | none =>
      refine (setPos_gets env s.pos t).bind ?_
      rintro _ rfl
      exact h2
  | look i m =>
    refine (hrec m s).bind ?_
    rintro ⟨r, t⟩ ⟨-, -, -, h1⟩
    have h2 : CallsSpent M ((Node.look i m).callsN env.st.len - 1) s t := by simp only [CallsSpent, Node.callsN] at h1 ⊢; omega
    refine (setPos_gets env s.pos t).bind ?_
    rintro _ rfl
    exact h2
  | not i m =>
    refine (hrec m s).bind ?_
    rintro ⟨r, t⟩ ⟨-, -, -, h1⟩
    have h2 : CallsSpent M ((Node.not i m).callsN env.st.len - 1) s t := by simp only [CallsSpent, Node.callsN] at h1 ⊢; omega
    refine (setPos_gets env s.pos t).bind ?_
    rintro _ rfl
    cases r <;> exact h2
  | pattern i v j mn mx =>
    have hc : (Node.pattern i v j mn mx).callsN env.st.len = 1 + (env.st.len + 2) * roundN env.st.len v j := by
      cases j <;> simp [Node.callsN, roundN]
    have hvr : v.callsN env.st.len ≤ roundN env.st.len v j := by cases j <;> simp [roundN]
    have h0 : roundN env.st.len v j ≤ (env.st.len + 2) * roundN env.st.len v j := Nat.le_mul_of_pos_left _ (by omega)
    refine (hrec v s).bind ?_
    rintro ⟨r, t⟩ ⟨h2, h3, -, h1⟩
    cases r with
    | none =>
      refine (setPos_gets env s.pos t).bind ?_
      rintro _ rfl
      have := K.arr [] t.h
      have h2 : ∀ x : St V (H × Nat), x.h.2 = t.h.2 → x.counter = t.counter → CallsSpent M (kindN env.st.len (.pattern i v j mn mx)) s x := by
        intro x e1 e2
        show CallsSpent M ((Node.pattern i v j mn mx).callsN env.st.len - 1) s x
        rw [hc]
        simp only [CallsSpent, e1, e2] at h1 ⊢
        omega
      dsimp only
      split
      · exact h2 _ rfl rfl
      · exact h2 _ this rfl
    | some w =>
      refine (rep_callsSpent K hrec v j hn mn mx s.pos k _ t h3).imp fun y hy => ?_
      dsimp only at h1 h2 h3
      show CallsSpent M ((Node.pattern i v j mn mx).callsN env.st.len - 1) s y.2
      rw [hc]
      have h5 : (env.st.len - t.pos + 1) * roundN env.st.len v j + roundN env.st.len v j ≤ (env.st.len + 2) * roundN env.st.len v j := by
        rw [← Nat.succ_mul]
        exact Nat.mul_le_mul_right _ (by omega)
      simp only [CallsSpent] at h1 hy ⊢
      omega
  | ref i nm =>
    rw [parseKind]
    cases env.g.lookup nm with
    | none => trivial
    | some id =>
      refine (gets_any (stackPeek s)).bind fun _ _ => ?_
      refine (hrec _ s).imp fun x hx => ?_
      have := hx.2.2.2
      simp only [CallsSpent, kindN, Node.callsN] at this ⊢
      omega
  | rule id =>
    refine (hrec _ s).imp fun x hx => ?_
    have := hx.2.2.2
    simp only [CallsSpent, kindN, Node.callsN] at this ⊢
    omega

omit hrec in
theorem prepare_callsSpent {f : Run V (H × Nat)} {c : Nat} (hf : ∀ s, Gets (f s) fun x => CallsSpent M c s x.2) (b : Bool) (i : Info) (s : St V (H × Nat)) :
    Gets (prepareResult env b i f s) fun x => x.2.h.2 + M * (s.counter + 1) ≤ s.h.2 + c + M * x.2.counter := by
  unfold prepareResult
  refine (hf { s with counter := s.counter + 1 }).bind ?_
  rintro ⟨r, t⟩ h1
  have key : ∀ x : St V (H × Nat), x.h.2 = t.h.2 → x.counter = t.counter → x.h.2 + M * (s.counter + 1) ≤ s.h.2 + c + M * x.counter := by
    intro x e1 e2
    rw [e1, e2]
    exact h1
  cases r with
  | none => exact key _ rfl rfl
  | some v =>
    dsimp only
    have hx : ∀ y : V × (H × Nat), y = (if i.ownLabel then env.ops.newMap i.label v t.h else (v, t.h)) → y.2.2 = t.h.2 := by
      rintro _ rfl
      split
      · exact K.newMap _ _ _
      · rfl
    generalize (if i.ownLabel then env.ops.newMap i.label v t.h else (v, t.h)) = y at hx ⊢
    obtain ⟨v1, x1⟩ := y
    have hx : x1.2 = t.h.2 := hx _ rfl
    dsimp only
    cases hcb : i.cb with
    | none =>
      refine (gets_any _).bind fun a _ => ?_
      exact key _ ((K.origin _ _ _).trans hx) rfl
    | some cc =>
      dsimp only
      refine (gets_of (P := fun x => x.2.2 = x1.2) fun a ha => K.cb _ _ _ _ _ (ofExcept_ok' ha)).bind ?_
      rintro ⟨rv, x2⟩ h2
      dsimp only at h2 ⊢
      cases rv with
      | none => exact key _ (h2.trans hx) rfl
      | some w =>
        refine (gets_any _).bind fun a _ => ?_
        exact key _ (((K.origin _ _ _).trans h2).trans hx) rfl

end walk

section loop
variable {env : Env V (H × Nat)} {M : Nat} {f : Run V (H × Nat)} (hf : ∀ s, Gets (f s) fun x => CallsSpent M 0 s x.2)
include hf

theorem grow_callsSpent (sh : Bool) (a p : Nat) : ∀ (k : Nat) (r : V) (s t : St V (H × Nat)), CallsSpent M 0 s t →
    Gets (growLoop env sh f a p k r t) fun x => CallsSpent M 0 s x.2
  | 0, _, _, _, _ => trivial
  | k + 1, r, s, t, h => by
    rw [growLoop]
    refine (gets_of (P := fun x : (Nat → Option Nat) × St V (H × Nat) => CallsSpent M 0 s x.2) ?_).bind ?_
    · rintro ⟨st, t1⟩ ht
      unfold wipeWith at ht
      split at ht
      · cases ht
      · cases ht; exact h
    rintro ⟨st, t1⟩ h1
    refine (gets_any _).bind fun _ _ => ?_
    refine (setPos_gets env p _).bind ?_
    rintro _ rfl
    refine (hf _).bind ?_
    rintro ⟨r', t2⟩ h2
    have h3 : CallsSpent M 0 s t2 := by
      have h2 : t2.h.2 + M * t1.counter ≤ t1.h.2 + 0 + M * t2.counter := h2
      simp only [CallsSpent] at h1 ⊢
      omega
    dsimp only
    split
    · exact h3
    · cases r' with
      | none => exact h3
      | some r' => exact grow_callsSpent sh a p k r' s t2 h3

theorem loopify_callsSpent (k id : Nat) (i : Info) (s : St V (H × Nat)) : Gets (loopify env k id i f s) fun x => CallsSpent M 0 s x.2 := by
  unfold loopify
  extract_lets show_
  refine (gets_any _).bind fun _ _ => ?_
  have tr : ∀ {x t : St V (H × Nat)}, x.h = s.h → x.counter = s.counter → CallsSpent M 0 x t → CallsSpent M 0 s t := by
    intro x t e1 e2 h
    simp only [CallsSpent, e1, e2] at h
    exact h
  have same : ∀ {x : St V (H × Nat)}, x.h = s.h → x.counter = s.counter → CallsSpent M 0 s x := by
    intro x e1 e2
    simp only [CallsSpent, e1, e2]
    omega
  split
  · refine (hf s).bind ?_
    rintro ⟨r, t⟩ h1
    dsimp only
    split
    · cases r with
      | none => trivial
      | some v =>
        refine (gets_any _).bind fun _ _ => ?_
        exact h1
    · exact h1
  · refine (gets_of (P := fun x : Nat × St V (H × Nat) => x.2.h = s.h ∧ x.2.counter = s.counter) ?_).bind ?_
    · rintro ⟨a, t⟩ ht
      unfold getFrame at ht
      split at ht
      · split at ht <;> (cases ht; exact ⟨rfl, rfl⟩)
      · cases ht
    rintro ⟨a, t⟩ ⟨e1, e2⟩
    dsimp only at e1 e2 ⊢
    have e3 : (if (t.heap a).loopstage < 0 then setStage a 0 t else t).h = s.h ∧ (if (t.heap a).loopstage < 0 then setStage a 0 t else t).counter = s.counter := by
      split
      · exact ⟨e1, e2⟩
      · exact ⟨e1, e2⟩
    generalize (if (t.heap a).loopstage < 0 then setStage a 0 t else t) = u at e3 ⊢
    obtain ⟨e3, e4⟩ := e3
    split
    · split
      · refine (gets_any _).bind fun _ _ => ?_
        refine (setPos_gets env _ _).bind ?_
        rintro _ rfl
        exact same e3 e4
      · refine (hf _).bind ?_
        rintro ⟨r, w⟩ h0
        have h1 : CallsSpent M 0 s w := tr (x := cacheSet a none none (setStage a 1 u)) e3 e4 h0
        clear h0
        dsimp only
        split
        · refine (gets_any _).bind fun _ _ => ?_
          exact h1
        · split
          · cases r with
            | none =>
              refine (gets_any _).bind fun _ _ => ?_
              exact h1
            | some r =>
              dsimp only
              have h2 : CallsSpent M 0 s (if (env.trace.loop && (decide (env.trace.filterLine < 0) || env.st.line (setStage a 3 w).pos == env.trace.filterLine)) = true
                  then { setStage a 3 w with loopStack := i.name :: (setStage a 3 w).loopStack } else setStage a 3 w) := by
                split
                · exact h1
                · exact h1
              refine (grow_callsSpent hf show_ a _ k r s _ h2).bind ?_
              rintro ⟨⟨st, e, v⟩, w2⟩ h3
              dsimp only at h3 ⊢
              refine (gets_of (P := fun x : St V (H × Nat) => CallsSpent M 0 s x) ?_).bind ?_
              · intro x hx
                split at hx
                · split at hx
                  · cases hx
                  · cases hx; exact h3
                · cases hx; exact h3
              intro w3 h4
              refine (gets_of (P := fun x : (Nat → Option Nat) × St V (H × Nat) => CallsSpent M 0 s x.2) ?_).bind ?_
              · rintro ⟨st, t1⟩ ht
                unfold wipeWith at ht
                split at ht
                · cases ht
                · cases ht; exact h4
              rintro ⟨st', w4⟩ h5
              refine (setPos_gets env _ _).bind ?_
              rintro _ rfl
              refine (gets_any _).bind fun _ _ => ?_
              exact h5
          · trivial
    · split
      · have e5 : (if (u.heap a).loopstage = 1 then setStage a 2 u else u).h = s.h ∧ (if (u.heap a).loopstage = 1 then setStage a 2 u else u).counter = s.counter := by
          split
          · exact ⟨e3, e4⟩
          · exact ⟨e3, e4⟩
        generalize (if (u.heap a).loopstage = 1 then setStage a 2 u else u) = w at e5 ⊢
        refine (gets_any _).bind fun _ _ => ?_
        refine (gets_any _).bind fun m _ => ?_
        split
        · refine (setPos_gets env _ _).bind ?_
          rintro _ rfl
          exact same e5.1 e5.2
        · exact same e5.1 e5.2
      · trivial

end loop
end Joeson
