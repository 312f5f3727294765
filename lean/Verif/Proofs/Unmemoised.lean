import Verif.Spec.Unmemoised
import Verif.Proofs.Peg2
/-! # Unmemoised rules that begin with themselves exhaust the rule stack -/

namespace Joeson
variable {V H : Type} {env : Env V H} {S : Nat → Prop}

/-- The run did not return: out of fuel (allowed if `b`), or the rule stack overflowed. -/
def Spent {α : Type} (b : Bool) (x : Out α) : Prop := (b = true ∧ x = .oof) ∨ x = .panic .stackOverflow

theorem Spent.bind {α β : Type} {b : Bool} {x : Out α} (h : Spent b x) (f : α → Out β) : Spent b (x >>= f) := by
  rcases h with ⟨hb, rfl⟩ | rfl
  · exact .inl ⟨hb, rfl⟩
  · exact .inr rfl

/-- `Leads` with a bound on the number of nodes passed. -/
inductive LeadsIn (g : Grammar) (S : Nat → Prop) : Nat → Node → Prop
  | rule {d id} : S id → LeadsIn g S d (.rule id)
  | ref {d i nm id} : g.lookup nm = some id → S id → LeadsIn g S (d + 1) (.ref i nm)
  | choice {d i c l} : LeadsIn g S d c → LeadsIn g S (d + 1) (.choice i (c :: l))
  | seq {d i r c l} : LeadsIn g S d c → LeadsIn g S (d + 1) (.seq i r (c :: l))
  | exist {d i n} : LeadsIn g S d n → LeadsIn g S (d + 1) (.exist i n)
  | look {d i n} : LeadsIn g S d n → LeadsIn g S (d + 1) (.look i n)
  | not {d i n} : LeadsIn g S d n → LeadsIn g S (d + 1) (.not i n)
  | pattern {d i n j mn mx} : LeadsIn g S d n → LeadsIn g S (d + 1) (.pattern i n j mn mx)

theorem Leads.bounded {g : Grammar} {n : Node} (h : Leads g S n) : ∃ d, LeadsIn g S d n := by
  induction h with
  | rule h => exact ⟨0, .rule h⟩
  | ref h1 h2 => exact ⟨1, .ref h1 h2⟩
  | choice _ ih => exact ⟨_, .choice ih.choose_spec⟩
  | seq _ ih => exact ⟨_, .seq ih.choose_spec⟩
  | exist _ ih => exact ⟨_, .exist ih.choose_spec⟩
  | look _ ih => exact ⟨_, .look ih.choose_spec⟩
  | not _ ih => exact ⟨_, .not ih.choose_spec⟩
  | pattern _ ih => exact ⟨_, .pattern ih.choose_spec⟩

theorem LeadsIn.mono {g : Grammar} {n : Node} {d d' : Nat} (h : LeadsIn g S d n) (hd : d ≤ d') : LeadsIn g S d' n := by
  induction h generalizing d' with
  | rule h => exact .rule h
  | ref h1 h2 => obtain ⟨e, rfl⟩ : ∃ e, d' = e + 1 := ⟨d' - 1, by omega⟩; exact .ref h1 h2
  | choice _ ih => obtain ⟨e, rfl⟩ : ∃ e, d' = e + 1 := ⟨d' - 1, by omega⟩; exact .choice (ih (by omega))
  | seq _ ih => obtain ⟨e, rfl⟩ : ∃ e, d' = e + 1 := ⟨d' - 1, by omega⟩; exact .seq (ih (by omega))
  | exist _ ih => obtain ⟨e, rfl⟩ : ∃ e, d' = e + 1 := ⟨d' - 1, by omega⟩; exact .exist (ih (by omega))
  | look _ ih => obtain ⟨e, rfl⟩ : ∃ e, d' = e + 1 := ⟨d' - 1, by omega⟩; exact .look (ih (by omega))
  | not _ ih => obtain ⟨e, rfl⟩ : ∃ e, d' = e + 1 := ⟨d' - 1, by omega⟩; exact .not (ih (by omega))
  | pattern _ ih => obtain ⟨e, rfl⟩ : ∃ e, d' = e + 1 := ⟨d' - 1, by omega⟩; exact .pattern (ih (by omega))

theorem parseKind_spent {b : Bool} {rec_ : Node → Run V H} {d k : Nat} {n : Node} {s : St V H} (hl : LeadsIn env.g S (d + 1) n) (hs : s.stack ≠ [])
    (hn : ∀ id, n ≠ .rule id) (hrec : ∀ c, LeadsIn env.g S d c → Spent b (rec_ c s)) : Spent b (parseKind env rec_ k n s) := by
  cases hl with
  | rule h => exact absurd rfl (hn _)
  | @ref _ i nm id h1 h2 =>
    simp only [parseKind, h1]
    obtain ⟨a, l, hal⟩ := List.exists_cons_of_ne_nil hs
    have : stackPeek s = .ok a := by simp [stackPeek, hal]
    rw [this]
    exact hrec _ (.rule h2)
  | choice h => exact (hrec _ h).bind _
  | seq h => exact (hrec _ h).bind _
  | exist h => exact (hrec _ h).bind _
  | look h => exact (hrec _ h).bind _
  | not h => exact (hrec _ h).bind _
  | pattern h => exact (hrec _ h).bind _

theorem node_spent {b : Bool} {d k : Nat} {n : Node} {s : St V H} (hl : LeadsIn env.g S (d + 1) n) (hs : s.stack ≠ [])
    (hn : ∀ id, n ≠ .rule id)
    (hrec : ∀ c t, LeadsIn env.g S d c → t.pos = s.pos → t.stack = s.stack → Spent b (parse env k c t)) : Spent b (parse env (k + 1) n s) := by
  have h1 : ∀ t : St V H, t.pos = s.pos → t.stack = s.stack → Spent b (parseKind env (parse env k) k n t) := fun t ht ht' =>
    parseKind_spent hl (by rw [ht']; exact hs) hn fun c hc => hrec c t hc ht ht'
  have h2 : Spent b (if n.info.ownLabel || n.info.cb.isSome then prepareResult env false n.info (parseKind env (parse env k) k n) s
      else parseKind env (parse env k) k n s) := by
    split
    · exact Spent.bind (x := parseKind env (parse env k) k n { s with counter := s.counter + 1 }) (h1 _ rfl rfl) _
    · exact h1 s rfl rfl
  show Spent b (wrap env (parse env k) k n s)
  cases n with
  | rule id => exact absurd rfl (hn id)
  | _ => exact h2

theorem rule_spent {b : Bool} (hq : Quiet env) {d k id : Nat} {body : Node} {s : St V H} (hb : env.g.rules[id]? = some body)
    (hsk : body.info.skipCache = true) (hl : LeadsIn env.g S (d + 1) body) (hna : ∀ id, body ≠ .rule id) (hp : s.pos ≤ env.st.len)
    (hrec : ∀ c t, LeadsIn env.g S d c → t.pos = s.pos → t.stack.length = s.stack.length + 1 → Spent b (parse env k c t)) :
    Spent b (parse env (k + 1) (.rule id) s) := by
  have hid : id < env.g.numRules := (List.getElem?_eq_some_iff.mp hb).1
  show Spent b (wrap env (parse env k) k (.rule id) s)
  simp only [wrap, hb]
  obtain ⟨a, s1, hf, h1, h2⟩ : ∃ a s1, getFrame env id s = .ok (a, s1) ∧ s1.pos = s.pos ∧ s1.stack = s.stack := by
    unfold getFrame
    rw [if_pos ⟨hp, hid⟩]
    cases s.table s.pos id with
    | some a => exact ⟨a, s, rfl, rfl, rfl⟩
    | none => exact ⟨_, _, rfl, rfl, rfl⟩
  have hdbg : body.info.debug = false := hq.2 _ (List.mem_of_getElem? hb)
  have hpush : stackPush env id s = if s1.stack.length < stackCap then .ok { s1 with stack := a :: s1.stack } else .panic .stackOverflow := by
    unfold stackPush
    rw [hf]
    rfl
  rw [hpush]
  split
  · refine Spent.bind (x := loopify env k id body.info _ { s1 with stack := a :: s1.stack }) ?_ _
    unfold loopify
    simp only [hq.1, hdbg, hsk, logIf, Bool.or_self, Bool.false_eq_true, if_false, if_true]
    refine Spent.bind (x := prepareResult env true body.info (parseKind env (parse env k) k body) { s1 with stack := a :: s1.stack }) ?_ _
    refine Spent.bind (x := parseKind env (parse env k) k body _) ?_ _
    refine parseKind_spent hl (List.cons_ne_nil _ _) hna fun c hc => hrec c _ hc h1 ?_
    show (a :: s1.stack).length = _
    rw [h2]; rfl
  · exact .inr rfl

/-- The bodies of the rules of `S`, with one bound. -/
theorem endless_bounded {g : Grammar} (he : g.Endless S) :
    ∃ d, ∀ id, S id → ∃ body, g.rules[id]? = some body ∧ body.info.skipCache = true ∧ LeadsIn g S (d + 1) body := by
  have : ∀ N, ∃ d, ∀ id, id < N → S id → ∃ body, g.rules[id]? = some body ∧ body.info.skipCache = true ∧ LeadsIn g S (d + 1) body := by
    intro N
    induction N with
    | zero => exact ⟨0, fun id h => absurd h (Nat.not_lt_zero _)⟩
    | succ N ih =>
      obtain ⟨d, hd⟩ := ih
      by_cases hS : S N
      · obtain ⟨body, h1, h2, h3⟩ := he N hS
        obtain ⟨e, h4⟩ := h3.bounded
        refine ⟨max d e, fun id hid hs => ?_⟩
        rcases Nat.lt_succ_iff_lt_or_eq.mp hid with h | rfl
        · obtain ⟨b, h5, h6, h7⟩ := hd id h hs
          exact ⟨b, h5, h6, h7.mono (by omega)⟩
        · exact ⟨body, h1, h2, h4.mono (by omega)⟩
      · refine ⟨d, fun id hid hs => ?_⟩
        rcases Nat.lt_succ_iff_lt_or_eq.mp hid with h | rfl
        · exact hd id h hs
        · exact absurd hs hS
  obtain ⟨d, hd⟩ := this g.rules.length
  refine ⟨d, fun id hs => hd id ?_ hs⟩
  obtain ⟨body, h1, -⟩ := he id hs
  exact (List.getElem?_eq_some_iff.mp h1).1

/-- Whatever the fuel, the parse does not return. -/
theorem parse_spent (hq : Quiet env) (hb : env.g.Built) (he : env.g.Endless S) (k d : Nat) (n : Node) (s : St V H)
    (hl : LeadsIn env.g S d n) (hp : s.pos ≤ env.st.len) (hs : s.stack ≠ [] ∨ ∃ id, n = .rule id) : Spent true (parse env k n s) := by
  obtain ⟨D, hD⟩ := endless_bounded he
  induction k generalizing d n s with
  | zero => exact .inl ⟨rfl, rfl⟩
  | succ k ih =>
    by_cases hn : ∃ id, n = .rule id
    · obtain ⟨id, rfl⟩ := hn
      have hS : S id := by cases hl; assumption
      obtain ⟨body, h1, h2, h3⟩ := hD id hS
      refine rule_spent hq h1 h2 h3 (hb.noAlias _ (List.mem_of_getElem? h1)) hp fun c t hc ht hts => ih D c t hc (by omega) (.inl ?_)
      intro h; rw [h] at hts; simp at hts
    · have hs' : s.stack ≠ [] := hs.resolve_right hn
      have hl' := hl.mono (Nat.le_succ d)
      exact node_spent hl' hs' (fun id h => hn ⟨id, h⟩) fun c t hc ht hts => ih d c t hc (by omega) (.inl (by rw [hts]; exact hs'))

/-- With enough fuel, the rule stack overflows. -/
theorem parse_overflows (hq : Quiet env) (hb : env.g.Built) (he : env.g.Endless S) : ∃ D, ∀ m d k (n : Node) (s : St V H),
    LeadsIn env.g S d n → s.pos ≤ env.st.len → (s.stack ≠ [] ∨ ∃ id, n = .rule id) → stackCap ≤ s.stack.length + m →
    m * (D + 2) + d + 1 ≤ k → Spent false (parse env k n s) := by
  obtain ⟨D, hD⟩ := endless_bounded he
  refine ⟨D, fun m => ?_⟩
  have hrule : ∀ m, (∀ d k (n : Node) (s : St V H), LeadsIn env.g S d n → s.pos ≤ env.st.len → (s.stack ≠ [] ∨ ∃ id, n = .rule id) →
      stackCap ≤ s.stack.length + m → m * (D + 2) + d + 1 ≤ k → Spent false (parse env k n s)) →
      ∀ k id (s : St V H), S id → s.pos ≤ env.st.len → stackCap ≤ s.stack.length + (m + 1) → (m + 1) * (D + 2) + 1 ≤ k →
      Spent false (parse env k (.rule id) s) := by
    intro m ih k id s hS hp hst hk
    obtain ⟨k, rfl⟩ : ∃ j, k = j + 1 := ⟨k - 1, by omega⟩
    obtain ⟨body, h1, h2, h3⟩ := hD id hS
    refine rule_spent hq h1 h2 h3 (hb.noAlias _ (List.mem_of_getElem? h1)) hp fun c t hc ht hts =>
      ih D k c t hc (by omega) (.inl ?_) (by omega) (by rw [Nat.add_mul] at hk; omega)
    intro h; rw [h] at hts; simp at hts
  have hnode : ∀ m, (∀ k id (s : St V H), S id → s.pos ≤ env.st.len → stackCap ≤ s.stack.length + m → m * (D + 2) + 1 ≤ k →
      Spent false (parse env k (.rule id) s)) →
      ∀ d k (n : Node) (s : St V H), LeadsIn env.g S d n → s.pos ≤ env.st.len → (s.stack ≠ [] ∨ ∃ id, n = .rule id) →
      stackCap ≤ s.stack.length + m → m * (D + 2) + d + 1 ≤ k → Spent false (parse env k n s) := by
    intro m ih d
    induction d with
    | zero =>
      intro k n s hl hp _ hst hk
      cases hl with
      | rule h => exact ih k _ s h hp hst hk
    | succ d ihd =>
      intro k n s hl hp hs hst hk
      by_cases hn : ∃ id, n = .rule id
      · obtain ⟨id, rfl⟩ := hn
        have hS : S id := by cases hl; assumption
        exact ih k id s hS hp hst (by omega)
      · have hs' : s.stack ≠ [] := hs.resolve_right hn
        obtain ⟨k, rfl⟩ : ∃ j, k = j + 1 := ⟨k - 1, by omega⟩
        exact node_spent hl hs' (fun id h => hn ⟨id, h⟩) fun c t hc ht hts =>
          ihd k c t hc (by omega) (.inl (by rw [hts]; exact hs')) (by rw [hts]; exact hst) (by omega)
  induction m with
  | zero =>
    refine hnode 0 fun k id s hS hp hst hk => ?_
    obtain ⟨k, rfl⟩ : ∃ j, k = j + 1 := ⟨k - 1, by omega⟩
    obtain ⟨body, h1, h2, h3⟩ := hD id hS
    have hid : id < env.g.numRules := (List.getElem?_eq_some_iff.mp h1).1
    show Spent false (wrap env (parse env k) k (.rule id) s)
    simp only [wrap, h1]
    refine Spent.bind (.inr ?_) _
    unfold stackPush getFrame
    rw [if_pos ⟨hp, hid⟩]
    have hcap : ¬ s.stack.length < stackCap := by omega
    cases s.table s.pos id with
    | some a => exact if_neg hcap
    | none => exact if_neg hcap
  | succ m ih => exact hnode (m + 1) (hrule m ih)

/-- The top rank. -/
theorem root_spent {b : Bool} {k id : Nat} {i : Info} {l : List Node} {s : St V H} (h1 : i.label = "") (h2 : i.cb = none)
    (h : Spent b (parse env k (.rule id) s)) : Spent b (parse env (k + 1) (.choice i (.rule id :: l)) s) := by
  show Spent b (if i.ownLabel || i.cb.isSome then prepareResult env false i (parseAlts env (parse env k) (.rule id :: l)) s
    else parseAlts env (parse env k) (.rule id :: l) s)
  rw [if_neg (by simp [Info.ownLabel, h1, h2])]
  exact h.bind _

end Joeson
