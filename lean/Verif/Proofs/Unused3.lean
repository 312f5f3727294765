import Verif.Proofs.Unused2
/-! # Numbering of lines with an included line more -/

namespace Joeson

/-- `k` numbers more from `n` on. -/
def shiftFrom (n k i : Nat) : Nat := if i < n then i else i + k

theorem shiftFrom_mono (n k i j : Nat) : i < j ↔ shiftFrom n k i < shiftFrom n k j := by
  unfold shiftFrom
  split <;> split <;> omega

theorem shiftFrom_lt {n k i : Nat} (h : i < n) : shiftFrom n k i = i := if_pos h
theorem shiftFrom_ge {n k i : Nat} (h : n ≤ i) : shiftFrom n k i = i + k := if_neg (by omega)

mutual
/-- Without the identity of objects. -/
def Rules.bare : Rules → Rules
  | .leaf _ k n => .leaf 0 k n
  | .rank _ r i incl alts => .rank 0 r i (bareAll incl) (bareAll alts)
/-- Each of them. -/
def bareAll : List Rules → List Rules
  | [] => []
  | x :: l => x.bare :: bareAll l
end

theorem bareAll_eq (l : List Rules) : bareAll l = l.map Rules.bare := by
  induction l with
  | nil => rfl
  | cons x l ih => rw [bareAll, ih]; rfl

theorem Rules.bare_name (x : Rules) : x.bare.name = x.name := by cases x <;> rfl

theorem name_of_bare {x y : Rules} (h : y.bare = x.bare) : y.name = x.name := by rw [← y.bare_name, h, x.bare_name]

theorem bare_setInfo {x y : Rules} (h : y.bare = x.bare) (f : Info → Info) : (y.setInfo f).bare = (x.setInfo f).bare := by
  cases x <;> cases y <;> simp only [Rules.bare, Rules.setInfo, Rules.leaf.injEq, Rules.rank.injEq, reduceCtorEq] at h ⊢
  · obtain ⟨-, rfl, rfl⟩ := h
    exact ⟨trivial, rfl, rfl⟩
  · obtain ⟨-, rfl, rfl, h1, h2⟩ := h
    exact ⟨trivial, rfl, rfl, h1, h2⟩

mutual
theorem bare_walk : ∀ x : Rules, x.bare.walk.map (·.2) = x.walk.map (·.2)
  | .leaf _ .part _ | .leaf _ .rule _ | .leaf _ .wrapped _ => rfl
  | .rank _ true i incl alts => by
    simp only [Rules.bare, Rules.walk, List.map_append, bareAll_walk incl, bareAll_walk alts, if_true]
    rfl
  | .rank _ false i incl alts => by
    simp only [Rules.bare, Rules.walk, List.map_append, bareAll_walk incl, bareAll_walk alts]
    rfl
theorem bareAll_walk : ∀ l : List Rules, (Rules.walkList (bareAll l)).map (·.2) = (Rules.walkList l).map (·.2)
  | [] => rfl
  | x :: l => by simp only [bareAll, Rules.walkList, List.map_append, bare_walk x, bareAll_walk l]
end

/-! ## Lines -/

section
variable {compile : Bytes → Except Panic Node}

theorem getRuleEnd_bare {name : String} {opts : RuleOpts} {x x' y y' : Rules} (hb : x'.bare = x.bare) (h : getRuleEnd name opts x = .ok y)
    (h' : getRuleEnd name opts x' = .ok y') : y'.bare = y.bare := by
  obtain ⟨-, rfl⟩ := getRuleEnd_ok h
  obtain ⟨-, rfl⟩ := getRuleEnd_ok h'
  exact bare_setInfo hb _

/-- The same ranks but for the identity of objects. -/
structure SameRank (r r' : Rank) : Prop where
  name : r'.name = r.name
  incl : bareAll r'.incl = bareAll r.incl
  alts : bareAll r'.alts = bareAll r.alts

theorem bareAll_append (l l' : List Rules) : bareAll (l ++ l') = bareAll l ++ bareAll l' := by simp [bareAll_eq]

theorem bareAll_put {l l' : List Rules} (h : bareAll l' = bareAll l) {z z' : Rules} (hz : z'.bare = z.bare) (name : String) :
    bareAll (l'.map fun y => if y.name = name then z' else y) = bareAll (l.map fun y => if y.name = name then z else y) := by
  induction l generalizing l' with
  | nil => cases l' <;> first | rfl | cases h
  | cons x l ih =>
    cases l' with
    | nil => cases h
    | cons x' l' =>
      simp only [bareAll, List.cons.injEq] at h
      simp only [List.map_cons, bareAll, ih h.2, name_of_bare h.1]
      split
      · rw [hz]
      · rw [h.1]

theorem SameRank.include {r r' : Rank} (h : SameRank r r') {name : String} {x x' : Rules} (hx : x'.bare = x.bare) :
    SameRank (r.include name x) (r'.include name x') where
  name := by simp only [Rank.include, h.name]
  incl := by simp only [Rank.include, bareAll_append, bareAll_put h.incl hx, bareAll, hx]
  alts := h.alts

mutual
theorem getRule_bare : ∀ (l : Line) {name parent : String} {opts : RuleOpts} {next next1 next' next1' : Nat} {x x' : Rules},
    getRule compile name parent opts next l = .ok (x, next1) → getRule compile name parent opts next' l = .ok (x', next1') → x'.bare = x.bare
  | .a lines, name, parent, opts, next, next1, next', next1', x, x', h, h' => by
    simp only [getRule, exceptBindOk, exceptPureOk, Prod.exists, Prod.mk.injEq] at h h'
    obtain ⟨r, n1, hr, y, hy, rfl, rfl⟩ := h
    obtain ⟨r', n1', hr', y', hy', rfl, rfl⟩ := h'
    have := rankLines_bare lines ⟨rfl, rfl, rfl⟩ hr hr'
    refine getRuleEnd_bare ?_ hy hy'
    simp only [Rules.bare, this.name, this.incl, this.alts]
  | .c twice p, name, parent, opts, next, next1, next', next1', x, x', h, h' => by
    simp only [getRule, exceptBindOk, exceptPureOk, Prod.mk.injEq] at h h'
    obtain ⟨y, hy, rfl, rfl⟩ := h
    obtain ⟨y', hy', rfl, rfl⟩ := h'
    exact getRuleEnd_bare (by rfl) hy hy'
  | .i _ _ _, name, parent, opts, next, next1, next', next1', x, x', h, h' => by cases h
  | .o own content _, name, parent, opts, next, next1, next', next1', x, x', h, h' => by
    simp only [getRule, exceptBindOk, exceptPureOk, Prod.exists, Prod.mk.injEq] at h h'
    obtain ⟨y, n1, hy, z, hz, rfl, rfl⟩ := h
    obtain ⟨y', n1', hy', z', hz', rfl, rfl⟩ := h'
    have hb := getRule_bare content hy hy'
    rw [name_of_bare hb] at hz'
    split at hz <;> rename_i h0
    · rw [if_pos h0] at hz'
      exact getRuleEnd_bare (bare_setInfo hb _) hz hz'
    · rw [if_neg h0] at hz'
      exact getRuleEnd_bare hb hz hz'
  | .s text, name, parent, opts, next, next1, next', next1', x, x', h, h' => by
    simp only [getRule, exceptBindOk, exceptPureOk, Prod.mk.injEq] at h h'
    obtain ⟨p, hp, y, hy, rfl, rfl⟩ := h
    obtain ⟨p', hp', y', hy', rfl, rfl⟩ := h'
    rw [hp] at hp'
    cases hp'
    exact getRuleEnd_bare (by rfl) hy hy'
theorem rankLine_bare : ∀ (l : Line) {r r' r1 r1' : Rank}, SameRank r r' → ∀ {next next1 next' next1' : Nat},
    rankLine compile r next l = .ok (r1, next1) → rankLine compile r' next' l = .ok (r1', next1') → SameRank r1 r1'
  | .o own content opts, r, r', r1, r1', hs, next, next1, next', next1', h, h' => by
    simp only [rankLine, exceptBindOk, exceptPureOk, Prod.exists, Prod.mk.injEq] at h h'
    obtain ⟨y, n1, hy, rfl, rfl⟩ := h
    obtain ⟨y', n1', hy', rfl, rfl⟩ := h'
    have hlen : r'.alts.length = r.alts.length := by
      have := congrArg List.length hs.alts
      simpa [bareAll_eq] using this
    rw [hs.name, hlen] at hy'
    exact ⟨hs.name, hs.incl, by simp only [bareAll_append, hs.alts, bareAll, getRule_bare content hy hy']⟩
  | .i name content opts, r, r', r1, r1', hs, next, next1, next', next1', h, h' => by
    simp only [rankLine, exceptBindOk, exceptPureOk, Prod.exists, Prod.mk.injEq] at h h'
    obtain ⟨y, n1, hy, rfl, rfl⟩ := h
    obtain ⟨y', n1', hy', rfl, rfl⟩ := h'
    rw [hs.name] at hy'
    exact hs.include (getRule_bare content hy hy')
  | .a _, _, _, _, _, _, _, _, _, _, h, _ => by cases h
  | .s _, _, _, _, _, _, _, _, _, _, h, _ => by cases h
  | .c _ _, _, _, _, _, _, _, _, _, _, h, _ => by cases h
theorem rankLines_bare : ∀ (ls : List Line) {r r' r1 r1' : Rank}, SameRank r r' → ∀ {next next1 next' next1' : Nat},
    rankLines compile ls r next = .ok (r1, next1) → rankLines compile ls r' next' = .ok (r1', next1') → SameRank r1 r1'
  | [], r, r', r1, r1', hs, next, next1, next', next1', h, h' => by cases h; cases h'; exact hs
  | l :: ls, r, r', r1, r1', hs, next, next1, next', next1', h, h' => by
    simp only [rankLines, exceptBindOk, Prod.exists] at h h'
    obtain ⟨r2, n2, h1, h2⟩ := h
    obtain ⟨r2', n2', h1', h2'⟩ := h'
    exact rankLines_bare ls (rankLine_bare l hs h1 h1') h2 h2'
end

/-- The rank includes one rule more, like `x`. -/
structure OneMore (x : Rules) (r r' : Rank) : Prop where
  name : r'.name = r.name
  incl : ∃ P Q P' y Q', r.incl = P ++ Q ∧ r'.incl = P' ++ y :: Q' ∧ bareAll P' = bareAll P ∧ bareAll Q' = bareAll Q ∧ y.bare = x.bare
  alts : bareAll r'.alts = bareAll r.alts

theorem rankLines_oneMore {x : Rules} : ∀ (ls : List Line) {r r' r1 r1' : Rank}, x.name ∉ includedNames ls → OneMore x r r' →
    ∀ {next next1 next' next1' : Nat}, rankLines compile ls r next = .ok (r1, next1) → rankLines compile ls r' next' = .ok (r1', next1') → OneMore x r1 r1'
  | [], r, r', r1, r1', _, hs, next, next1, next', next1', h, h' => by cases h; cases h'; exact hs
  | l :: ls, r, r', r1, r1', hx, hs, next, next1, next', next1', h, h' => by
    simp only [rankLines, exceptBindOk, Prod.exists] at h h'
    obtain ⟨r2, n2, h1, h2⟩ := h
    obtain ⟨r2', n2', h1', h2'⟩ := h'
    have hx2 : x.name ∉ includedNames ls := fun hm => hx (by
      cases l <;> first | exact hm | exact List.mem_cons_of_mem _ hm)
    refine rankLines_oneMore ls hx2 ?_ h2 h2'
    match l, h1, h1' with
    | .o own content opts, h1, h1' =>
      simp only [rankLine, exceptBindOk, exceptPureOk, Prod.exists, Prod.mk.injEq] at h1 h1'
      obtain ⟨y, n1, hy, rfl, rfl⟩ := h1
      obtain ⟨y', n1', hy', rfl, rfl⟩ := h1'
      have hlen : r'.alts.length = r.alts.length := by
        have := congrArg List.length hs.alts
        simpa [bareAll_eq] using this
      rw [hs.name, hlen] at hy'
      exact ⟨hs.name, hs.incl, by simp only [bareAll_append, hs.alts, bareAll, getRule_bare content hy hy']⟩
    | .i name content opts, h1, h1' =>
      simp only [rankLine, exceptBindOk, exceptPureOk, Prod.exists, Prod.mk.injEq] at h1 h1'
      obtain ⟨z, n1, hz, rfl, rfl⟩ := h1
      obtain ⟨z', n1', hz', rfl, rfl⟩ := h1'
      rw [hs.name] at hz'
      have hb := getRule_bare content hz hz'
      have hne : x.name ≠ name := fun he => hx (by simp [includedNames, he])
      obtain ⟨P, Q, P', y, Q', e1, e2, e3, e4, e5⟩ := hs.incl
      refine ⟨by simp only [Rank.include, hs.name], ?_, hs.alts⟩
      refine ⟨P.map (fun y => if y.name = name then z else y), Q.map (fun y => if y.name = name then z else y) ++ [z],
        P'.map (fun y => if y.name = name then z' else y), y, Q'.map (fun y => if y.name = name then z' else y) ++ [z'], ?_, ?_, ?_, ?_, e5⟩
      · simp only [Rank.include, e1, List.map_append, List.append_assoc]
      · have : y.name ≠ name := by rw [name_of_bare e5]; exact hne
        simp only [Rank.include, e2, List.map_append, List.map_cons, if_neg this, List.append_assoc, List.cons_append]
      · exact bareAll_put e3 hb name
      · simp only [bareAll_append, bareAll_put e4 hb name, bareAll, hb]
    | .a _, h1, _ => cases h1
    | .s _, h1, _ => cases h1
    | .c _ _, h1, _ => cases h1

theorem rankLines_append : ∀ (A B : List Line) {r r1 : Rank} {next next1 : Nat}, rankLines compile (A ++ B) r next = .ok (r1, next1) →
    ∃ r2 n2, rankLines compile A r next = .ok (r2, n2) ∧ rankLines compile B r2 n2 = .ok (r1, next1)
  | [], B, r, r1, next, next1, h => ⟨r, next, rfl, h⟩
  | l :: A, B, r, r1, next, next1, h => by
    simp only [List.cons_append, rankLines, exceptBindOk, Prod.exists] at h
    obtain ⟨r3, n3, h1, h2⟩ := h
    obtain ⟨r2, n2, h3, h4⟩ := rankLines_append A B h2
    refine ⟨r2, n2, ?_, h4⟩
    simp only [rankLines, exceptBindOk, Prod.exists]
    exact ⟨r3, n3, h1, h3⟩

end

/-! ## Numbers -/

mutual
theorem Node.renamed_below {φ ψ : Nat → Nat} {ρ : String → String} {N : Nat} (h : ∀ i, i < N → φ i = ψ i) : ∀ n : Node, n.Below N → n.renamed φ ρ = n.renamed ψ ρ
  | .str _ _, _ => rfl
  | .regex _ _, _ => rfl
  | .choice i l, hb => by rw [Node.renamed, Node.renamed, renamedAll_below h l (by cases hb; assumption)]
  | .seq i r l, hb => by rw [Node.renamed, Node.renamed, renamedAll_below h l (by cases hb; assumption)]
  | .exist i n, hb => by rw [Node.renamed, Node.renamed, Node.renamed_below h n (by cases hb; assumption)]
  | .look i n, hb => by rw [Node.renamed, Node.renamed, Node.renamed_below h n (by cases hb; assumption)]
  | .not i n, hb => by rw [Node.renamed, Node.renamed, Node.renamed_below h n (by cases hb; assumption)]
  | .pattern i v none _ _, hb => by rw [Node.renamed, Node.renamed, Node.renamed_below h v (by cases hb; assumption)]
  | .pattern i v (some j) _ _, hb => by
    cases hb with
    | pattern h1 h2 => rw [Node.renamed, Node.renamed, Node.renamed_below h v h1, Node.renamed_below h j (h2 j rfl)]
  | .ref _ _, _ => rfl
  | .rule i, hb => by
    rw [Node.renamed, Node.renamed, h i (by cases hb; assumption)]
theorem renamedAll_below {φ ψ : Nat → Nat} {ρ : String → String} {N : Nat} (h : ∀ i, i < N → φ i = ψ i) : ∀ l : List Node, (∀ c ∈ l, c.Below N) →
    renamedAll φ ρ l = renamedAll ψ ρ l
  | [], _ => rfl
  | n :: l, hb => by
    rw [renamedAll, renamedAll, Node.renamed_below h n (hb n (List.mem_cons_self ..)), renamedAll_below h l fun c hc => hb c (List.mem_cons_of_mem _ hc)]
end

mutual
theorem Node.renamed_self : ∀ n : Node, n.renamed id id = n
  | .str _ _ => rfl
  | .regex _ _ => rfl
  | .choice i l => by rw [Node.renamed, renamedAll_self l]; rfl
  | .seq i r l => by rw [Node.renamed, renamedAll_self l]; rfl
  | .exist i n => by rw [Node.renamed, Node.renamed_self n]; rfl
  | .look i n => by rw [Node.renamed, Node.renamed_self n]; rfl
  | .not i n => by rw [Node.renamed, Node.renamed_self n]; rfl
  | .pattern i v none _ _ => by rw [Node.renamed, Node.renamed_self v]; rfl
  | .pattern i v (some j) _ _ => by rw [Node.renamed, Node.renamed_self v, Node.renamed_self j]; rfl
  | .ref _ _ => rfl
  | .rule _ => rfl
theorem renamedAll_self : ∀ l : List Node, renamedAll id id l = l
  | [] => rfl
  | n :: l => by rw [renamedAll, Node.renamed_self n, renamedAll_self l]
end

theorem Node.Plain.attach_renamed {φ : Nat → Nat} {rn : String} {p : Bool} {n : Node} (h : n.Plain) : (n.attach rn p).renamed φ id = n.attach rn p := by
  rw [Node.renamed_below (ψ := id) (N := 0) (fun i hi => absurd hi (Nat.not_lt_zero i)) _ (h.attach_below p), Node.renamed_self]

/-- Numbering with `k` more from `n` on. -/
structure ConnRen (n k : Nat) (s s' : Conn) : Prop where
  num : s'.numrules = s.numrules + k
  le : n ≤ s.numrules
  len : s.id2rule.length = s.numrules
  len' : s'.id2rule.length = s'.numrules
  rules : ∀ i : Nat, (s'.id2rule[shiftFrom n k i]?).map (·.2) = (s.id2rule[i]?).map fun e => (e.2.1, e.2.2.renamed (shiftFrom n k) id)

theorem ConnRen.seen {n k : Nat} {s s' : Conn} (h : ConnRen n k s s') (l l' : List Nat) : ConnRen n k { s with seen := l } { s' with seen := l' } :=
  ⟨h.num, h.le, h.len, h.len', h.rules⟩

theorem ConnRen.post {n k : Nat} {s s' : Conn} (h : ConnRen n k s s') (a a' : Nat) (kd : LeafKind) {x x' : Node} (hx : x' = x.renamed (shiftFrom n k) id) :
    ConnRen n k (s.post a kd x) (s'.post a' kd x') where
  num := by simp only [Conn.post, h.num]; omega
  le := Nat.le_succ_of_le h.le
  len := by simp [Conn.post, h.len]
  len' := by simp [Conn.post, h.len']
  rules := by
    intro i
    simp only [Conn.post]
    have hl := h.len
    have hl' := h.len'
    have hn := h.num
    have hle := h.le
    by_cases hi : i < s.numrules
    · have hi' : shiftFrom n k i < s'.numrules := by
        have := (shiftFrom_mono n k i s.numrules).mp hi
        rw [shiftFrom_ge hle] at this
        omega
      rw [List.getElem?_append_left (by omega), List.getElem?_append_left (by omega)]
      exact h.rules i
    · rw [shiftFrom_ge (by omega)]
      by_cases he : i = s.numrules
      · subst he
        rw [List.getElem?_append_right (by omega), List.getElem?_append_right (by omega)]
        have e1 : s.numrules + k - s'.id2rule.length = 0 := by omega
        have e2 : s.numrules - s.id2rule.length = 0 := by omega
        rw [e1, e2]
        simp [hx]
      · rw [List.getElem?_eq_none (by simp; omega), List.getElem?_eq_none (by simp; omega)]
        rfl

mutual
theorem connect_ren {n0 k : Nat} : ∀ (t t' : Rules) {rn : String} {s s' s1 s1' : Conn} {n n' : Node}, t'.bare = t.bare → t.Plain → ConnRen n0 k s s' →
    connect rn s t = .ok (n, s1) → connect rn s' t' = .ok (n', s1') → n' = n.renamed (shiftFrom n0 k) id ∧ ConnRen n0 k s1 s1'
  | .leaf a .rule m, t', rn, s, s', s1, s1', n, n', hb, ht, hs, h, h' => by
    have hm : m.Plain := by cases ht; assumption
    cases t' with
    | rank => cases hb
    | leaf a' kd m' =>
      cases hb
      simp only [connect] at h h'
      split at h
      · cases h
      split at h'
      · cases h'
      cases h
      cases h'
      refine ⟨?_, (hs.seen _ _).post _ _ _ hm.attach_renamed.symm⟩
      rw [Node.renamed, shiftFrom_ge hs.le, hs.num]
  | .leaf a .wrapped m, t', rn, s, s', s1, s1', n, n', hb, ht, hs, h, h' => by
    have hm : m.Plain := by cases ht; assumption
    cases t' with
    | rank => cases hb
    | leaf a' kd m' =>
      cases hb
      simp only [connect] at h h'
      split at h
      · cases h
      split at h'
      · cases h'
      cases h
      cases h'
      refine ⟨?_, (hs.seen _ _).post _ _ _ hm.attach_renamed.symm⟩
      rw [Node.renamed, shiftFrom_ge hs.le, hs.num]
  | .leaf a .part m, t', rn, s, s', s1, s1', n, n', hb, ht, hs, h, h' => by
    cases ht with
    | leaf _ hk => exact absurd rfl hk
  | .rank a r i incl alts, t', rn, s, s', s1, s1', n, n', hb, ht, hs, h, h' => by
    obtain ⟨hp1, hp2⟩ : (∀ x ∈ incl, x.Plain) ∧ (∀ x ∈ alts, x.Plain) := by
      cases ht; exact ⟨by assumption, by assumption⟩
    cases t' with
    | leaf => cases hb
    | rank a' r' i' incl' alts' =>
      simp only [Rules.bare, Rules.rank.injEq] at hb
      obtain ⟨-, rfl, rfl, hb1, hb2⟩ := hb
      cases r' with
      | true =>
        simp only [connect, exceptBindOk, exceptPureOk, Prod.exists, Prod.mk.injEq] at h h'
        obtain ⟨l1, s2, h1, l2, s3, h2, rfl, rfl⟩ := h
        obtain ⟨l1', s2', h1', l2', s3', h2', rfl, rfl⟩ := h'
        obtain ⟨-, hs2⟩ := connectList_ren incl incl' hb1 hp1 hs h1 h1'
        obtain ⟨rfl, hs3⟩ := connectList_ren alts alts' hb2 hp2 hs2 h2 h2'
        exact ⟨by rw [Node.renamed, shiftFrom_ge hs3.le, hs3.num], hs3.post _ _ _ rfl⟩
      | false =>
        simp only [connect, exceptBindOk, exceptPureOk, Prod.exists, Prod.mk.injEq] at h h'
        obtain ⟨l1, s2, h1, l2, s3, h2, rfl, rfl⟩ := h
        obtain ⟨l1', s2', h1', l2', s3', h2', rfl, rfl⟩ := h'
        obtain ⟨-, hs2⟩ := connectList_ren incl incl' hb1 hp1 hs h1 h1'
        obtain ⟨rfl, hs3⟩ := connectList_ren alts alts' hb2 hp2 hs2 h2 h2'
        exact ⟨rfl, hs3⟩
theorem connectList_ren {n0 k : Nat} : ∀ (t t' : List Rules) {rn : String} {s s' s1 s1' : Conn} {n n' : List Node}, bareAll t' = bareAll t → (∀ x ∈ t, x.Plain) →
    ConnRen n0 k s s' → connectList rn s t = .ok (n, s1) → connectList rn s' t' = .ok (n', s1') → n' = renamedAll (shiftFrom n0 k) id n ∧ ConnRen n0 k s1 s1'
  | [], t', rn, s, s', s1, s1', n, n', hb, ht, hs, h, h' => by
    cases t' with
    | cons => cases hb
    | nil => cases h; cases h'; exact ⟨rfl, hs⟩
  | x :: t, t', rn, s, s', s1, s1', n, n', hb, ht, hs, h, h' => by
    cases t' with
    | nil => cases hb
    | cons x' t' =>
      simp only [bareAll, List.cons.injEq] at hb
      simp only [connectList, exceptBindOk, exceptPureOk, Prod.exists, Prod.mk.injEq] at h h'
      obtain ⟨m, s2, h1, l, s3, h2, rfl, rfl⟩ := h
      obtain ⟨m', s2', h1', l', s3', h2', rfl, rfl⟩ := h'
      obtain ⟨rfl, hs2⟩ := connect_ren x x' hb.1 (ht x (List.mem_cons_self ..)) hs h1 h1'
      obtain ⟨rfl, hs3⟩ := connectList_ren t t' hb.2 (fun y hy => ht y (List.mem_cons_of_mem _ hy)) hs2 h2 h2'
      exact ⟨rfl, hs3⟩
end

mutual
theorem connect_prefix : ∀ (t : Rules) {rn : String} {s s1 : Conn} {n : Node}, connect rn s t = .ok (n, s1) →
    ∃ e, s1.id2rule = s.id2rule ++ e ∧ s1.numrules = s.numrules + e.length
  | .leaf a .rule m, rn, s, s1, n, h => by
    simp only [connect] at h
    split at h <;> cases h
    exact ⟨[_], rfl, rfl⟩
  | .leaf a .wrapped m, rn, s, s1, n, h => by
    simp only [connect] at h
    split at h <;> cases h
    exact ⟨[_], rfl, rfl⟩
  | .leaf a .part m, rn, s, s1, n, h => by
    simp only [connect] at h
    split at h <;> cases h
    exact ⟨[], by simp, rfl⟩
  | .rank a true i incl alts, rn, s, s1, n, h => by
    simp only [connect, exceptBindOk, exceptPureOk, Prod.exists, Prod.mk.injEq] at h
    obtain ⟨l1, s2, h1, l2, s3, h2, rfl, rfl⟩ := h
    obtain ⟨e1, g1, g1'⟩ := connectList_prefix incl h1
    obtain ⟨e2, g2, g2'⟩ := connectList_prefix alts h2
    exact ⟨e1 ++ e2 ++ [_], by simp only [Conn.post]; rw [g2, g1]; simp only [List.append_assoc]; rfl, by simp [Conn.post, g2', g1']; omega⟩
  | .rank a false i incl alts, rn, s, s1, n, h => by
    simp only [connect, exceptBindOk, exceptPureOk, Prod.exists, Prod.mk.injEq] at h
    obtain ⟨l1, s2, h1, l2, s3, h2, rfl, rfl⟩ := h
    obtain ⟨e1, g1, g1'⟩ := connectList_prefix incl h1
    obtain ⟨e2, g2, g2'⟩ := connectList_prefix alts h2
    exact ⟨e1 ++ e2, by rw [g2, g1, List.append_assoc], by simp [g2', g1']; omega⟩
theorem connectList_prefix : ∀ (t : List Rules) {rn : String} {s s1 : Conn} {n : List Node}, connectList rn s t = .ok (n, s1) →
    ∃ e, s1.id2rule = s.id2rule ++ e ∧ s1.numrules = s.numrules + e.length
  | [], rn, s, s1, n, h => by cases h; exact ⟨[], by simp, rfl⟩
  | x :: t, rn, s, s1, n, h => by
    simp only [connectList, exceptBindOk, exceptPureOk, Prod.exists, Prod.mk.injEq] at h
    obtain ⟨m, s2, h1, l, s3, h2, rfl, rfl⟩ := h
    obtain ⟨e1, g1, g1'⟩ := connect_prefix x h1
    obtain ⟨e2, g2, g2'⟩ := connectList_prefix t h2
    exact ⟨e1 ++ e2, by rw [g2, g1, List.append_assoc], by simp [g2', g1']; omega⟩
end

theorem connectList_append : ∀ (P Q : List Rules) {rn : String} {s s1 : Conn} {n : List Node}, connectList rn s (P ++ Q) = .ok (n, s1) →
    ∃ l s2 l', connectList rn s P = .ok (l, s2) ∧ connectList rn s2 Q = .ok (l', s1)
  | [], Q, rn, s, s1, n, h => ⟨[], s, n, rfl, h⟩
  | x :: P, Q, rn, s, s1, n, h => by
    simp only [List.cons_append, connectList, exceptBindOk, exceptPureOk, Prod.exists, Prod.mk.injEq] at h
    obtain ⟨m, s2, h1, l, s3, h2, rfl, rfl⟩ := h
    obtain ⟨l1, s4, l2, h3, h4⟩ := connectList_append P Q h2
    refine ⟨m :: l1, s4, l2, ?_, h4⟩
    simp only [connectList, exceptBindOk, exceptPureOk, Prod.exists, Prod.mk.injEq]
    exact ⟨m, s2, h1, l1, s4, h3, rfl, rfl⟩

/-- A rule in between. -/
theorem connRen_more {s s' s1' : Conn} (h : ConnRen 0 0 s s') (hg : s.Good) {x : Rules} {rn : String} {n : Node} (hx : connect rn s' x = .ok (n, s1')) :
    ConnRen s.numrules (s1'.numrules - s.numrules) s s1' := by
  obtain ⟨e, h1, h2⟩ := connect_prefix x hx
  have hn := h.num
  have hl := h.len
  have hl' := h.len'
  refine ⟨by omega, Nat.le_refl _, hl, by rw [h1, List.length_append]; omega, fun i => ?_⟩
  have h0 : ∀ j, shiftFrom 0 0 j = j := fun j => rfl
  by_cases hi : i < s.numrules
  · rw [shiftFrom_lt hi, h1, List.getElem?_append_left (by omega)]
    have := h.rules i
    rw [h0] at this
    rw [this]
    cases he : s.id2rule[i]? with
    | none => rfl
    | some e =>
      simp only [Option.map_some, Option.some.injEq, Prod.mk.injEq, true_and]
      exact Node.renamed_below (N := s.numrules) (fun j hj => by rw [shiftFrom_lt hj, h0]) _ (hg.below e (List.mem_of_getElem? he))
  · rw [shiftFrom_ge (by omega), List.getElem?_eq_none (by rw [h1, List.length_append]; omega), List.getElem?_eq_none (by omega)]
    rfl

/-- The last place of a name, with other names in between. -/
theorem isLast_between {α : Type} {A X B : List α} {x : α} (hx : x ∉ X) {j : Nat} :
    IsLast (A ++ X ++ B) x j ↔ ∃ i, j = shiftFrom A.length X.length i ∧ IsLast (A ++ B) x i := by
  have hget : ∀ i, (A ++ X ++ B)[shiftFrom A.length X.length i]? = (A ++ B)[i]? := by
    intro i
    by_cases hi : i < A.length
    · rw [shiftFrom_lt hi, List.append_assoc, List.getElem?_append_left hi, List.getElem?_append_left hi]
    · rw [shiftFrom_ge (by omega), List.getElem?_append_right (by simp; omega), List.getElem?_append_right (by omega)]
      congr 1
      simp
      omega
  have hother : ∀ j, (A ++ X ++ B)[j]? = some x → ∃ i, j = shiftFrom A.length X.length i := by
    intro j hj
    by_cases h1 : j < A.length
    · exact ⟨j, (shiftFrom_lt h1).symm⟩
    · by_cases h2 : j < A.length + X.length
      · rw [List.append_assoc, List.getElem?_append_right (by omega), List.getElem?_append_left (by omega)] at hj
        exact absurd (List.mem_of_getElem? hj) hx
      · exact ⟨j - X.length, by rw [shiftFrom_ge (by omega)]; omega⟩
  constructor
  · rintro ⟨h1, h2⟩
    obtain ⟨i, rfl⟩ := hother j h1
    refine ⟨i, rfl, by rw [← hget i, h1], fun k hk => ?_⟩
    rw [← hget k]
    exact h2 _ ((shiftFrom_mono _ _ i k).mp hk)
  · rintro ⟨i, rfl, h1, h2⟩
    refine ⟨by rw [hget i, h1], fun k hk he => ?_⟩
    obtain ⟨k, rfl⟩ := hother k he
    rw [hget k] at he
    exact h2 k ((shiftFrom_mono _ _ i k).mpr hk) he

end Joeson
