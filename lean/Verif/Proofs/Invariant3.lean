import Verif.Proofs.Invariant2
/-! # Every parser preserves the invariant (continued) -/

namespace Joeson
variable {V H : Type} {T : Prop} {L k D : Nat}

/-- Only the store of values and the log changed. -/
theorem Inv.ofH {env : Env V H} {nn : Nat → Prop} {s : St V H} (h : Inv env nn s) (x : H) (c : Nat)
    (l : List Call) : Inv env nn { s with h := x, counter := c, calls := l } :=
  ⟨h.pos, h.table, h.frame, h.stack, h.sorted⟩

theorem Ext.ofH {env : Env V H} {s t : St V H} (h : Ext env s t) (x : H) (c : Nat)
    (l : List Call) : Ext env s { t with h := x, counter := c, calls := l } :=
  ⟨h.next, h.pos, h.stack, h.loop, h.frame⟩

theorem prepareResult_holds {env : Env V H} {nn : Nat → Prop} {cons : Prop} {f : Run V H}
    (b : Bool) (i : Info) (s : St V H) (hi : Inv env nn s) (hL : 0 < L) (hne : s.stack.length = L)
    (hf : ∀ s, Inv env nn s → s.stack.length = L → (f s).Holds T (OkPanic env) (Post env nn cons s)) :
    (prepareResult env b i f s).Holds T (OkPanic env) (Post env nn cons s) := by
  unfold prepareResult
  refine (hf _ (hi.ofH s.h (s.counter + 1) s.calls) hne).bind ?_
  rintro ⟨r, s1⟩ ⟨h1, h2, h3⟩
  have h2' : Ext env s s1 := ⟨h2.next, h2.pos, h2.stack, h2.loop, h2.frame⟩
  have h3' : cons → r.isSome → s.pos < s1.pos := h3
  have hne1 : s1.stack.length = L := by rw [h2'.stack]; exact hne
  obtain ⟨top, rest, hst⟩ : ∃ t l, s1.stack = t :: l := by
    cases hs : s1.stack with
    | nil => rw [hs] at hne1; simp at hne1; omega
    | cons t l => exact ⟨t, l, rfl⟩
  cases r with
  | none => exact ⟨h1, h2', fun _ h => by simp at h⟩
  | some v =>
    dsimp only
    generalize (if i.ownLabel = true then env.ops.newMap i.label v s1.h else (v, s1.h)) = w
    obtain ⟨v', h'⟩ := w
    dsimp only
    cases hcb : i.cb with
    | none =>
      dsimp only
      rw [show stackPeek { s1 with h := h' } = .ok top by simp [stackPeek, hst], Out.bind_ok]
      exact ⟨h1.ofH _ _ _, h2'.ofH _ _ _, fun hc _ => h3' hc rfl⟩
    | some c =>
      dsimp only
      cases hr : env.ops.cb c v' s1.pos h' with
      | error e => exact Or.inl ⟨_, _, _, _, hr⟩
      | ok p =>
        obtain ⟨rv, h''⟩ := p
        rw [Out.ofExcept_ok, Out.bind_ok]
        cases rv with
        | none => exact ⟨h1.ofH _ _ _, h2'.ofH _ _ _, fun _ h => by simp at h⟩
        | some v'' =>
          dsimp only
          rw [show stackPeek { s1 with h := h'', calls := mkCall c b { s1 with h := h' } :: s1.calls } =
            .ok top by simp [stackPeek, hst], Out.bind_ok]
          exact ⟨h1.ofH _ _ _, h2'.ofH _ _ _, fun hc _ => h3' hc rfl⟩

/-- What is assumed of the recursive calls. -/
def RecHolds (env : Env V H) (nn : Nat → Prop) (T : Prop) (D k : Nat) (rec_ : Node → Run V H) : Prop :=
  ∀ n s, n.All (Node.Ok env.g nn T) → Inv env nn s → (0 < s.stack.length ∨ ∃ id, n = .rule id) →
    (T ∨ need env.st.len D n s.stack.length ≤ k) → (rec_ n s).Holds T (OkPanic env) (Post env nn (Consumes env.g nn n) s)

theorem Post.refl_none {env : Env V H} {nn : Nat → Prop} {c : Prop} {s s' : St V H}
    (h : Inv env nn s') (e : Ext env s s') : Post env nn c s (none, s') :=
  ⟨h, e, fun _ h => by simp at h⟩

theorem parseAlts_holds {env : Env V H} {nn : Nat → Prop} {rec_ : Node → Run V H}
    (hr : RecHolds env nn T D k rec_) : ∀ (l : List Node) (s : St V H),
    (∀ c ∈ l, c.All (Node.Ok env.g nn T)) → Inv env nn s →
    (0 < s.stack.length ∨ ∀ c ∈ l, ∃ id, c = .rule id) →
    (∀ c ∈ l, T ∨ need env.st.len D c s.stack.length ≤ k) →
    (parseAlts env rec_ l s).Holds T (OkPanic env) (Post env nn (∀ c ∈ l, Consumes env.g nn c) s)
  | [], s, _, hi, _, _ => Post.refl_none hi (Ext.refl _ _)
  | c :: cs, s, hl, hi, hst, hk => by
    rw [parseAlts]
    refine (hr c s (hl c (by simp)) hi (hst.imp_right fun h => h c (by simp)) (hk c (by simp))).bind ?_
    rintro ⟨r, s1⟩ ⟨h1, h2, h3⟩
    cases r with
    | some v => exact ⟨h1, h2, fun hc _ => h3 (hc c (by simp)) rfl⟩
    | none =>
      dsimp only at h1 h2 ⊢
      rw [setPos_eq env hi.pos, Out.bind_ok]
      obtain ⟨hx, hy⟩ := hi.reset h1 h2 (p := s.pos) (Nat.le_refl _) hi.pos
      refine (parseAlts_holds hr cs _ (fun c hc => hl c (by simp [hc])) hx ?_ ?_).imp ?_
      · refine hst.imp ?_ fun h c hc => h c (by simp [hc])
        intro h; rw [hy.stack]; exact h
      · intro d hd; rw [hy.stack]; exact hk d (by simp [hd])
      · rintro ⟨r, s2⟩ ⟨k1, k2, k3⟩
        exact ⟨k1, hy.trans k2, fun hc hs => k3 (fun c hx => hc c (by simp [hx])) hs⟩

theorem seqAdd_error {env : Env V H} {repr : SeqRepr} {i : Info} {acc : SeqAcc V} {v : V} {h : H}
    {e : Panic} (he : seqAdd env.ops repr i acc v h = .error e) : OkPanic env e := by
  unfold seqAdd at he
  have key1 : ∀ (a b : V) (acc' : V → SeqAcc V),
      ((do let (x, h) ← env.ops.merge a b h; return (acc' x, h)) : Except Panic (SeqAcc V × H)) = .error e →
      OkPanic env e := by
    intro a b acc' h'
    cases hm : env.ops.merge a b h with
    | error e' =>
      rw [hm] at h'
      injection h' with h'
      subst h'
      exact Or.inr (Or.inr (Or.inl ⟨_, _, _, hm⟩))
    | ok p => rw [hm] at h'; cases h'
  have key2 : ∀ (a b : V) (l : String) (acc' : V → SeqAcc V),
      ((do let (x, h) ← env.ops.mapSet a l b h; return (acc' x, h)) : Except Panic (SeqAcc V × H)) = .error e →
      OkPanic env e := by
    intro a b l acc' h'
    cases hm : env.ops.mapSet a l b h with
    | error e' =>
      rw [hm] at h'
      injection h' with h'
      subst h'
      exact Or.inr (Or.inl ⟨_, _, _, _, hm⟩)
    | ok p => rw [hm] at h'; cases h'
  cases repr with
  | single => cases he
  | array => cases he
  | object =>
    dsimp only at he
    generalize acc.cur env.ops = cur at he
    split at he
    · cases cur with
      | none => cases he
      | some r => exact key1 _ _ (fun x => { acc with one := some x }) he
    · split at he
      · cases cur with
        | none => cases he
        | some r => exact key1 _ _ (fun x => { acc with one := some x }) he
      · split at he
        · cases he
        · cases cur with
          | none => cases he
          | some r => exact key2 _ _ _ (fun x => { acc with one := some x }) he

theorem parseItems_holds {env : Env V H} {nn : Nat → Prop} {rec_ : Node → Run V H}
    (hr : RecHolds env nn T D k rec_) (repr : SeqRepr) : ∀ (l : List Node) (acc : SeqAcc V) (s : St V H),
    (∀ c ∈ l, c.All (Node.Ok env.g nn T)) → Inv env nn s → 0 < s.stack.length →
    (∀ c ∈ l, T ∨ need env.st.len D c s.stack.length ≤ k) →
    (parseItems env rec_ repr l acc s).Holds T (OkPanic env)
      (Post env nn (∃ c ∈ l, Consumes env.g nn c) s)
  | [], acc, s, _, hi, _, _ => by
    rw [parseItems]
    exact ⟨hi.ofH _ _ _, (Ext.refl _ _).ofH _ _ _, fun ⟨c, hc, _⟩ => by simp at hc⟩
  | c :: cs, acc, s, hl, hi, hne, hk => by
    rw [parseItems]
    refine (hr c s (hl c (by simp)) hi (Or.inl hne) (hk c (by simp))).bind ?_
    rintro ⟨r, s1⟩ ⟨h1, h2, h3⟩
    cases r with
    | none => exact Post.refl_none h1 h2
    | some v =>
      dsimp only at h1 h2 h3 ⊢
      cases hs : seqAdd env.ops repr (env.g.info c) acc v s1.h with
      | error e => exact seqAdd_error hs
      | ok p =>
        obtain ⟨acc', h'⟩ := p
        rw [Out.ofExcept_ok, Out.bind_ok]
        refine (parseItems_holds hr repr cs acc' _ (fun c hc => hl c (by simp [hc]))
          (h1.ofH h' s1.counter s1.calls) (by show 0 < s1.stack.length; rw [h2.stack]; exact hne)
          (by
            intro d hd
            show T ∨ need env.st.len D d s1.stack.length ≤ k
            rw [h2.stack]; exact hk d (by simp [hd]))).imp ?_
        rintro ⟨r, s2⟩ ⟨k1, k2, k3⟩
        have k2' : Ext env s1 s2 := ⟨k2.next, k2.pos, k2.stack, k2.loop, k2.frame⟩
        refine ⟨k1, h2.trans k2', ?_⟩
        rintro ⟨d, hd, hcd⟩ hsome
        rcases List.mem_cons.mp hd with rfl | hd
        · have := h3 hcd rfl
          have := k2'.pos
          dsimp only at *
          omega
        · have := k3 ⟨d, hd, hcd⟩ hsome
          have := h2.pos
          dsimp only at *
          omega

theorem parseRep_holds {env : Env V H} {nn : Nat → Prop} {rec_ : Node → Run V H}
    (hr : RecHolds env nn T D k rec_) {value : Node} {join : Option Node} (mn mx : Int) {s0 : St V H}
    (hv : value.All (Node.Ok env.g nn T))
    (hj : ∀ c, join = some c → c.All (Node.Ok env.g nn T))
    (hi0 : Inv env nn s0) (hne : 0 < s0.stack.length)
    (hkv : T ∨ need env.st.len D value s0.stack.length ≤ k)
    (hkj : ∀ c, join = some c → T ∨ need env.st.len D c s0.stack.length ≤ k)
    (hgd : T ∨ Consumes env.g nn value ∨ ∃ c, join = some c ∧ Consumes env.g nn c) (cons : Prop) :
    ∀ (k' : Nat) (ms : List V) (s : St V H), Inv env nn s → Ext env s0 s → (cons → s0.pos < s.pos) →
    (T ∨ env.st.len - s.pos < k') →
    (parseRep env rec_ value join mn mx s0.pos k' ms s).Holds T (OkPanic env) (Post env nn cons s0)
  | 0, _, _, _, _, _, hk => hk.resolve_right (by omega)
  | k' + 1, ms, s, hi, he, hc, hk => by
    unfold parseRep
    -- the final check
    have hfin : ∀ (ms : List V) (s1 : St V H), Inv env nn s1 → Ext env s0 s1 → (cons → s0.pos < s1.pos) →
        ((if mn > -1 ∧ mn > (ms.length : Int) then do
            let s ← setPos env s0.pos s1
            .ok (none, s)
          else .ok (some (env.ops.arr ms s1.h).1, { s1 with h := (env.ops.arr ms s1.h).2 }) :
          Out (Option V × St V H))).Holds T (OkPanic env) (Post env nn cons s0) := by
      intro ms s1 hi1 he1 hc1
      split
      · rw [setPos_eq env hi0.pos, Out.bind_ok]
        obtain ⟨hx, hy⟩ := hi0.reset hi1 he1 (p := s0.pos) (Nat.le_refl _) hi0.pos
        exact Post.refl_none hx hy
      · exact ⟨hi1.ofH _ _ _, he1.ofH _ _ _, fun h _ => hc1 h⟩
    have hreset : ∀ s1 : St V H, Inv env nn s1 → Ext env s s1 →
        (∃ s2, setPos env s.pos s1 = .ok s2 ∧ Inv env nn s2 ∧ Ext env s0 s2 ∧ (cons → s0.pos < s2.pos)) := by
      intro s1 hi1 he1
      obtain ⟨hx, hy⟩ := hi.reset hi1 he1 (p := s.pos) (Nat.le_refl _) hi.pos
      exact ⟨_, setPos_eq env hi.pos s1, hx, he.trans hy, hc⟩
    have hnes : 0 < s.stack.length := by rw [he.stack]; exact hne
    refine Out.Holds.bind (Q := fun x => Inv env nn x.2 ∧ Ext env s x.2 ∧
      (x.1 = true → ∀ c, join = some c → Consumes env.g nn c → s.pos < x.2.pos)) ?_ ?_
    · cases join with
      | none => exact ⟨hi, Ext.refl _ _, fun _ c h => by simp at h⟩
      | some j =>
        refine (hr j s (hj j rfl) hi (Or.inl hnes) (by rw [he.stack]; exact hkj j rfl)).bind ?_
        rintro ⟨r, s1⟩ ⟨h1, h2, h3⟩
        refine ⟨h1, h2, ?_⟩
        intro hr c hc hcc
        injection hc with hc
        subst hc
        exact h3 hcc hr
    rintro ⟨joined, s1⟩ ⟨hi1, he1, hc1⟩
    dsimp only at hi1 he1 hc1 ⊢
    split
    · obtain ⟨s2, hs2, hi2, he2, hc2⟩ := hreset s1 hi1 he1
      rw [hs2, Out.bind_ok]
      exact hfin ms s2 hi2 he2 hc2
    · rename_i hjn
      refine (hr value s1 hv hi1 (Or.inl (by rw [he1.stack]; exact hnes))
        (by rw [he1.stack, he.stack]; exact hkv)).bind ?_
      rintro ⟨r, s2⟩ ⟨hi2, he2, hc2⟩
      dsimp only at hi2 he2 hc2 ⊢
      cases r with
      | none =>
        obtain ⟨s3, hs3, hi3, he3, hc3⟩ := hreset s2 hi2 (he1.trans he2)
        dsimp only
        rw [hs3, Out.bind_ok]
        exact hfin ms s3 hi3 he3 hc3
      | some v =>
        have he02 : Ext env s0 s2 := he.trans (he1.trans he2)
        have hc02 : cons → s0.pos < s2.pos := by
          intro h
          have := hc h
          have := he1.pos
          have := he2.pos
          omega
        dsimp only
        split
        · exact hfin _ s2 hi2 he02 hc02
        · refine parseRep_holds hr mn mx hv hj hi0 hne hkv hkj hgd cons k' _ s2 hi2 he02 hc02 ?_
          rcases hgd with h | h
          · exact Or.inl h
          · refine hk.imp_right fun hk => ?_
            have hlt : s.pos < s2.pos := by
              have h1 := he1.pos
              have h2 := he2.pos
              rcases h with h | ⟨c, hc, hcc⟩
              · have := hc2 h rfl
                omega
              · have := hc1 (by simpa using hjn) c hc hcc
                omega
            have := hi2.pos
            omega

theorem parseKind_holds {env : Env V H} {nn : Nat → Prop} {rec_ : Node → Run V H}
    (hst : env.st.Valid) (hg : env.g.WfT nn T) (hr : RecHolds env nn T D k rec_) (n : Node) (s : St V H)
    (hn : n.All (Node.Ok env.g nn T)) (hi : Inv env nn s) (hne : 0 < s.stack.length)
    (hrule : ∀ id, n ≠ .rule id) (hk : T ∨ need env.st.len D n s.stack.length ≤ k + 1) :
    (parseKind env rec_ k n s).Holds T (OkPanic env) (Post env nn (Consumes env.g nn n) s) := by
  have hself : n.measure = sizeOf n := by
    cases n with
    | rule id => exact absurd rfl (hrule id)
    | _ => rfl
  have hchild : ∀ c : Node, c.measure < sizeOf n → T ∨ need env.st.len D c s.stack.length ≤ k := by
    intro c hc
    refine hk.imp_right fun h => ?_
    unfold need at h ⊢
    omega
  have hmle : ∀ c : Node, c.measure ≤ sizeOf c := by
    intro c; cases c <;> simp [Node.measure]
  have hpos : ∀ q, s.pos ≤ q → q ≤ env.st.len → Inv env nn { s with pos := q } ∧ Ext env s { s with pos := q } :=
    fun q h1 h2 => hi.reset hi (Ext.refl _ _) h1 h2
  cases n with
  | str i b =>
    rw [parseKind]
    obtain ⟨r, q, hm, h1, h2, h3, h4⟩ := hst.string s.pos b hi.pos
    rw [hm, Out.ofExcept_ok, Out.bind_ok]
    obtain ⟨hx, hy⟩ := hpos q h1 h2
    cases r with
    | none => exact Post.refl_none hx hy
    | some t =>
      refine ⟨hx, hy, ?_⟩
      intro hc _
      cases hc with
      | str hb =>
        have := h4 rfl
        have : 0 < b.length := by
          cases b with
          | nil => exact absurd rfl hb
          | cons => simp
        show s.pos < q
        omega
  | regex i re =>
    rw [parseKind]
    obtain ⟨r, q, hm, h1, h2, h3, h4⟩ := hst.regexp s.pos re hi.pos
    rw [hm, Out.ofExcept_ok, Out.bind_ok]
    obtain ⟨hx, hy⟩ := hpos q h1 h2
    cases r with
    | none => exact Post.refl_none hx hy
    | some t =>
      refine ⟨hx, hy, ?_⟩
      intro hc _
      cases hc with
      | regex hre =>
        obtain ⟨hq, bs, hbs⟩ := h4 t rfl
        show s.pos < q
        cases ht : t.length with
        | zero => rw [ht] at hbs; exact absurd hbs (hre bs)
        | succ m => omega
  | choice i l =>
    cases hn with
    | choice _ hl =>
      refine (parseAlts_holds hr l s hl hi (Or.inl hne) (fun c hc => hchild c (by
        have := List.sizeOf_lt_of_mem hc
        have := hmle c
        simp only [Node.choice.sizeOf_spec]
        omega))).imp ?_
      rintro x ⟨h1, h2, h3⟩
      refine ⟨h1, h2, fun hc => h3 ?_⟩
      cases hc with
      | choice h => exact h
  | seq i repr l =>
    cases hn with
    | seq _ hl =>
      refine (parseItems_holds hr repr l {} s hl hi hne (fun c hc => hchild c (by
        have := List.sizeOf_lt_of_mem hc
        have := hmle c
        simp only [Node.seq.sizeOf_spec]
        omega))).imp ?_
      rintro x ⟨h1, h2, h3⟩
      refine ⟨h1, h2, fun hc => h3 ?_⟩
      cases hc with
      | seq h h' => exact ⟨_, h, h'⟩
  | exist i it =>
    cases hn with
    | exist _ hit =>
      rw [parseKind]
      refine (hr it s hit hi (Or.inl hne) (hchild it (by
        have := hmle it
        simp only [Node.exist.sizeOf_spec]
        omega))).bind ?_
      rintro ⟨r, s1⟩ ⟨h1, h2, h3⟩
      cases r with
      | none =>
        dsimp only at h1 h2 ⊢
        rw [setPos_eq env hi.pos, Out.bind_ok]
        obtain ⟨hx, hy⟩ := hi.reset h1 h2 (p := s.pos) (Nat.le_refl _) hi.pos
        exact ⟨hx, hy, fun hc => nomatch hc⟩
      | some v => exact ⟨h1, h2, fun hc => nomatch hc⟩
  | look i it =>
    cases hn with
    | look _ hit =>
      rw [parseKind]
      refine (hr it s hit hi (Or.inl hne) (hchild it (by
        have := hmle it
        simp only [Node.look.sizeOf_spec]
        omega))).bind ?_
      rintro ⟨r, s1⟩ ⟨h1, h2, h3⟩
      dsimp only at h1 h2 ⊢
      rw [setPos_eq env hi.pos, Out.bind_ok]
      obtain ⟨hx, hy⟩ := hi.reset h1 h2 (p := s.pos) (Nat.le_refl _) hi.pos
      exact ⟨hx, hy, fun hc => nomatch hc⟩
  | not i it =>
    cases hn with
    | not _ hit =>
      rw [parseKind]
      refine (hr it s hit hi (Or.inl hne) (hchild it (by
        have := hmle it
        simp only [Node.not.sizeOf_spec]
        omega))).bind ?_
      rintro ⟨r, s1⟩ ⟨h1, h2, h3⟩
      dsimp only at h1 h2 ⊢
      rw [setPos_eq env hi.pos, Out.bind_ok]
      obtain ⟨hx, hy⟩ := hi.reset h1 h2 (p := s.pos) (Nat.le_refl _) hi.pos
      cases r with
      | none => exact ⟨hx, hy, fun hc => nomatch hc⟩
      | some v => exact Post.refl_none hx hy
  | pattern i value join mn mx =>
    cases hn with
    | pattern hok hv hj =>
      rw [parseKind]
      have hkv := hchild value (by
        have := hmle value
        simp only [Node.pattern.sizeOf_spec]
        omega)
      refine (hr value s hv hi (Or.inl hne) hkv).bind ?_
      rintro ⟨r, s1⟩ ⟨h1, h2, h3⟩
      cases r with
      | none =>
        dsimp only at h1 h2 ⊢
        rw [setPos_eq env hi.pos, Out.bind_ok]
        obtain ⟨hx, hy⟩ := hi.reset h1 h2 (p := s.pos) (Nat.le_refl _) hi.pos
        split
        · exact Post.refl_none hx hy
        · rename_i hmn
          refine ⟨hx.ofH _ _ _, hy.ofH _ _ _, fun hc => ?_⟩
          cases hc with
          | pattern hp _ => exact absurd hp (by simpa using hmn)
      | some v =>
        refine (parseRep_holds hr mn mx hv hj hi hne hkv ?_ hok.2 (Consumes env.g nn value) k [v] s1 h1 h2
          (fun hc => h3 hc rfl) ?_).imp ?_
        · intro c hc
          subst hc
          exact hchild c (by
            have := hmle c
            simp only [Node.pattern.sizeOf_spec, Option.some.sizeOf_spec]
            omega)
        · refine hk.imp_right fun h => ?_
          unfold need at h
          have : 0 < (Node.pattern i value join mn mx).measure := by
            simp only [Node.measure, Node.pattern.sizeOf_spec]; omega
          omega
        rintro x ⟨k1, k2, k3⟩
        refine ⟨k1, k2, fun hc => ?_⟩
        cases hc with
        | pattern _ hcv => exact k3 hcv
  | ref i nm =>
    rw [parseKind]
    cases hl : env.g.lookup nm with
    | none => exact Or.inr (Or.inr (Or.inr (Or.inl ⟨nm, hl, rfl⟩)))
    | some id =>
      dsimp only
      obtain ⟨top, rest, htop⟩ : ∃ t l, s.stack = t :: l := by
        cases hs : s.stack with
        | nil => rw [hs] at hne; simp at hne
        | cons t l => exact ⟨t, l, rfl⟩
      rw [show stackPeek s = .ok top by simp [stackPeek, htop], Out.bind_ok]
      refine (hr (.rule id) s (.rule ⟨hg.lookup nm id hl, Or.inr trivial⟩) hi (Or.inl hne) (hchild _ (by
        simp only [Node.measure, Node.ref.sizeOf_spec]; omega))).imp ?_
      rintro x ⟨k1, k2, k3⟩
      refine ⟨k1, k2, fun hc => k3 ?_⟩
      cases hc with
      | ref hl' hnn => rw [hl] at hl'; injection hl' with hl'; subst hl'; exact .rule hnn
  | rule id => exact absurd rfl (hrule id)

/-- `D` bounds the size of the rules. -/
def SizeBound (g : Grammar) (D : Nat) : Prop := ∀ n ∈ g.rules, n.measure ≤ D

/-- Rules are not themselves references by number. -/
def Grammar.NoAlias (g : Grammar) : Prop := ∀ n ∈ g.rules, ∀ id, n ≠ .rule id

theorem wrap_holds {env : Env V H} {nn : Nat → Prop} {rec_ : Node → Run V H}
    (hst : env.st.Valid) (hg : env.g.WfT nn T) (hal : env.g.NoAlias) (hD : SizeBound env.g D)
    (hnn : NNClosed env.g nn) (hr : RecHolds env nn T D k rec_) :
    RecHolds env nn T D (k + 1) (wrap env rec_ k) := by
  intro n s hn hi hne hk
  by_cases hrule : ∃ id, n = .rule id
  · obtain ⟨id, rfl⟩ := hrule
    have hid : id < env.g.numRules := by cases hn with | rule h => exact h.1
    unfold wrap
    dsimp only
    have hb : env.g.rules[id]? = some (env.g.rules[id]'hid) := List.getElem?_eq_getElem hid
    generalize hbody : env.g.rules[id]'hid = body at hb
    have hmem : body ∈ env.g.rules := List.mem_of_getElem? hb
    rw [hb]
    dsimp only
    unfold stackPush
    obtain ⟨a, s1, hgf, hi1, he1, hpos1, htab1⟩ := getFrame_ok hi hid
    rw [hgf, Out.bind_ok]
    dsimp only
    obtain ⟨ha1, hap1, -, -, -⟩ := hi1.table _ _ _ htab1
    split
    · rename_i hcap
      rw [Out.bind_ok]
      have hi2 : Inv env nn { s1 with stack := a :: s1.stack } := by
        refine ⟨hi1.pos, hi1.table, hi1.frame, ?_, ?_⟩
        · intro b hb
          rcases List.mem_cons.mp hb with rfl | hb
          · exact ⟨ha1, by show (s1.heap b).pos ≤ s1.pos; omega⟩
          · exact hi1.stack b hb
        · refine List.pairwise_cons.mpr ⟨?_, hi1.sorted⟩
          intro b hb
          have := (hi1.stack b hb).2
          show (s1.heap b).pos ≤ (s1.heap a).pos
          omega
      have hkb : T ∨ need env.st.len D body (s1.stack.length + 1) ≤ k + 1 := by
        refine hk.imp_right fun h => ?_
        unfold need at h ⊢
        rw [← he1.stack] at h
        have h1 := hD body hmem
        obtain ⟨m, hm⟩ : ∃ m, stackCap - s1.stack.length = m + 1 :=
          ⟨stackCap - s1.stack.length - 1, by omega⟩
        have hm' : stackCap - (s1.stack.length + 1) = m := by omega
        rw [hm, Nat.succ_mul] at h
        rw [hm']
        omega
      have hkl : T ∨ env.st.len < k := by
        refine hk.imp_right fun h => ?_
        unfold need at h
        rw [← he1.stack] at h
        obtain ⟨m, hm⟩ : ∃ m, stackCap - s1.stack.length = m + 1 :=
          ⟨stackCap - s1.stack.length - 1, by omega⟩
        rw [hm, Nat.succ_mul] at h
        omega
      refine (loopify_holds (L := s1.stack.length + 1) hb (cons := Consumes env.g nn body) ?_ ?_ k hkl _ hi2
        (by simp)).bind ?_
      · intro t ht htne
        refine prepareResult_holds _ _ t ht (by omega) htne ?_
        intro u hu hune
        exact parseKind_holds hst hg hr body u (hg.rules body hmem) hu (by omega) (hal body hmem)
          (by rw [hune]; exact hkb)
      · intro h; exact hnn id body h hb
      · rintro ⟨r, s3⟩ ⟨h1, h2, h3⟩
        have hstk : s3.stack = a :: s1.stack := h2.stack
        refine ⟨⟨h1.pos, h1.table, h1.frame, ?_, ?_⟩, ⟨?_, ?_, ?_, ?_, ?_⟩, ?_⟩
        · intro b hb
          exact h1.stack b (List.mem_of_mem_tail hb)
        · have := h1.sorted
          show s3.stack.tail.Pairwise _
          exact this.tail
        · have := h2.next; have := he1.next; dsimp only [stackPop] at *; omega
        · have := h2.pos; dsimp only [stackPop] at *; omega
        · show s3.stack.tail = _
          rw [hstk]; exact he1.stack
        · intro h; show s3.loopStack = _; rw [h2.loop h]; exact he1.loop h
        · intro b hb
          have := he1.frame b hb
          exact this.trans (h2.frame b (Nat.lt_of_lt_of_le hb he1.next))
        · intro hc hs
          have hid' : nn id := by cases hc with | rule h => exact h
          have := h3 hid' hs
          show s.pos < s3.pos
          dsimp only at this
          omega
    · exact Or.inr (Or.inr (Or.inr (Or.inr (Or.inl rfl))))
  · have hne' : 0 < s.stack.length := hne.resolve_right hrule
    have hk' : ∀ t : St V H, Inv env nn t → t.stack.length = s.stack.length →
        (parseKind env rec_ k n t).Holds T (OkPanic env) (Post env nn (Consumes env.g nn n) t) :=
      fun t ht htne => parseKind_holds hst hg hr n t hn ht (by omega) (fun id h => hrule ⟨id, h⟩)
        (by rw [htne]; exact hk)
    unfold wrap
    split
    · exact absurd ⟨_, rfl⟩ hrule
    · split
      · exact prepareResult_holds _ _ s hi hne' rfl hk'
      · exact hk' s hi rfl

theorem parse_holds {env : Env V H} {nn : Nat → Prop} (hst : env.st.Valid) (hg : env.g.WfT nn T)
    (hal : env.g.NoAlias) (hD : SizeBound env.g D)
    (hnn : NNClosed env.g nn) : ∀ k, RecHolds env nn T D k (parse env k)
  | 0 => fun _ _ _ _ _ hk => hk.resolve_right (by unfold need; omega)
  | k + 1 => by
    intro n s hn hi hne hk
    rw [parse]
    exact wrap_holds hst hg hal hD hnn (parse_holds hst hg hal hD hnn k) n s hn hi hne hk

/-- A rank: a choice between rules, neither labelled nor with a callback of its own. -/
def Node.IsRank : Node → Prop
  | .choice i l => i.ownLabel = false ∧ i.cb = none ∧ ∀ c ∈ l, ∃ id, c = .rule id
  | _ => False

theorem parse_root_holds {env : Env V H} {nn : Nat → Prop} (hst : env.st.Valid) (hg : env.g.WfT nn T)
    (hal : env.g.NoAlias) (hD : SizeBound env.g D)
    (hnn : NNClosed env.g nn) (k : Nat) (n : Node) (s : St V H) (hroot : n.IsRank)
    (hn : n.All (Node.Ok env.g nn T)) (hi : Inv env nn s)
    (hk : T ∨ need env.st.len D n s.stack.length ≤ k) :
    (parse env k n s).Holds T (OkPanic env) (Post env nn (Consumes env.g nn n) s) := by
  cases k with
  | zero => exact hk.resolve_right (by unfold need; omega)
  | succ k =>
    cases n with
    | choice i l =>
      obtain ⟨h1, h2, h3⟩ := hroot
      cases hn with
      | choice _ hl =>
        rw [parse]
        unfold wrap
        dsimp only
        simp only [Node.info, h1, h2, Option.isSome_none, Bool.or_self, Bool.false_eq_true, if_false]
        rw [parseKind]
        refine (parseAlts_holds (parse_holds hst hg hal hD hnn k) l s hl hi (Or.inr h3) ?_).imp ?_
        · intro c hc
          obtain ⟨id, rfl⟩ := h3 c hc
          refine hk.imp_right fun h => ?_
          unfold need at h ⊢
          have : 0 < (Node.choice i l).measure := by
            simp only [Node.measure, Node.choice.sizeOf_spec]; omega
          have : (Node.rule id).measure = 0 := rfl
          omega
        rintro x ⟨k1, k2, k3⟩
        refine ⟨k1, k2, fun hc => k3 ?_⟩
        cases hc with
        | choice h => exact h
    | _ => exact hroot.elim

theorem newState_inv (env : Env V H) (nn : Nat → Prop) (h : H) {p : Nat} (hp : p ≤ env.st.len) :
    Inv env nn (newState h p : St V H) := by
  refine ⟨hp, ?_, ?_, ?_, ?_⟩
  · intro p i a ha; simp [newState] at ha
  · intro a ha; simp [newState] at ha
  · intro a ha; simp [newState] at ha
  · simp [newState]

end Joeson
