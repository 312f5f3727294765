import Verif.Proofs.Build
/-! # Lemmas about `postinit` -/

namespace Joeson

/-! ## Numbering -/

/-- What the walk has numbered so far: objects and names. -/
def Conn.listed (s : Conn) : List (Nat × String) := s.id2rule.map fun e => (e.1, e.2.2.info.name)

/-- The tables agree with the list of numbered rules. -/
structure Conn.Ok (s : Conn) : Prop where
  num : s.numrules = s.id2rule.length
  names : ∀ nm id, s.lookup nm = some id ↔ IsLast (s.listed.map (·.2)) nm id
  ids : ∀ a id, s.idOf a = some id ↔ IsLast (s.listed.map (·.1)) a id

theorem IsLast.lt {α : Type} {l : List α} {x : α} {k : Nat} (h : IsLast l x k) : k < l.length := by
  have := h.1
  exact (List.getElem?_eq_some_iff.mp this).1

theorem isLast_append {α : Type} {l : List α} {x y : α} {k : Nat} :
    IsLast (l ++ [y]) x k ↔ (x = y ∧ k = l.length) ∨ (x ≠ y ∧ IsLast l x k) := by
  constructor
  · intro h
    have hlt := h.lt
    rw [List.length_append, List.length_singleton] at hlt
    by_cases hk : k = l.length
    · left
      have := h.1
      rw [hk, List.getElem?_append_right (Nat.le_refl _), Nat.sub_self] at this
      simp only [List.getElem?_cons_zero, Option.some.injEq] at this
      exact ⟨this.symm, hk⟩
    · right
      have hk' : k < l.length := by omega
      refine ⟨?_, ?_, ?_⟩
      · rintro rfl
        exact h.2 l.length hk' (by rw [List.getElem?_append_right (Nat.le_refl _), Nat.sub_self]; rfl)
      · rw [← h.1, List.getElem?_append_left hk']
      · intro j hj
        by_cases hj' : j < l.length
        · have := h.2 j hj
          rwa [List.getElem?_append_left hj'] at this
        · rw [List.getElem?_eq_none (by omega)]; simp
  · rintro (⟨rfl, rfl⟩ | ⟨hne, h⟩)
    · refine ⟨by rw [List.getElem?_append_right (Nat.le_refl _), Nat.sub_self]; rfl, ?_⟩
      intro j hj
      rw [List.getElem?_eq_none (by simp; omega)]; simp
    · have hlt := h.lt
      refine ⟨by rw [List.getElem?_append_left hlt]; exact h.1, ?_⟩
      intro j hj
      by_cases hj' : j < l.length
      · rw [List.getElem?_append_left hj']; exact h.2 j hj
      · by_cases he : j = l.length
        · rw [he, List.getElem?_append_right (Nat.le_refl _), Nat.sub_self]
          simpa using fun h => hne h.symm
        · rw [List.getElem?_eq_none (by simp; omega)]; simp

theorem Conn.ok_init : ({} : Conn).Ok where
  num := rfl
  names := fun nm id => by simp [Conn.lookup, IsLast, Conn.listed]
  ids := fun a id => by simp [Conn.idOf, IsLast, Conn.listed]

theorem Conn.Ok.post {s : Conn} (h : s.Ok) (a : Nat) (k : LeafKind) (n : Node) : (s.post a k n).Ok where
  num := by simp [Conn.post, h.num]
  names := fun nm id => by
    have h0 := h.names nm id
    have hl : ((s.post a k n).listed.map (·.2)) = s.listed.map (·.2) ++ [n.info.name] := by simp [Conn.listed, Conn.post]
    rw [hl, isLast_append]
    have hlen : (s.listed.map (·.2)).length = s.numrules := by simp [Conn.listed, h.num]
    rw [hlen]
    simp only [Conn.lookup, Conn.post, List.find?_cons] at h0 ⊢
    by_cases he : n.info.name = nm
    · simp [he, eq_comm]
    · have hb : (n.info.name == nm) = false := by simpa using he
      rw [hb]
      simp only [h0]
      constructor
      · intro h'; exact .inr ⟨fun h => he h.symm, h'⟩
      · rintro (⟨h', _⟩ | ⟨_, h'⟩)
        · exact absurd h'.symm he
        · exact h'
  ids := fun b id => by
    have h0 := h.ids b id
    have hl : ((s.post a k n).listed.map (·.1)) = s.listed.map (·.1) ++ [a] := by simp [Conn.listed, Conn.post]
    rw [hl, isLast_append]
    have hlen : (s.listed.map (·.1)).length = s.numrules := by simp [Conn.listed, h.num]
    rw [hlen]
    simp only [Conn.idOf, Conn.post, List.find?_cons] at h0 ⊢
    by_cases he : a = b
    · simp [he, eq_comm]
    · have hb : (a == b) = false := by simpa using he
      rw [hb]
      simp only [h0]
      constructor
      · intro h'; exact .inr ⟨fun h => he h.symm, h'⟩
      · rintro (⟨h', _⟩ | ⟨_, h'⟩)
        · exact absurd h'.symm he
        · exact h'

theorem Conn.Ok.seen {s : Conn} (h : s.Ok) (l : List Nat) : ({ s with seen := l } : Conn).Ok := ⟨h.num, h.names, h.ids⟩

theorem Node.attach_name (rn : String) (p : Bool) (n : Node) : (n.attach rn p).info.name = n.info.name := by
  match n with
  | .pattern _ _ none _ _ | .pattern _ _ (some _) _ _ => rfl
  | .str _ _ | .regex _ _ | .choice _ _ | .seq _ _ _ | .exist _ _ | .look _ _ | .not _ _ | .ref _ _ | .rule _ => rfl

mutual
theorem connect_listed : ∀ (t : Rules) {rn : String} {s s' : Conn} {n : Node}, s.Ok → connect rn s t = .ok (n, s') →
    s'.Ok ∧ s'.listed = s.listed ++ t.walk
  | .leaf a .rule n, rn, s, s', m, hs, h => by
    simp only [connect] at h
    split at h
    · cases h
    · cases h
      exact ⟨(hs.seen _).post _ _ _, by simp [Conn.listed, Conn.post, Rules.walk, Node.attach_name]⟩
  | .leaf a .wrapped n, rn, s, s', m, hs, h => by
    simp only [connect] at h
    split at h
    · cases h
    · cases h
      exact ⟨(hs.seen _).post _ _ _, by simp [Conn.listed, Conn.post, Rules.walk, Node.attach_name]⟩
  | .leaf a .part n, rn, s, s', m, hs, h => by
    simp only [connect] at h
    split at h
    · cases h
    · cases h
      exact ⟨hs.seen _, by simp [Conn.listed, Rules.walk]⟩
  | .rank a true i incl alts, rn, s, s', m, hs, h => by
    simp only [connect, exceptBindOk, exceptPureOk, Prod.exists, Prod.mk.injEq] at h
    obtain ⟨l1, s1, h1, l2, s2, h2, rfl, rfl⟩ := h
    obtain ⟨ho1, hl1⟩ := connectList_listed incl hs h1
    obtain ⟨ho2, hl2⟩ := connectList_listed alts ho1 h2
    refine ⟨ho2.post _ _ _, ?_⟩
    have : (s2.post a .rule (.choice { i with parent := some false, ruleName := i.name } l2)).listed = s2.listed ++ [(a, i.name)] := by
      simp [Conn.listed, Conn.post, Node.info]
    rw [this, hl2, hl1]
    simp [Rules.walk]
  | .rank a false i incl alts, rn, s, s', m, hs, h => by
    simp only [connect, exceptBindOk, exceptPureOk, Prod.exists, Prod.mk.injEq] at h
    obtain ⟨l1, s1, h1, l2, s2, h2, rfl, rfl⟩ := h
    obtain ⟨ho1, hl1⟩ := connectList_listed incl hs h1
    obtain ⟨ho2, hl2⟩ := connectList_listed alts ho1 h2
    refine ⟨ho2, ?_⟩
    rw [hl2, hl1]
    simp [Rules.walk]
theorem connectList_listed : ∀ (t : List Rules) {rn : String} {s s' : Conn} {l : List Node}, s.Ok →
    connectList rn s t = .ok (l, s') → s'.Ok ∧ s'.listed = s.listed ++ Rules.walkList t
  | [], rn, s, s', m, hs, h => by
    cases h; exact ⟨hs, by simp [Rules.walkList]⟩
  | x :: t, rn, s, s', m, hs, h => by
    simp only [connectList, exceptBindOk, exceptPureOk, Prod.exists, Prod.mk.injEq] at h
    obtain ⟨l1, s1, h1, l2, s2, h2, rfl, rfl⟩ := h
    obtain ⟨ho1, hl1⟩ := connect_listed x hs h1
    obtain ⟨ho2, hl2⟩ := connectList_listed t ho1 h2
    exact ⟨ho2, by rw [hl2, hl1, List.append_assoc]; rfl⟩
end

/-! ## Rule numbers stay below the number of rules -/

theorem Node.Below.mono {N M : Nat} (hNM : N ≤ M) {n : Node} (h : n.Below N) : n.Below M := by
  induction h with
  | str => exact .str
  | regex => exact .regex
  | choice _ ih => exact .choice ih
  | seq _ ih => exact .seq ih
  | exist _ ih => exact .exist ih
  | look _ ih => exact .look ih
  | not _ ih => exact .not ih
  | pattern _ _ ih ihj => exact .pattern ih ihj
  | ref => exact .ref
  | rule hlt => exact .rule (by omega)

theorem attachList_mem {rn : String} {p : Bool} {l : List Node} {P : Node → Prop} (h : ∀ c ∈ l, P (c.attach rn p)) :
    ∀ c ∈ Node.attachList rn p l, P c := by
  induction l with
  | nil => intro c hc; cases hc
  | cons x l ih =>
    intro c hc
    rcases List.mem_cons.mp hc with rfl | hc
    · exact h x (List.mem_cons_self ..)
    · exact ih (fun c hc => h c (List.mem_cons_of_mem _ hc)) c hc

theorem Node.Plain.attach_below {N : Nat} {rn : String} {n : Node} (h : n.Plain) : ∀ p, (n.attach rn p).Below N := by
  induction h with
  | str => exact fun _ => .str
  | regex => exact fun _ => .regex
  | choice _ _ ih => exact fun _ => .choice (attachList_mem fun c hc => ih c hc _)
  | seq _ ih => exact fun _ => .seq (attachList_mem fun c hc => ih c hc _)
  | exist _ ih => exact fun _ => .exist (ih _)
  | look _ ih => exact fun _ => .look (ih _)
  | not _ ih => exact fun _ => .not (ih _)
  | @pattern i v j mn mx hv hj ih ihj =>
    intro p
    cases j with
    | none => exact .pattern (ih _) (by intro c hc; cases hc)
    | some c => exact .pattern (ih _) (by intro c' hc; cases hc; exact ihj c rfl _)
  | ref => exact fun _ => .ref

/-- Not a link. -/
def Node.isLink : Node → Bool
  | .rule _ => true
  | _ => false

theorem Node.isLink_false {n : Node} : n.isLink = false ↔ ∀ id, n ≠ .rule id := by
  cases n <;> simp [Node.isLink]

theorem Node.attach_link (rn : String) (p : Bool) (n : Node) : (n.attach rn p).isLink = n.isLink := by
  match n with
  | .pattern _ _ none _ _ | .pattern _ _ (some _) _ _ => rfl
  | .str _ _ | .regex _ _ | .choice _ _ | .seq _ _ _ | .exist _ _ | .look _ _ | .not _ _ | .ref _ _ | .rule _ => rfl

/-- What is known of the rules numbered so far. -/
structure Conn.Good (s : Conn) : Prop where
  below : ∀ e ∈ s.id2rule, e.2.2.Below s.numrules
  link : ∀ e ∈ s.id2rule, e.2.2.isLink = false

theorem Conn.Good.post {s : Conn} (h : s.Good) {a : Nat} {k : LeafKind} {n : Node} (hn : n.Below s.numrules) (hl : n.isLink = false) :
    (s.post a k n).Good where
  below := by
    intro e he
    rcases List.mem_append.mp he with he | he
    · exact (h.below e he).mono (Nat.le_succ _)
    · rw [List.mem_singleton.mp he]; exact hn.mono (Nat.le_succ _)
  link := by
    intro e he
    rcases List.mem_append.mp he with he | he
    · exact h.link e he
    · rw [List.mem_singleton.mp he]; exact hl

/-- The kind of a rule. -/
def Conn.kind (s : Conn) (id : Nat) : Option LeafKind := (s.id2rule[id]?).map (·.2.1)

/-- Is the tree a rank, or a parser that is memoised? -/
def Rules.memoised : Rules → Bool
  | .leaf _ .rule _ => true
  | .leaf _ _ _ => false
  | .rank _ r _ _ _ => r

theorem Conn.kind_post {s : Conn} {a : Nat} {k : LeafKind} {n : Node} (hs : s.Ok) : (s.post a k n).kind s.numrules = some k := by
  simp [Conn.kind, Conn.post, hs.num]

/-- More rules. -/
structure Conn.Ext (s s' : Conn) : Prop where
  le : s.numrules ≤ s'.numrules
  kind : ∀ id k, s.kind id = some k → s'.kind id = some k

theorem Conn.Ext.trans {s s' s'' : Conn} (h : s.Ext s') (h' : s'.Ext s'') : s.Ext s'' :=
  ⟨Nat.le_trans h.le h'.le, fun id k hk => h'.kind id k (h.kind id k hk)⟩

theorem Conn.ext_post {s : Conn} {a : Nat} {k : LeafKind} {n : Node} : s.Ext (s.post a k n) where
  le := Nat.le_succ _
  kind := by
    intro id k' hk
    simp only [Conn.kind, Option.map_eq_some_iff] at hk ⊢
    obtain ⟨e, he, rfl⟩ := hk
    refine ⟨e, ?_, rfl⟩
    have hlt := (List.getElem?_eq_some_iff.mp he).1
    simp only [Conn.post]
    rw [List.getElem?_append_left hlt, he]

mutual
theorem connect_good : ∀ (t : Rules) {rn : String} {s s' : Conn} {n : Node}, t.Plain → t.isRule = true →
    s.Ok → s.Good → connect rn s t = .ok (n, s') →
    s'.Good ∧ s.Ext s' ∧ ∃ id, n = .rule id ∧ id < s'.numrules ∧ (t.memoised = true → s'.kind id = some .rule)
  | .leaf a .rule n, rn, s, s', m, ht, _, ho, hs, h => by
    have hn : n.Plain := by cases ht; assumption
    simp only [connect] at h
    split at h
    · cases h
    · cases h
      have hg : ({ s with seen := a :: s.seen } : Conn).Good := ⟨hs.below, hs.link⟩
      refine ⟨hg.post (hn.attach_below _) (by rw [Node.attach_link, Node.isLink_false]; exact hn.notRule), ?_, _, rfl, Nat.lt_succ_self _, ?_⟩
      · exact Conn.Ext.trans (s' := { s with seen := a :: s.seen }) ⟨Nat.le_refl _, fun _ _ h => h⟩ Conn.ext_post
      · exact fun _ => Conn.kind_post (ho.seen (a :: s.seen))
  | .leaf a .wrapped n, rn, s, s', m, ht, _, ho, hs, h => by
    have hn : n.Plain := by cases ht; assumption
    simp only [connect] at h
    split at h
    · cases h
    · cases h
      have hg : ({ s with seen := a :: s.seen } : Conn).Good := ⟨hs.below, hs.link⟩
      refine ⟨hg.post (hn.attach_below _) (by rw [Node.attach_link, Node.isLink_false]; exact hn.notRule), ?_, _, rfl, Nat.lt_succ_self _, ?_⟩
      · exact Conn.Ext.trans (s' := { s with seen := a :: s.seen }) ⟨Nat.le_refl _, fun _ _ h => h⟩ Conn.ext_post
      · exact fun h => by cases h
  | .leaf a .part n, rn, s, s', m, ht, _, ho, hs, h => by
    cases ht with
    | leaf _ hk => exact absurd rfl hk
  | .rank a true i incl alts, rn, s, s', m, ht, _, ho, hs, h => by
    obtain ⟨hp1, hp2, hp3, hp4⟩ : (∀ x ∈ incl, x.Plain) ∧ (∀ x ∈ alts, x.Plain) ∧ (∀ x ∈ incl, x.isRule = true) ∧
        ∀ x ∈ alts, x.isRule = true := by
      cases ht; exact ⟨by assumption, by assumption, by assumption, by assumption⟩
    simp only [connect, exceptBindOk, exceptPureOk, Prod.exists, Prod.mk.injEq] at h
    obtain ⟨l1, s1, h1, l2, s2, h2, rfl, rfl⟩ := h
    obtain ⟨hg1, he1, _⟩ := connectList_good incl hp1 hp3 ho hs h1
    have ho1 := (connectList_listed incl ho h1).1
    obtain ⟨hg2, he2, hl2⟩ := connectList_good alts hp2 hp4 ho1 hg1 h2
    have ho2 := (connectList_listed alts ho1 h2).1
    refine ⟨hg2.post (.choice ?_) rfl, (he1.trans he2).trans Conn.ext_post, _, rfl, Nat.lt_succ_self _, fun _ => Conn.kind_post ho2⟩
    intro c hc
    obtain ⟨id, rfl, hlt, _⟩ := hl2 c hc
    exact .rule hlt
  | .rank a false i incl alts, rn, s, s', m, ht, hr, ho, hs, h => by cases hr
theorem connectList_good : ∀ (t : List Rules) {rn : String} {s s' : Conn} {l : List Node}, (∀ x ∈ t, x.Plain) →
    (∀ x ∈ t, x.isRule = true) →
    s.Ok → s.Good → connectList rn s t = .ok (l, s') →
    s'.Good ∧ s.Ext s' ∧ ∀ n ∈ l, ∃ id, n = .rule id ∧ id < s'.numrules ∧ ((∀ x ∈ t, x.memoised = true) → s'.kind id = some .rule)
  | [], rn, s, s', m, _, _, _, hs, h => by
    cases h; exact ⟨hs, ⟨Nat.le_refl _, fun _ _ h => h⟩, by simp⟩
  | x :: t, rn, s, s', m, ht, hr, ho, hs, h => by
    simp only [connectList, exceptBindOk, exceptPureOk, Prod.exists, Prod.mk.injEq] at h
    obtain ⟨n1, s1, h1, l2, s2, h2, rfl, rfl⟩ := h
    obtain ⟨hg1, he1, id, rfl, hlt, hk⟩ := connect_good x (ht x (List.mem_cons_self ..)) (hr x (List.mem_cons_self ..)) ho hs h1
    obtain ⟨hg2, he2, hl2⟩ := connectList_good t (fun y hy => ht y (List.mem_cons_of_mem _ hy))
      (fun y hy => hr y (List.mem_cons_of_mem _ hy)) (connect_listed x ho h1).1 hg1 h2
    refine ⟨hg2, he1.trans he2, ?_⟩
    intro n hn
    rcases List.mem_cons.mp hn with rfl | hn
    · exact ⟨id, rfl, Nat.lt_of_lt_of_le hlt he2.le, fun hm => he2.kind _ _ (hk (hm x (List.mem_cons_self ..)))⟩
    · obtain ⟨id, rfl, hlt, hk⟩ := hl2 n hn
      exact ⟨id, rfl, hlt, fun hm => hk fun y hy => hm y (List.mem_cons_of_mem _ hy)⟩
end


theorem prepList_mem {labels : Node → Except Panic Bool} {rules : List Node} {l l' : List Node} (h : Node.prepList labels rules l = .ok l') :
    l'.length = l.length ∧ ∀ (k : Nat) (c' : Node), l'[k]? = some c' → ∃ c : Node, l[k]? = some c ∧ c.prep labels rules = .ok c' := by
  induction l generalizing l' with
  | nil => cases h; exact ⟨rfl, by simp⟩
  | cons x l ih =>
    simp only [Node.prepList, exceptBindOk, exceptPureOk] at h
    obtain ⟨x', hx, l1, hl, rfl⟩ := h
    obtain ⟨h1, h2⟩ := ih hl
    refine ⟨by simp [h1], ?_⟩
    intro k c' hk
    cases k with
    | zero => cases hk; exact ⟨x, rfl, hx⟩
    | succ k => exact h2 k c' hk

theorem prep_kept {labels : Node → Except Panic Bool} {rules : List Node} {n n' : Node} (h : n.prep labels rules = .ok n') : n'.info.name = n.info.name ∧ n'.isLink = n.isLink := by
  match n with
  | .str _ _ | .regex _ _ => cases h; exact ⟨rfl, rfl⟩
  | .choice _ _ | .seq _ _ _ | .exist _ _ | .look _ _ | .not _ _ | .pattern _ _ none _ _ | .pattern _ _ (some _) _ _ =>
    simp only [Node.prep, exceptBindOk, exceptPureOk] at h
    first
    | (obtain ⟨_, _, rfl⟩ := h; exact ⟨rfl, rfl⟩)
    | (obtain ⟨_, _, _, _, rfl⟩ := h; exact ⟨rfl, rfl⟩)
  | .ref _ _ | .rule _ => cases h; exact ⟨rfl, rfl⟩

theorem prep_below {labels : Node → Except Panic Bool} {rules : List Node} {N : Nat} {n : Node} (hn : n.Below N) : ∀ {n' : Node}, n.prep labels rules = .ok n' → n'.Below N := by
  have hmem : ∀ {l l' : List Node}, (∀ c ∈ l, ∀ {c' : Node}, c.prep labels rules = .ok c' → c'.Below N) →
      Node.prepList labels rules l = .ok l' → ∀ c ∈ l', c.Below N := by
    intro l l' hl h c hc
    obtain ⟨k, hk⟩ := List.mem_iff_getElem?.mp hc
    obtain ⟨d, hd, hdc⟩ := (prepList_mem h).2 k c hk
    exact hl d (List.mem_of_getElem? hd) hdc
  induction hn with
  | str => intro n' h; cases h; exact .str
  | regex => intro n' h; cases h; exact .regex
  | choice _ ih =>
    intro n' h
    simp only [Node.prep, exceptBindOk, exceptPureOk] at h
    obtain ⟨l', hl, rfl⟩ := h
    exact .choice (hmem ih hl)
  | seq _ ih =>
    intro n' h
    simp only [Node.prep, exceptBindOk, exceptPureOk] at h
    obtain ⟨l', hl, rfl⟩ := h
    exact .seq (hmem ih hl)
  | exist _ ih =>
    intro n' h
    simp only [Node.prep, exceptBindOk, exceptPureOk] at h
    obtain ⟨l', hl, _, _, rfl⟩ := h
    exact .exist (ih hl)
  | look _ ih =>
    intro n' h
    simp only [Node.prep, exceptBindOk, exceptPureOk] at h
    obtain ⟨l', hl, rfl⟩ := h
    exact .look (ih hl)
  | not _ ih =>
    intro n' h
    simp only [Node.prep, exceptBindOk, exceptPureOk] at h
    obtain ⟨l', hl, rfl⟩ := h
    exact .not (ih hl)
  | @pattern i v j mn mx _ _ ih ihj =>
    intro n' h
    cases j with
    | none =>
      simp only [Node.prep, exceptBindOk, exceptPureOk] at h
      obtain ⟨l', hl, rfl⟩ := h
      exact .pattern (ih hl) (by intro c hc; cases hc)
    | some c =>
      simp only [Node.prep, exceptBindOk, exceptPureOk] at h
      obtain ⟨l', hl, j', hj, rfl⟩ := h
      exact .pattern (ih hl) (by intro c' hc; cases hc; exact ihj c rfl hj)
  | ref => intro n' h; cases h; exact .ref
  | rule hlt => intro n' h; cases h; exact .rule hlt

theorem setTypesList_mem {labels : Node → Except Panic Bool} {l l' : List Node} (h : Node.setTypesList labels l = .ok l') :
    l'.length = l.length ∧ ∀ (k : Nat) (c' : Node), l'[k]? = some c' → ∃ c : Node, l[k]? = some c ∧ c.setTypes labels = .ok c' := by
  induction l generalizing l' with
  | nil => cases h; exact ⟨rfl, by simp⟩
  | cons x l ih =>
    simp only [Node.setTypesList, exceptBindOk, exceptPureOk] at h
    obtain ⟨x', hx, l1, hl, rfl⟩ := h
    obtain ⟨h1, h2⟩ := ih hl
    refine ⟨by simp [h1], ?_⟩
    intro k c' hk
    cases k with
    | zero => cases hk; exact ⟨x, rfl, hx⟩
    | succ k => exact h2 k c' hk

theorem setTypes_kept {labels : Node → Except Panic Bool} {n n' : Node} (h : n.setTypes labels = .ok n') : n'.info.name = n.info.name ∧ n'.isLink = n.isLink := by
  match n with
  | .str _ _ | .regex _ _ => cases h; exact ⟨rfl, rfl⟩
  | .choice _ _ | .seq _ _ _ | .exist _ _ | .look _ _ | .not _ _ | .pattern _ _ none _ _ | .pattern _ _ (some _) _ _ =>
    simp only [Node.setTypes, exceptBindOk, exceptPureOk] at h
    first
    | (obtain ⟨_, _, rfl⟩ := h; exact ⟨rfl, rfl⟩)
    | (obtain ⟨_, _, _, _, rfl⟩ := h; exact ⟨rfl, rfl⟩)
  | .ref _ _ | .rule _ => cases h; exact ⟨rfl, rfl⟩

theorem setTypes_below {labels : Node → Except Panic Bool} {N : Nat} {n : Node} (hn : n.Below N) : ∀ {n' : Node}, n.setTypes labels = .ok n' → n'.Below N := by
  have hmem : ∀ {l l' : List Node}, (∀ c ∈ l, ∀ {c' : Node}, c.setTypes labels = .ok c' → c'.Below N) →
      Node.setTypesList labels l = .ok l' → ∀ c ∈ l', c.Below N := by
    intro l l' hl h c hc
    obtain ⟨k, hk⟩ := List.mem_iff_getElem?.mp hc
    obtain ⟨d, hd, hdc⟩ := (setTypesList_mem h).2 k c hk
    exact hl d (List.mem_of_getElem? hd) hdc
  induction hn with
  | str => intro n' h; cases h; exact .str
  | regex => intro n' h; cases h; exact .regex
  | choice _ ih =>
    intro n' h
    simp only [Node.setTypes, exceptBindOk, exceptPureOk] at h
    obtain ⟨l', hl, rfl⟩ := h
    exact .choice (hmem ih hl)
  | seq _ ih =>
    intro n' h
    simp only [Node.setTypes, exceptBindOk, exceptPureOk] at h
    obtain ⟨_, _, l', hl, rfl⟩ := h
    exact .seq (hmem ih hl)
  | exist _ ih =>
    intro n' h
    simp only [Node.setTypes, exceptBindOk, exceptPureOk] at h
    obtain ⟨l', hl, rfl⟩ := h
    exact .exist (ih hl)
  | look _ ih =>
    intro n' h
    simp only [Node.setTypes, exceptBindOk, exceptPureOk] at h
    obtain ⟨l', hl, rfl⟩ := h
    exact .look (ih hl)
  | not _ ih =>
    intro n' h
    simp only [Node.setTypes, exceptBindOk, exceptPureOk] at h
    obtain ⟨l', hl, rfl⟩ := h
    exact .not (ih hl)
  | @pattern i v j mn mx _ _ ih ihj =>
    intro n' h
    cases j with
    | none =>
      simp only [Node.setTypes, exceptBindOk, exceptPureOk] at h
      obtain ⟨l', hl, rfl⟩ := h
      exact .pattern (ih hl) (by intro c hc; cases hc)
    | some c =>
      simp only [Node.setTypes, exceptBindOk, exceptPureOk] at h
      obtain ⟨l', hl, j', hj, rfl⟩ := h
      exact .pattern (ih hl) (by intro c' hc; cases hc; exact ihj c rfl hj)
  | ref => intro n' h; cases h; exact .ref
  | rule hlt => intro n' h; cases h; exact .rule hlt

theorem inlineList_mem {target : String → Except Panic (Option Node)} {link : Nat → Except Panic (Option Node)} {l l' : List Node} (h : Node.inlineList target link l = .ok l') :
    l'.length = l.length ∧ ∀ (k : Nat) (c' : Node), l'[k]? = some c' → ∃ c : Node, l[k]? = some c ∧ c.inline target link = .ok c' := by
  induction l generalizing l' with
  | nil => cases h; exact ⟨rfl, by simp⟩
  | cons x l ih =>
    simp only [Node.inlineList, exceptBindOk, exceptPureOk] at h
    obtain ⟨x', hx, l1, hl, rfl⟩ := h
    obtain ⟨h1, h2⟩ := ih hl
    refine ⟨by simp [h1], ?_⟩
    intro k c' hk
    cases k with
    | zero => cases hk; exact ⟨x, rfl, hx⟩
    | succ k => exact h2 k c' hk

theorem inline_kept {target : String → Except Panic (Option Node)} {link : Nat → Except Panic (Option Node)} {n n' : Node} (hn : n.isLink = false) (h : n.inline target link = .ok n') : n'.info.name = n.info.name ∧ n'.isLink = n.isLink := by
  match n with
  | .str _ _ | .regex _ _ => cases h; exact ⟨rfl, rfl⟩
  | .choice _ _ | .seq _ _ _ | .exist _ _ | .look _ _ | .not _ _ | .pattern _ _ none _ _ | .pattern _ _ (some _) _ _ =>
    simp only [Node.inline, exceptBindOk, exceptPureOk] at h
    first
    | (obtain ⟨_, _, rfl⟩ := h; exact ⟨rfl, rfl⟩)
    | (obtain ⟨_, _, _, _, rfl⟩ := h; exact ⟨rfl, rfl⟩)
  | .ref i nm =>
    simp only [Node.inline, exceptBindOk] at h
    obtain ⟨o, _, h⟩ := h
    cases o <;> (simp only [exceptPureOk] at h; subst h; exact ⟨rfl, rfl⟩)
  | .rule _ => cases hn

theorem inline_below {target : String → Except Panic (Option Node)} {link : Nat → Except Panic (Option Node)} {N : Nat} {n : Node} (hn : n.Below N) (ht : ∀ nm m, target nm = .ok (some m) → m.Below N)
    (hk : ∀ id m, link id = .ok (some m) → m.Below N) : ∀ {n' : Node}, n.inline target link = .ok n' → n'.Below N := by
  have hmem : ∀ {l l' : List Node}, (∀ c ∈ l, ∀ {c' : Node}, c.inline target link = .ok c' → c'.Below N) →
      Node.inlineList target link l = .ok l' → ∀ c ∈ l', c.Below N := by
    intro l l' hl h c hc
    obtain ⟨k, hk⟩ := List.mem_iff_getElem?.mp hc
    obtain ⟨d, hd, hdc⟩ := (inlineList_mem h).2 k c hk
    exact hl d (List.mem_of_getElem? hd) hdc
  induction hn with
  | str => intro n' h; cases h; exact .str
  | regex => intro n' h; cases h; exact .regex
  | choice _ ih =>
    intro n' h
    simp only [Node.inline, exceptBindOk, exceptPureOk] at h
    obtain ⟨l', hl, rfl⟩ := h
    exact .choice (hmem ih hl)
  | seq _ ih =>
    intro n' h
    simp only [Node.inline, exceptBindOk, exceptPureOk] at h
    obtain ⟨l', hl, rfl⟩ := h
    exact .seq (hmem ih hl)
  | exist _ ih =>
    intro n' h
    simp only [Node.inline, exceptBindOk, exceptPureOk] at h
    obtain ⟨l', hl, rfl⟩ := h
    exact .exist (ih hl)
  | look _ ih =>
    intro n' h
    simp only [Node.inline, exceptBindOk, exceptPureOk] at h
    obtain ⟨l', hl, rfl⟩ := h
    exact .look (ih hl)
  | not _ ih =>
    intro n' h
    simp only [Node.inline, exceptBindOk, exceptPureOk] at h
    obtain ⟨l', hl, rfl⟩ := h
    exact .not (ih hl)
  | @pattern i v j mn mx _ _ ih ihj =>
    intro n' h
    cases j with
    | none =>
      simp only [Node.inline, exceptBindOk, exceptPureOk] at h
      obtain ⟨l', hl, rfl⟩ := h
      exact .pattern (ih hl) (by intro c hc; cases hc)
    | some c =>
      simp only [Node.inline, exceptBindOk, exceptPureOk] at h
      obtain ⟨l', hl, j', hj, rfl⟩ := h
      exact .pattern (ih hl) (by intro c' hc; cases hc; exact ihj c rfl hj)
  | ref =>
    intro n' h
    simp only [Node.inline, exceptBindOk] at h
    obtain ⟨o, ho, h⟩ := h
    cases o with
    | none => simp only [exceptPureOk] at h; subst h; exact .ref
    | some m =>
      simp only [exceptPureOk] at h; subst h
      refine .choice ?_
      intro c hc
      rw [List.mem_singleton.mp hc]
      exact ht _ _ ho
  | rule hlt =>
    intro n' h
    simp only [Node.inline, exceptBindOk] at h
    obtain ⟨o, ho, h⟩ := h
    cases o with
    | none => simp only [exceptPureOk] at h; subst h; exact .rule hlt
    | some m => simp only [exceptPureOk] at h; subst h; exact hk _ _ ho

/-- A list of rules after a pass: as many, with the same names, in bounds and no links. -/
structure Passed (N : Nat) (l l' : List Node) : Prop where
  names : l'.map (·.info.name) = l.map (·.info.name)
  below : ∀ n ∈ l', n.Below N
  link : ∀ n ∈ l', n.isLink = false

theorem prepAll_passed {lookup : String → Option Nat} {N : Nat} {l : List Node} (hb : ∀ n ∈ l, n.Below N)
    (hk : ∀ n ∈ l, n.isLink = false) : ∀ {d l' : List Node}, (∀ n ∈ d, n.Below N) → (∀ n ∈ d, n.isLink = false) →
      prepAll lookup l d = .ok l' → Passed N (d ++ l) l' := by
  induction l with
  | nil => intro d l' hd hd' h; cases h; exact ⟨by simp, hd, hd'⟩
  | cons x l ih =>
    intro d l' hd hd' h
    simp only [prepAll, exceptBindOk] at h
    obtain ⟨x', hx, h⟩ := h
    obtain ⟨h1, h2⟩ := prep_kept hx
    have hpb := prep_below (hb x (List.mem_cons_self ..)) hx
    have := ih (fun n hn => hb n (List.mem_cons_of_mem _ hn)) (fun n hn => hk n (List.mem_cons_of_mem _ hn))
      (d := d ++ [x']) (fun n hn => by
        rcases List.mem_append.mp hn with hn | hn
        · exact hd n hn
        · rw [List.mem_singleton.mp hn]; exact hpb)
      (fun n hn => by
        rcases List.mem_append.mp hn with hn | hn
        · exact hd' n hn
        · rw [List.mem_singleton.mp hn, h2]; exact hk x (List.mem_cons_self ..)) h
    refine ⟨?_, this.below, this.link⟩
    rw [this.names]
    simp [h1]

theorem setTypesAll_passed {labels : Node → Except Panic Bool} {N : Nat} {l : List Node} (hb : ∀ n ∈ l, n.Below N)
    (hk : ∀ n ∈ l, n.isLink = false) : ∀ {l' : List Node}, setTypesAll labels l = .ok l' → Passed N l l' := by
  induction l with
  | nil => intro l' h; cases h; exact ⟨rfl, by simp, by simp⟩
  | cons x l ih =>
    intro l' h
    simp only [setTypesAll, exceptBindOk, exceptPureOk] at h
    obtain ⟨x', hx, l1, hl, rfl⟩ := h
    obtain ⟨h1, h2⟩ := setTypes_kept hx
    have := ih (fun n hn => hb n (List.mem_cons_of_mem _ hn)) (fun n hn => hk n (List.mem_cons_of_mem _ hn)) hl
    refine ⟨by simp [this.names, h1], ?_, ?_⟩
    · intro n hn
      rcases List.mem_cons.mp hn with rfl | hn
      · exact setTypes_below (hb x (List.mem_cons_self ..)) hx
      · exact this.below n hn
    · intro n hn
      rcases List.mem_cons.mp hn with rfl | hn
      · rw [h2]; exact hk x (List.mem_cons_self ..)
      · exact this.link n hn

theorem inlineAll_passed {target : String → Except Panic (Option Node)} {link : Nat → Except Panic (Option Node)} {N : Nat}
    (ht : ∀ nm m, target nm = .ok (some m) → m.Below N) (hk : ∀ id m, link id = .ok (some m) → m.Below N)
    {l : List Node} (hb : ∀ n ∈ l, n.Below N)
    (hl : ∀ n ∈ l, n.isLink = false) : ∀ {l' : List Node}, inlineAll target link l = .ok l' → Passed N l l' := by
  induction l with
  | nil => intro l' h; cases h; exact ⟨rfl, by simp, by simp⟩
  | cons x l ih =>
    intro l' h
    simp only [inlineAll, exceptBindOk, exceptPureOk] at h
    obtain ⟨x', hx, l1, hl1, rfl⟩ := h
    obtain ⟨h1, h2⟩ := inline_kept (hl x (List.mem_cons_self ..)) hx
    have := ih (fun n hn => hb n (List.mem_cons_of_mem _ hn)) (fun n hn => hl n (List.mem_cons_of_mem _ hn)) hl1
    refine ⟨by simp [this.names, h1], ?_, ?_⟩
    · intro n hn
      rcases List.mem_cons.mp hn with rfl | hn
      · exact inline_below (hb x (List.mem_cons_self ..)) ht hk hx
      · exact this.below n hn
    · intro n hn
      rcases List.mem_cons.mp hn with rfl | hn
      · rw [h2]; exact hl x (List.mem_cons_self ..)
      · exact this.link n hn

theorem inlineRule_below {lookup : String → Option Nat} {kinds : List LeafKind} {rules : List Node} {N : Nat}
    (hb : ∀ n ∈ rules, n.Below N) : ∀ (k id : Nat) (m : Node), inlineRule lookup kinds rules k id = .ok (some m) → m.Below N := by
  intro k
  induction k with
  | zero =>
    intro id m h
    unfold inlineRule at h
    split at h
    · cases h
    · cases h
  | succ k ih =>
    intro id m h
    unfold inlineRule at h
    split at h
    · rename_i n _ hn
      simp only [exceptBindOk, exceptPureOk, Option.some.injEq] at h
      obtain ⟨m', h, rfl⟩ := h
      refine inline_below (hb n (List.mem_of_getElem? hn)) ?_ (ih · ·) h
      intro nm m'' hm
      split at hm
      · exact ih _ _ hm
      · cases hm
    · cases h

theorem inlineRule_none {lookup : String → Option Nat} {kinds : List LeafKind} {rules : List Node} {k id : Nat}
    (h : kinds[id]? = some .rule) : inlineRule lookup kinds rules k id = .ok none := by
  unfold inlineRule
  rw [h]

/-! ## From lines -/

section
variable {compile : Bytes → Except Panic Node} (hc : ∀ s n, compile s = .ok n → n.Plain)

theorem Rules.memoised_setInfo (x : Rules) (f : Info → Info) : (x.setInfo f).memoised = x.memoised := by
  cases x with
  | leaf a k n => cases k <;> rfl
  | rank a r i incl alts => rfl

include hc in
theorem getRule_memoised : ∀ (l : Line), l.Plain → l.wrapped = false → ∀ {name parent : String} {opts : RuleOpts} {next next' : Nat} {x : Rules},
    getRule compile name parent opts next l = .ok (x, next') → x.memoised = true
  | .a lines, hl, hw, name, parent, opts, next, next', x, h => by
    simp only [getRule, exceptBindOk, exceptPureOk, Prod.exists, Prod.mk.injEq] at h
    obtain ⟨r, n1, hr, y, hy, rfl, rfl⟩ := h
    obtain ⟨hn, rfl⟩ := getRuleEnd_ok hy
    rfl
  | .c twice p, hl, hw, name, parent, opts, next, next', x, h => by
    cases twice with
    | true => cases hw
    | false =>
      simp only [getRule, exceptBindOk, exceptPureOk, Prod.mk.injEq] at h
      obtain ⟨y, hy, rfl, rfl⟩ := h
      obtain ⟨hn, rfl⟩ := getRuleEnd_ok hy
      rfl
  | .i _ _ _, _, _, name, parent, opts, next, next', x, h => by cases h
  | .o own content _, hl, hw, name, parent, opts, next, next', x, h => by
    have hl' : content.Plain := by cases hl; assumption
    simp only [getRule, exceptBindOk, exceptPureOk, Prod.exists, Prod.mk.injEq] at h
    obtain ⟨y, n1, hy, z, hz, rfl, rfl⟩ := h
    obtain ⟨hpl, hnm, _⟩ := getRule_plain hc content hl' hy
    have hne : y.name ≠ "" := by rw [hnm]; exact oLineName_ne'
    rw [if_neg hne] at hz
    obtain ⟨hn, rfl⟩ := getRuleEnd_ok hz
    rw [Rules.memoised_setInfo]
    exact getRule_memoised content hl' hw hy
  | .s text, _, _, name, parent, opts, next, next', x, h => by
    simp only [getRule, exceptBindOk, exceptPureOk, Prod.mk.injEq] at h
    obtain ⟨p, hp, y, hy, rfl, rfl⟩ := h
    obtain ⟨hn, rfl⟩ := getRuleEnd_ok hy
    rfl

include hc in
theorem rankLines_memoised : ∀ (ls : List Line), (∀ l ∈ ls, l.Plain) → (∀ l ∈ ls, l.wrapped = false) → ∀ {r : Rank},
    (∀ x ∈ r.alts, x.memoised = true) → ∀ {next next' : Nat} {r' : Rank},
    rankLines compile ls r next = .ok (r', next') → ∀ x ∈ r'.alts, x.memoised = true
  | [], _, _, r, hr, next, next', r', h => by cases h; exact hr
  | l :: ls, hl, hw, r, hr, next, next', r', h => by
    simp only [rankLines, exceptBindOk, Prod.exists] at h
    obtain ⟨r1, n1, h1, h2⟩ := h
    refine rankLines_memoised ls (fun l hm => hl l (List.mem_cons_of_mem _ hm)) (fun l hm => hw l (List.mem_cons_of_mem _ hm)) ?_ h2
    have hl := hl l (List.mem_cons_self ..)
    have hw := hw l (List.mem_cons_self ..)
    match l, h1 with
    | .o own content opts, h1 =>
      simp only [rankLine, exceptBindOk, exceptPureOk, Prod.exists, Prod.mk.injEq] at h1
      obtain ⟨y, n1, hy, rfl, rfl⟩ := h1
      intro x hx
      rcases List.mem_append.mp hx with hx | hx
      · exact hr x hx
      · rw [List.mem_singleton.mp hx]; exact getRule_memoised hc content (by cases hl; assumption) hw hy
    | .i name content opts, h1 =>
      simp only [rankLine, exceptBindOk, exceptPureOk, Prod.exists, Prod.mk.injEq] at h1
      obtain ⟨y, n1, hy, rfl, rfl⟩ := h1
      exact hr

/-- What `postinit` did. -/
structure Made.Of (m : Made) (t : Rules) : Prop where
  ok : m.conn.Ok
  listed : m.conn.listed = t.walk
  lookup : m.g.lookup = m.conn.lookup
  names : m.g.rules.map (·.info.name) = t.walk.map (·.2)

theorem Made.Of.numRules {m : Made} {t : Rules} (h : m.Of t) : m.g.numRules = t.walk.length := by
  have := congrArg List.length h.names
  simpa [Grammar.numRules] using this

/-- `postinit` on the tree of a rank. -/
theorem postinit_made {i : Info} {incl alts : List Rules} (hi : i.label = "") (hcb : i.cb = none)
    (hr : ({ name := i.name, incl := incl, alts := alts } : Rank).Ok) {m : Made} (h : postinit (.rank 0 false i incl alts) = .ok m) :
    m.Of (.rank 0 false i incl alts) ∧ (∀ n ∈ m.g.rules, n.Below m.g.numRules) ∧ (∀ n ∈ m.g.rules, n.isLink = false) ∧
      ∃ i' l, m.g.root = .choice i' l ∧ i'.label = "" ∧ i'.cb = none ∧
        ((∀ x ∈ alts, x.memoised = true) → ∀ c ∈ l, ∃ id, c = .rule id ∧ id < m.g.numRules) := by
  have hpl : (Rules.rank 0 false i incl alts).Plain := .rank hr.incl hr.alts hi hr.inclR hr.altsR
  unfold postinit at h
  simp only [walkMonoGrammar, walkMonoRules_plain _ hpl, exceptBindOk, exceptPureOk, Prod.exists] at h
  obtain ⟨root, s, hconn, rules, hprep, root1, hroot1, rules2, htypes, root2, hroot2, rules3, hinl, root3, hroot3, rfl⟩ := h
  obtain ⟨hok, hlist⟩ := connect_listed _ Conn.ok_init hconn
  have hlist' : s.listed = (Rules.rank 0 false i incl alts).walk := by simpa [Conn.listed] using hlist
  simp only [connect, exceptBindOk, exceptPureOk, Prod.exists, Prod.mk.injEq] at hconn
  obtain ⟨l1, s1, h1, l2, s2, h2, rfl, rfl⟩ := hconn
  obtain ⟨hg1, he1, _⟩ := connectList_good incl hr.incl hr.inclR Conn.ok_init ⟨by simp, by simp⟩ h1
  obtain ⟨hg2, he2, hl2⟩ := connectList_good alts hr.alts hr.altsR (connectList_listed incl Conn.ok_init h1).1 hg1 h2
  have hb0 : ∀ n ∈ s2.id2rule.map (·.2.2), n.Below s2.numrules := by
    intro n hn
    obtain ⟨e, he, rfl⟩ := List.mem_map.mp hn
    exact hg2.below e he
  have hk0 : ∀ n ∈ s2.id2rule.map (·.2.2), n.isLink = false := by
    intro n hn
    obtain ⟨e, he, rfl⟩ := List.mem_map.mp hn
    exact hg2.link e he
  have p1 := prepAll_passed hb0 hk0 (d := []) (by simp) (by simp) hprep
  have p2 := setTypesAll_passed p1.below p1.link htypes
  have hlb := inlineRule_below (lookup := s2.lookup) (kinds := s2.id2rule.map (·.2.1)) p2.below rules2.length
  have p3 := inlineAll_passed (by
    intro nm m hm
    split at hm
    · exact hlb _ _ hm
    · cases hm) hlb p2.below p2.link hinl
  have hnames : rules3.map (·.info.name) = (Rules.rank 0 false i incl alts).walk.map (·.2) := by
    rw [p3.names, p2.names, p1.names, ← hlist']
    simp [Conn.listed]
  have hnum : ({ rules := rules3, lookup := s2.lookup, root := root3 } : Grammar).numRules = s2.numrules := by
    have := congrArg List.length hnames
    rw [← hlist'] at this
    simp only [List.length_map, Conn.listed] at this
    rw [Grammar.numRules, hok.num, this]
  refine ⟨⟨hok, hlist', rfl, hnames⟩, by rw [hnum]; exact p3.below, p3.link, ?_⟩
  rw [hnum]
  -- the root
  simp only [Node.prep, exceptBindOk, exceptPureOk] at hroot1
  obtain ⟨l3, hl3, rfl⟩ := hroot1
  simp only [Node.setTypes, exceptBindOk, exceptPureOk] at hroot2
  obtain ⟨l4, hl4, rfl⟩ := hroot2
  simp only [Node.inline, exceptBindOk, exceptPureOk] at hroot3
  obtain ⟨l5, hl5, rfl⟩ := hroot3
  refine ⟨_, l5, rfl, hi, hcb, ?_⟩
  intro hm c hcm
  obtain ⟨k, hk⟩ := List.mem_iff_getElem?.mp hcm
  obtain ⟨c4, hk4, h45⟩ := (inlineList_mem hl5).2 k c hk
  obtain ⟨c3, hk3, h34⟩ := (setTypesList_mem hl4).2 k c4 hk4
  obtain ⟨c2, hk2, h23⟩ := (prepList_mem hl3).2 k c3 hk3
  obtain ⟨id, rfl, hlt, hkind⟩ := hl2 c2 (List.mem_of_getElem? hk2)
  cases h23
  cases h34
  simp only [Node.inline, exceptBindOk] at h45
  obtain ⟨o, ho, h45⟩ := h45
  have hkd : (s2.id2rule.map (·.2.1))[id]? = some .rule := by
    have := hkind hm
    simpa [Conn.kind] using this
  rw [inlineRule_none hkd] at ho
  cases ho
  simp only [exceptPureOk] at h45
  exact ⟨id, h45.symm, hlt⟩

include hc in
theorem made_of_lines {name : String} {lines : List Line} (hl : ∀ l ∈ lines, l.Plain) {m : Made}
    (h : grammarFromLines compile name lines = .ok m) : ∃ t, rankFromLines compile name lines = .ok t ∧ m.Of t := by
  simp only [grammarFromLines, exceptBindOk] at h
  obtain ⟨t, ht, h⟩ := h
  refine ⟨t, ht, ?_⟩
  simp only [rankFromLines, exceptBindOk, exceptPureOk, Prod.exists] at ht
  obtain ⟨r, n, hr, rfl⟩ := ht
  have := (rankLines_plain hc lines hl ⟨by simp, by simp, by simp, by simp⟩ hr).1
  exact (postinit_made rfl rfl ⟨this.incl, this.alts, this.inclR, this.altsR⟩ h).1

end

end Joeson
