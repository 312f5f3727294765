import Verif.Proofs.Lang3
/-!
# From the tree of the rules to a grammar that implements them
-/

set_option linter.unusedVariables false
set_option linter.unusedSectionVars false

namespace Joeson

/-- The rules numbered so far. -/
def Conn.rules (s : Conn) : List Node := s.id2rule.map (·.2.2)

end Joeson

namespace Joeson.RuleText

variable {b : Bool}

/-! ## Connecting -/

mutual
theorem impl_more {R R' : List Node} : ∀ (y : Body) {id : Nat}, Impl b R y id → Impl b (R ++ R') y id
  | .text e, id, h => by
    obtain ⟨n, hn, hl⟩ := h
    exact ⟨n, by rw [List.getElem?_append_left (List.getElem?_eq_some_iff.mp hn).1]; exact hn, hl⟩
  | .rank ls, id, h => by
    simp only [Impl] at h ⊢
    obtain ⟨i, l, hn, hl⟩ := h
    exact ⟨i, l, by rw [List.getElem?_append_left (List.getElem?_eq_some_iff.mp hn).1]; exact hn, implAlts_more ls hl⟩
theorem implAlts_more {R R' : List Node} : ∀ (ls : List GLine) {l : List Node}, ImplAlts b R ls l → ImplAlts b (R ++ R') ls l
  | [], l, h => h
  | .alt nm cb y :: ls, l, h => by
    simp only [ImplAlts] at h ⊢
    obtain ⟨id, l', rfl, h1, h2⟩ := h
    exact ⟨id, l', rfl, impl_more y h1, implAlts_more ls h2⟩
  | .incl nm cb y :: ls, l, h => by
    simp only [ImplAlts] at h ⊢
    exact implAlts_more ls h
end

/-- A rule of that name implements it. -/
def Has (b : Bool) (R : List Node) (d : String × Body) : Prop :=
  ∃ id n, R[id]? = some n ∧ n.info.name = d.1 ∧ Impl b R d.2 id

theorem Has.more {R R' : List Node} {d : String × Body} (h : Has b R d) : Has b (R ++ R') d := by
  obtain ⟨id, n, hn, hm, hi⟩ := h
  exact ⟨id, n, by rw [List.getElem?_append_left (List.getElem?_eq_some_iff.mp hn).1]; exact hn, hm, impl_more _ hi⟩

/-- More rules, all memoised and not traced. -/
def Grows (s s' : Conn) : Prop :=
  ∃ ext : List (Nat × LeafKind × Node), s'.id2rule = s.id2rule ++ ext ∧ ∀ e ∈ ext, e.2.1 = .rule ∧ e.2.2.info.Usual

theorem Grows.refl (s : Conn) : Grows s s := ⟨[], by simp, by simp⟩

theorem Grows.trans {s s' s'' : Conn} (h : Grows s s') (h' : Grows s' s'') : Grows s s'' := by
  obtain ⟨e, he, hk⟩ := h
  obtain ⟨e', he', hk'⟩ := h'
  refine ⟨e ++ e', by rw [he', he, List.append_assoc], ?_⟩
  intro x hx
  rcases List.mem_append.mp hx with hx | hx
  · exact hk x hx
  · exact hk' x hx

theorem Grows.rules {s s' : Conn} (h : Grows s s') : ∃ R, s'.rules = s.rules ++ R := by
  obtain ⟨e, he, _⟩ := h
  exact ⟨e.map (·.2.2), by simp [Conn.rules, he]⟩

theorem Grows.impl {s s' : Conn} (h : Grows s s') {y : Body} {id : Nat} (hi : Impl b s.rules y id) : Impl b s'.rules y id := by
  obtain ⟨R, hR⟩ := h.rules
  rw [hR]; exact impl_more y hi

theorem Grows.implAlts {s s' : Conn} (h : Grows s s') {ls : List GLine} {l : List Node} (hi : ImplAlts b s.rules ls l) :
    ImplAlts b s'.rules ls l := by
  obtain ⟨R, hR⟩ := h.rules
  rw [hR]; exact implAlts_more ls hi

theorem Grows.has {s s' : Conn} (h : Grows s s') {d : String × Body} (hi : Has b s.rules d) : Has b s'.rules d := by
  obtain ⟨R, hR⟩ := h.rules
  rw [hR]; exact hi.more

theorem post_rules (s : Conn) (a : Nat) (k : LeafKind) (n : Node) : (s.post a k n).rules = s.rules ++ [n] := by
  simp [Conn.rules, Conn.post]

theorem post_get {s : Conn} (hs : s.Ok) (a : Nat) (k : LeafKind) (n : Node) : (s.post a k n).rules[s.numrules]? = some n := by
  rw [post_rules, List.getElem?_append_right (by simp [Conn.rules, hs.num])]
  simp [Conn.rules, hs.num]

theorem attach_usual (rn : String) (p : Bool) (n : Node) : (n.attach rn p).info.Usual ↔ n.info.Usual := by
  match n with
  | .pattern _ _ none _ _ | .pattern _ _ (some _) _ _ => exact Iff.rfl
  | .str _ _ | .regex _ _ | .choice _ _ | .seq _ _ _ | .exist _ _ | .look _ _ | .not _ _ | .ref _ _ | .rule _ => exact Iff.rfl

mutual
theorem connect_impl : ∀ (y : Body) {x : Rules}, TreeB b y x → ∀ {rn : String} {s s' : Conn} {n : Node}, s.Ok → connect rn s x = .ok (n, s') →
    Grows s s' ∧ ∃ id, n = .rule id ∧ Impl b s'.rules y id ∧ (∃ m, s'.rules[id]? = some m ∧ m.info.name = x.name) ∧ ∀ d ∈ y.decls, Has b s'.rules d
  | .text e, x, ht, rn, s, s', n, hs, h => by
    obtain ⟨a, n0, rfl, hl, hp, hd⟩ := ht
    simp only [connect] at h
    split at h
    · cases h
    · cases h
      have hs' := hs.seen (a :: s.seen)
      have hget := post_get hs' a .rule (n0.attach n0.info.name false)
      refine ⟨⟨[(a, .rule, n0.attach n0.info.name false)], rfl, ?_⟩, _, rfl, ⟨_, hget, like_attach hl _ _⟩, ⟨_, hget, by rw [Node.attach_name]; rfl⟩, ?_⟩
      · intro e he
        rw [List.mem_singleton.mp he]
        exact ⟨rfl, (attach_usual _ _ _).mpr hd⟩
      · intro d hd
        cases hd
  | .rank ls, x, ht, rn, s, s', n, hs, h => by
    simp only [TreeB] at ht
    obtain ⟨a, i, incl, alts, rfl, h1, h2, h3, h4⟩ := ht
    simp only [connect, exceptBindOk, exceptPureOk, Prod.exists, Prod.mk.injEq] at h
    obtain ⟨l1, s1, hc1, l2, s2, hc2, rfl, rfl⟩ := h
    have ho1 := (connectList_listed incl hs hc1).1
    have ho2 := (connectList_listed alts ho1 hc2).1
    obtain ⟨g1, d1⟩ := connectI_impl ls h3 hs hc1
    obtain ⟨g2, ha, d2⟩ := connectA_impl ls h4 ho1 hc2
    have g3 : Grows s2 (s2.post a .rule (.choice { i with parent := some false, ruleName := i.name } l2)) :=
      ⟨[(a, .rule, .choice { i with parent := some false, ruleName := i.name } l2)], rfl, by
        intro e he; rw [List.mem_singleton.mp he]; exact ⟨rfl, h2⟩⟩
    have hget := post_get ho2 a .rule (.choice { i with parent := some false, ruleName := i.name } l2)
    refine ⟨(g1.trans g2).trans g3, _, rfl, ?_, ⟨_, hget, rfl⟩, ?_⟩
    · simp only [Impl]
      exact ⟨_, l2, hget, g3.implAlts ha⟩
    · intro d hd
      rcases d1 d hd with h | h
      · exact (g2.trans g3).has h
      · exact g3.has (d2 d h)
theorem connectI_impl : ∀ (ls : List GLine) {xs : List Rules}, TreeI b ls xs → ∀ {rn : String} {s s' : Conn} {l : List Node}, s.Ok →
    connectList rn s xs = .ok (l, s') →
    Grows s s' ∧ ∀ d ∈ declsOf ls, Has b s'.rules d ∨ ∃ l ∈ ls, (∃ nm cb y, l = GLine.alt nm cb y) ∧ d ∈ l.decls
  | [], xs, ht, rn, s, s', l, hs, h => by
    cases ht
    cases h
    exact ⟨Grows.refl _, by intro d hd; cases hd⟩
  | .alt nm cb y :: ls, xs, ht, rn, s, s', l, hs, h => by
    simp only [TreeI] at ht
    obtain ⟨g, hd⟩ := connectI_impl ls ht hs h
    refine ⟨g, ?_⟩
    intro d hm
    simp only [declsOf] at hm
    rcases List.mem_append.mp hm with hm | hm
    · exact .inr ⟨_, List.mem_cons_self .., ⟨_, _, _, rfl⟩, hm⟩
    · rcases hd d hm with h | ⟨z, hz, h⟩
      · exact .inl h
      · exact .inr ⟨z, List.mem_cons_of_mem _ hz, h⟩
  | .incl nm cb y :: ls, xs, ht, rn, s, s', l, hs, h => by
    simp only [TreeI] at ht
    obtain ⟨x, xs', rfl, hn, hx, ht⟩ := ht
    simp only [connectList, exceptBindOk, exceptPureOk, Prod.exists, Prod.mk.injEq] at h
    obtain ⟨n1, s1, hc1, l2, s2, hc2, rfl, rfl⟩ := h
    have ho1 := (connect_listed x hs hc1).1
    obtain ⟨g1, id, rfl, hi, ⟨m, hm1, hm2⟩, hd1⟩ := connect_impl y hx hs hc1
    obtain ⟨g2, hd2⟩ := connectI_impl ls ht ho1 hc2
    refine ⟨g1.trans g2, ?_⟩
    intro d hm
    simp only [declsOf, GLine.decls, List.cons_append, List.mem_cons, List.mem_append] at hm
    rcases hm with rfl | hm | hm
    · exact .inl (g2.has ⟨id, m, hm1, by rw [hm2, hn], hi⟩)
    · exact .inl (g2.has (hd1 d hm))
    · rcases hd2 d hm with h | ⟨z, hz, h⟩
      · exact .inl h
      · exact .inr ⟨z, List.mem_cons_of_mem _ hz, h⟩
theorem connectA_impl : ∀ (ls : List GLine) {xs : List Rules}, TreeA b ls xs → ∀ {rn : String} {s s' : Conn} {l : List Node}, s.Ok →
    connectList rn s xs = .ok (l, s') →
    Grows s s' ∧ ImplAlts b s'.rules ls l ∧ ∀ d, (∃ l ∈ ls, (∃ nm cb y, l = GLine.alt nm cb y) ∧ d ∈ l.decls) → Has b s'.rules d
  | [], xs, ht, rn, s, s', l, hs, h => by
    cases ht
    cases h
    exact ⟨Grows.refl _, rfl, by rintro d ⟨l, hl, _⟩; cases hl⟩
  | .incl nm cb y :: ls, xs, ht, rn, s, s', l, hs, h => by
    simp only [TreeA] at ht
    obtain ⟨g, ha, hd⟩ := connectA_impl ls ht hs h
    refine ⟨g, by simpa only [ImplAlts] using ha, ?_⟩
    rintro d ⟨z, hz, hz', hm⟩
    rcases List.mem_cons.mp hz with rfl | hz
    · obtain ⟨_, _, _, hz'⟩ := hz'; cases hz'
    · exact hd d ⟨z, hz, hz', hm⟩
  | .alt nm cb y :: ls, xs, ht, rn, s, s', l, hs, h => by
    simp only [TreeA] at ht
    obtain ⟨x, xs', rfl, hn, hx, ht⟩ := ht
    simp only [connectList, exceptBindOk, exceptPureOk, Prod.exists, Prod.mk.injEq] at h
    obtain ⟨n1, s1, hc1, l2, s2, hc2, rfl, rfl⟩ := h
    have ho1 := (connect_listed x hs hc1).1
    obtain ⟨g1, id, rfl, hi, ⟨m, hm1, hm2⟩, hd1⟩ := connect_impl y hx hs hc1
    obtain ⟨g2, ha, hd2⟩ := connectA_impl ls ht ho1 hc2
    refine ⟨g1.trans g2, ?_, ?_⟩
    · simp only [ImplAlts]
      exact ⟨id, l2, rfl, g2.impl hi, ha⟩
    · rintro d ⟨z, hz, hz', hm⟩
      rcases List.mem_cons.mp hz with rfl | hz
      · simp only [GLine.decls, List.mem_append] at hm
        rcases hm with hm | hm
        · split at hm
          · cases hm
          · rename_i h0
            rw [List.mem_singleton.mp hm]
            rw [if_neg h0] at hn
            exact g2.has ⟨id, m, hm1, by rw [hm2, hn], hi⟩
        · exact g2.has (hd1 d hm)
      · exact hd2 d ⟨z, hz, hz', hm⟩
end

/-! ## The other passes -/

/-- What a pass does to a rule. -/
structure Pass (b : Bool) (n n' : Node) : Prop where
  like : ∀ p, Like b n p → Like b n' p
  rank : ∀ i l, n = .choice i l → (∀ c ∈ l, ∃ id, c = .rule id) → ∃ i', n' = .choice i' l
  usual : n.info.Usual → n'.info.Usual

/-- And to all. -/
def PassAll (b : Bool) (R R' : List Node) : Prop :=
  ∀ (id : Nat) (n : Node), R[id]? = some n → ∃ n', R'[id]? = some n' ∧ Pass b n n' ∧ n'.info.name = n.info.name

theorem implAlts_links {R : List Node} (ls : List GLine) {l : List Node} (h : ImplAlts b R ls l) : ∀ c ∈ l, ∃ id, c = .rule id := by
  induction ls generalizing l with
  | nil => cases h; simp
  | cons x ls ih =>
    cases x with
    | alt nm cb y =>
      simp only [ImplAlts] at h
      obtain ⟨id, l', rfl, h1, h2⟩ := h
      intro c hc
      rcases List.mem_cons.mp hc with rfl | hc
      · exact ⟨id, rfl⟩
      · exact ih h2 c hc
    | incl nm cb y => exact ih (by simpa only [ImplAlts] using h)

mutual
theorem impl_pass {R R' : List Node} (hp : PassAll b R R') : ∀ (y : Body) {id : Nat}, Impl b R y id → Impl b R' y id
  | .text e, id, h => by
    obtain ⟨n, hn, hl⟩ := h
    obtain ⟨n', hn', h1, _⟩ := hp id n hn
    exact ⟨n', hn', h1.like _ hl⟩
  | .rank ls, id, h => by
    simp only [Impl] at h ⊢
    obtain ⟨i, l, hn, hl⟩ := h
    obtain ⟨n', hn', h1, _⟩ := hp id _ hn
    obtain ⟨i', rfl⟩ := h1.rank i l rfl (implAlts_links ls hl)
    exact ⟨i', l, hn', implAlts_pass hp ls hl⟩
theorem implAlts_pass {R R' : List Node} (hp : PassAll b R R') : ∀ (ls : List GLine) {l : List Node}, ImplAlts b R ls l → ImplAlts b R' ls l
  | [], l, h => h
  | .alt nm cb y :: ls, l, h => by
    simp only [ImplAlts] at h ⊢
    obtain ⟨id, l', rfl, h1, h2⟩ := h
    exact ⟨id, l', rfl, impl_pass hp y h1, implAlts_pass hp ls h2⟩
  | .incl nm cb y :: ls, l, h => by
    simp only [ImplAlts] at h ⊢
    exact implAlts_pass hp ls h
end

theorem PassAll.trans {R R' R'' : List Node} (h : PassAll b R R') (h' : PassAll b R' R'') : PassAll b R R'' := by
  intro id n hn
  obtain ⟨n', hn', p, hm⟩ := h id n hn
  obtain ⟨n'', hn'', p', hm'⟩ := h' id n' hn'
  refine ⟨n'', hn'', ⟨fun q hq => p'.like q (p.like q hq), ?_, fun h => p'.usual (p.usual h)⟩, by rw [hm', hm]⟩
  intro i l hc hl
  obtain ⟨i', hi⟩ := p.rank i l hc hl
  exact p'.rank i' l hi hl

theorem prep_links {labels : Node → Except Panic Bool} {rules : List Node} {l : List Node} (h : ∀ c ∈ l, ∃ id, c = .rule id) :
    Node.prepList labels rules l = .ok l := by
  induction l with
  | nil => rfl
  | cons c l ih =>
    obtain ⟨id, rfl⟩ := h c (List.mem_cons_self ..)
    rw [Node.prepList, ih fun c hc => h c (List.mem_cons_of_mem _ hc)]
    rfl

theorem setTypes_links {labels : Node → Except Panic Bool} {l : List Node} (h : ∀ c ∈ l, ∃ id, c = .rule id) :
    Node.setTypesList labels l = .ok l := by
  induction l with
  | nil => rfl
  | cons c l ih =>
    obtain ⟨id, rfl⟩ := h c (List.mem_cons_self ..)
    rw [Node.setTypesList, ih fun c hc => h c (List.mem_cons_of_mem _ hc)]
    rfl

theorem prep_pass {labels : Node → Except Panic Bool} (hL : LabelsOf b labels) {rules : List Node} {n n' : Node}
    (h : n.prep labels rules = .ok n') : Pass b n n' where
  like := fun p hp => like_prep hL hp h
  rank := by
    rintro i l rfl hl
    simp only [Node.prep, prep_links hl] at h
    cases h
    exact ⟨_, rfl⟩
  usual := by
    intro hu
    match n with
    | .str _ _ | .regex _ _ => cases h; exact hu
    | .choice _ _ | .seq _ _ _ | .exist _ _ | .look _ _ | .not _ _ | .pattern _ _ none _ _ | .pattern _ _ (some _) _ _ =>
      simp only [Node.prep, exceptBindOk, exceptPureOk] at h
      first
      | (obtain ⟨_, _, rfl⟩ := h; exact hu)
      | (obtain ⟨_, _, _, _, rfl⟩ := h; exact hu)
    | .ref _ _ | .rule _ => cases h; exact hu

theorem setTypes_pass {labels : Node → Except Panic Bool} (hL : LabelsOf b labels) {n n' : Node}
    (h : n.setTypes labels = .ok n') : Pass b n n' where
  like := fun p hp => like_setTypes hL hp h
  rank := by
    rintro i l rfl hl
    simp only [Node.setTypes, setTypes_links hl] at h
    cases h
    exact ⟨_, rfl⟩
  usual := by
    intro hu
    match n with
    | .str _ _ | .regex _ _ => cases h; exact hu
    | .choice _ _ | .seq _ _ _ | .exist _ _ | .look _ _ | .not _ _ | .pattern _ _ none _ _ | .pattern _ _ (some _) _ _ =>
      simp only [Node.setTypes, exceptBindOk, exceptPureOk] at h
      first
      | (obtain ⟨_, _, rfl⟩ := h; exact hu)
      | (obtain ⟨_, _, _, _, rfl⟩ := h; exact hu)
    | .ref _ _ | .rule _ => cases h; exact hu

theorem labelsOf (f : String → Except Panic Bool) : LabelsOf b fun m => m.hasLabels f :=
  fun hb _ _ h => like_noLabels hb h

theorem prepAll_pass {lookup : String → Option Nat} {l : List Node} : ∀ {d l' : List Node}, prepAll lookup l d = .ok l' →
    ∃ l1, l' = d ++ l1 ∧ PassAll b l l1 := by
  induction l with
  | nil => intro d l' h; cases h; exact ⟨[], by simp, by intro id n hn; simp at hn⟩
  | cons x l ih =>
    intro d l' h
    simp only [prepAll, exceptBindOk] at h
    obtain ⟨x', hx, h⟩ := h
    obtain ⟨l1, rfl, hp⟩ := ih h
    refine ⟨x' :: l1, by simp, ?_⟩
    intro id n hn
    cases id with
    | zero =>
      cases hn
      exact ⟨x', rfl, prep_pass (labelsOf _) hx, (prep_kept hx).1⟩
    | succ id => exact hp id n hn

theorem setTypesAll_pass {labels : Node → Except Panic Bool} (hL : LabelsOf b labels) {l : List Node} : ∀ {l' : List Node},
    setTypesAll labels l = .ok l' → PassAll b l l' := by
  induction l with
  | nil => intro l' h id n hn; simp at hn
  | cons x l ih =>
    intro l' h
    simp only [setTypesAll, exceptBindOk, exceptPureOk] at h
    obtain ⟨x', hx, l1, hl, rfl⟩ := h
    intro id n hn
    cases id with
    | zero =>
      cases hn
      exact ⟨x', rfl, setTypes_pass hL hx, (setTypes_kept hx).1⟩
    | succ id => exact ih hl id n hn

section
variable {target : String → Except Panic (Option Node)} {link : Nat → Except Panic (Option Node)}
  (ht : ∀ nm, target nm = .ok none) (hl : ∀ id, link id = .ok none)
include ht hl

mutual
theorem inline_none : ∀ (n : Node), n.inline target link = .ok n
  | .str _ _ | .regex _ _ => rfl
  | .choice i l => by rw [Node.inline, inlineList_none l]; rfl
  | .seq i r l => by rw [Node.inline, inlineList_none l]; rfl
  | .exist i n => by rw [Node.inline, inline_none n]; rfl
  | .look i n => by rw [Node.inline, inline_none n]; rfl
  | .not i n => by rw [Node.inline, inline_none n]; rfl
  | .pattern i v none mn mx => by rw [Node.inline, inline_none v]; rfl
  | .pattern i v (some j) mn mx => by rw [Node.inline, inline_none v, inline_none j]; rfl
  | .ref i nm => by rw [Node.inline, ht]; rfl
  | .rule id => by rw [Node.inline, hl]; rfl
theorem inlineList_none : ∀ (l : List Node), Node.inlineList target link l = .ok l
  | [] => rfl
  | n :: l => by rw [Node.inlineList, inline_none n, inlineList_none l]; rfl
end

theorem inlineAll_none : ∀ (l : List Node), inlineAll target link l = .ok l
  | [] => rfl
  | n :: l => by rw [inlineAll, inline_none ht hl n, inlineAll_none l]; rfl

end

/-- The grammar made from a tree. -/
theorem postinit_impl {L : List GLine} {i : Info} {incl alts : List Rules} (hi : i.label = "") (hcb : i.cb = none)
    (h3 : TreeI b L incl) (h4 : TreeA b L alts)
    (hq : ∀ d ∈ declsOf L, Auto d.1 = false) (hnd : ((declsOf L).map (·.1)).Nodup)
    {m : Made} (h : postinit (.rank 0 false i incl alts) = .ok m) :
    m.g.Built ∧ (∀ n ∈ m.g.rules, n.info.Usual) ∧
      (∀ nm y, (nm, y) ∈ declsOf L → ∃ id, m.g.lookup nm = some id ∧ Impl b m.g.rules y id) ∧
      ∃ i' l, m.g.root = .choice i' l ∧ ImplAlts b m.g.rules L l := by
  have hI := treeI_plain L h3
  have hA := treeA_plain L h4
  have hok : ({ name := i.name, incl := incl, alts := alts } : Rank).Ok :=
    ⟨fun x hx => (hI x hx).1, fun x hx => (hA x hx).1, fun x hx => (hI x hx).2.1, fun x hx => (hA x hx).2.1⟩
  obtain ⟨hof, hb, hk, i0, l0, e1, e2, e3, e4⟩ := postinit_made hi hcb hok h
  have hbuilt : m.g.Built := {
    rules := hb
    noAlias := fun n hn => Node.isLink_false.mp (hk n hn)
    lookup := fun nm id hid => by
      rw [hof.lookup, hof.ok.names, hof.listed] at hid
      have := hid.lt
      rw [hof.numRules]; simpa using this
    root := ⟨i0, l0, e1, e2, e3, e4 fun x hx => (hA x hx).2.2⟩ }
  refine ⟨hbuilt, ?_⟩
  have hpl : (Rules.rank 0 false i incl alts).Plain := .rank hok.incl hok.alts hi hok.inclR hok.altsR
  unfold postinit at h
  simp only [walkMonoGrammar, walkMonoRules_plain _ hpl, exceptBindOk, exceptPureOk, Prod.exists] at h
  obtain ⟨root, s, hconn, rules, hprep, root1, hroot1, rules2, htypes, root2, hroot2, rules3, hinl, root3, hroot3, rfl⟩ := h
  simp only [connect, exceptBindOk, exceptPureOk, Prod.exists, Prod.mk.injEq] at hconn
  obtain ⟨l1, s1, hc1, l2, s2, hc2, rfl, rfl⟩ := hconn
  have ho1 := (connectList_listed incl Conn.ok_init hc1).1
  obtain ⟨g1, d1⟩ := connectI_impl L h3 Conn.ok_init hc1
  obtain ⟨g2, ha, d2⟩ := connectA_impl L h4 ho1 hc2
  have hg := g1.trans g2
  have hrules : ∀ e ∈ s2.id2rule, e.2.1 = .rule ∧ e.2.2.info.Usual := by
    obtain ⟨ext, he, hk⟩ := hg
    rw [he]
    simpa using hk
  have hlink : ∀ id, inlineRule s2.lookup (s2.id2rule.map (·.2.1)) rules2 rules2.length id = .ok none := by
    intro id
    unfold inlineRule
    split
    · rename_i h1 _
      rw [List.getElem?_map, Option.map_eq_some_iff] at h1
      obtain ⟨e, he, h1⟩ := h1
      rw [(hrules e (List.mem_of_getElem? he)).1] at h1
      cases h1
    · rfl
  have htarget : ∀ nm : String, (match s2.lookup nm with
      | some id => inlineRule s2.lookup (s2.id2rule.map fun x => x.2.1) rules2 rules2.length id
      | none => Except.ok none) = Except.ok (none : Option Node) := by
    intro nm
    split
    · exact hlink _
    · rfl
  have h33 := (inlineAll_none htarget hlink rules2).symm.trans hinl
  cases h33
  have h34 := (inline_none htarget hlink root2).symm.trans hroot3
  cases h34
  have hL : LabelsOf b (fun m => match Node.hasLabels (followLabels s2.lookup rules rules.length) m with
    | .ok b => Except.ok b
    | .error _ => .error .notModelled) := by
    intro hb n p h
    simp only [like_noLabels hb h]
  obtain ⟨lp, hlp, p1⟩ := prepAll_pass (b := b) hprep
  simp only [List.nil_append] at hlp
  subst hlp
  have p2 := setTypesAll_pass hL htypes
  have pass : PassAll b s2.rules rules2 := p1.trans p2
  have hall : ∀ d ∈ declsOf L, Has b s2.rules d := by
    intro d hd
    rcases d1 d hd with h | h
    · exact g2.has h
    · exact d2 d h
  have hlen : s2.rules.length = rules2.length := by
    have := hof.numRules
    simp only [Grammar.numRules] at this
    rw [this, ← hof.listed]
    simp [Conn.rules, Conn.listed]
  refine ⟨?_, ?_, ?_⟩
  · intro n hn
    obtain ⟨id, hid⟩ := List.mem_iff_getElem?.mp hn
    have hlt : id < s2.rules.length := by rw [hlen]; exact (List.getElem?_eq_some_iff.mp hid).1
    obtain ⟨n', hn', hp, _⟩ := pass id _ (List.getElem?_eq_getElem hlt)
    rw [hid] at hn'
    cases hn'
    refine hp.usual ?_
    have hm := List.getElem_mem hlt
    obtain ⟨e, he, heq⟩ := List.mem_map.mp hm
    rw [← heq]
    exact (hrules e he).2
  · intro nm y hd
    obtain ⟨id, n, hid, hname, himp⟩ := hall (nm, y) hd
    refine ⟨id, ?_, impl_pass pass y himp⟩
    rw [hof.lookup, hof.ok.names]
    have hlisted : (Conn.listed s2).map (·.2) = s2.rules.map (·.info.name) := by
      simp [Conn.listed, Conn.rules, Function.comp_def]
    have hat : ((Conn.listed s2).map (·.2))[id]? = some nm := by
      rw [hlisted, List.getElem?_map, hid]
      simp [hname]
    have hperm := lines_names L h3 h4 hq
    rw [← realNames_append] at hperm
    have hnodup : (realNames (Conn.listed s2)).Nodup := by
      have hw := hof.listed
      simp only [Rules.walk, Bool.false_eq_true, if_false, List.append_nil] at hw
      rw [hw]
      exact hperm.nodup_iff.mpr hnd
    refine ⟨hat, ?_⟩
    intro j hj hj'
    have := unique_index hnodup (x := nm) (by simp [hq (nm, y) hd]) hat hj'
    omega
  · have hl := implAlts_links L ha
    simp only [Node.prep, prep_links hl] at hroot1
    cases hroot1
    simp only [Node.setTypes, setTypes_links hl] at hroot2
    cases hroot2
    exact ⟨_, _, rfl, implAlts_pass pass L ha⟩

end Joeson.RuleText
