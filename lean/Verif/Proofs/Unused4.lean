import Verif.Proofs.Unused3
/-! # Grammars of lines with an included line more -/

namespace Joeson
variable {compile : Bytes → Except Panic Node}

theorem rankLines_inclNames (hc : ∀ s n, compile s = .ok n → n.Plain) : ∀ (ls : List Line), (∀ l ∈ ls, l.Plain) → ∀ {r r1 : Rank} {next next1 : Nat},
    rankLines compile ls r next = .ok (r1, next1) → ∀ x ∈ r1.incl, x.name ∈ includedNames ls ∨ ∃ y ∈ r.incl, y.name = x.name
  | [], _, r, r1, next, next1, h, x, hx => by cases h; exact .inr ⟨x, hx, rfl⟩
  | l :: ls, hl, r, r1, next, next1, h, x, hx => by
    simp only [rankLines, exceptBindOk, Prod.exists] at h
    obtain ⟨r2, n2, h1, h2⟩ := h
    rcases rankLines_inclNames hc ls (fun y hy => hl y (List.mem_cons_of_mem _ hy)) h2 x hx with h3 | ⟨y, hy, he⟩
    · refine .inl ?_
      cases l <;> first | exact h3 | exact List.mem_cons_of_mem _ h3
    · match l, hl l (List.mem_cons_self ..), h1 with
      | .o own content opts, _, h1 =>
        simp only [rankLine, exceptBindOk, exceptPureOk, Prod.exists, Prod.mk.injEq] at h1
        obtain ⟨z, n1, hz, rfl, rfl⟩ := h1
        exact .inr ⟨y, hy, he⟩
      | .i name content opts, hp, h1 =>
        simp only [rankLine, exceptBindOk, exceptPureOk, Prod.exists, Prod.mk.injEq] at h1
        obtain ⟨z, n1, hz, rfl, rfl⟩ := h1
        have hzn : z.name = name := (getRule_plain hc content (by cases hp; assumption) hz).2.1
        simp only [Rank.include, List.mem_append, List.mem_map, List.mem_singleton] at hy
        rcases hy with ⟨w, hw, hwy⟩ | rfl
        · split at hwy
          · subst hwy
            exact .inl (by rw [← he, hzn]; simp [includedNames])
          · subst hwy
            exact .inr ⟨w, hw, he⟩
        · exact .inl (by rw [← he, hzn]; simp [includedNames])
      | .a _, _, h1 => cases h1
      | .s _, _, h1 => cases h1
      | .c _ _, _, h1 => cases h1

/-- The numbering of ranks of which one includes a rule more. -/
theorem connect_oneMore {x : Rules} {r r' : Rank} (h : OneMore x r r') (hr : r.Ok) {i i' : Info} (hi : i' = i) {n n' : Node} {s s' : Conn}
    (hn : connect "" {} (.rank 0 false i r.incl r.alts) = .ok (n, s)) (hn' : connect "" {} (.rank 0 false i' r'.incl r'.alts) = .ok (n', s')) :
    ∃ n0 k, n' = n.renamed (shiftFrom n0 k) id ∧ ConnRen n0 k s s' ∧
      ∀ nm, nm ∉ x.walk.map (·.2) → s'.lookup nm = (s.lookup nm).map (shiftFrom n0 k) := by
  subst hi
  obtain ⟨-, ⟨P, Q, P', y, Q', e1, e2, e3, e4, e5⟩, e6⟩ := h
  simp only [connect, exceptBindOk, exceptPureOk, Prod.exists, Prod.mk.injEq] at hn hn'
  obtain ⟨l1, s1, h1, l2, s2, h2, rfl, rfl⟩ := hn
  obtain ⟨l1', s1', h1', l2', s2', h2', rfl, rfl⟩ := hn'
  rw [e1] at h1
  rw [e2] at h1'
  obtain ⟨lp, sp, lq, hp, hq⟩ := connectList_append P Q h1
  obtain ⟨lp', sp', lq', hp', hq'⟩ := connectList_append P' (y :: Q') h1'
  simp only [connectList, exceptBindOk, exceptPureOk, Prod.exists, Prod.mk.injEq] at hq'
  obtain ⟨m, sx', hx', lq', s3', hq', rfl, rfl⟩ := hq'
  have hP : ∀ t ∈ P, t.Plain := fun t ht => hr.incl t (by rw [e1]; exact List.mem_append_left _ ht)
  have hQ : ∀ t ∈ Q, t.Plain := fun t ht => hr.incl t (by rw [e1]; exact List.mem_append_right _ ht)
  have hPR : ∀ t ∈ P, t.isRule = true := fun t ht => hr.inclR t (by rw [e1]; exact List.mem_append_left _ ht)
  have hinit : ConnRen 0 0 {} {} := ⟨rfl, Nat.le_refl _, rfl, rfl, fun i => rfl⟩
  obtain ⟨-, rp⟩ := connectList_ren P P' e3 hP hinit hp hp'
  obtain ⟨gp, -, -⟩ := connectList_good P hP hPR Conn.ok_init ⟨by simp, by simp⟩ hp
  have rx := connRen_more rp gp hx'
  obtain ⟨-, rq⟩ := connectList_ren Q Q' e4 hQ rx hq hq'
  obtain ⟨hl, ra⟩ := connectList_ren r.alts r'.alts e6 hr.alts rq h2 h2'
  refine ⟨sp.numrules, sx'.numrules - sp.numrules, by rw [hl]; rfl, ra, fun nm hnm => ?_⟩
  -- the names
  obtain ⟨op, kp⟩ := connectList_listed P Conn.ok_init hp
  obtain ⟨oq, kq⟩ := connectList_listed Q op hq
  obtain ⟨oa, ka⟩ := connectList_listed r.alts oq h2
  obtain ⟨op', kp'⟩ := connectList_listed P' Conn.ok_init hp'
  obtain ⟨ox', kx'⟩ := connect_listed y op' hx'
  obtain ⟨oq', kq'⟩ := connectList_listed Q' ox' hq'
  obtain ⟨oa', ka'⟩ := connectList_listed r'.alts oq' h2'
  have w1 : (Rules.walkList P').map (·.2) = (Rules.walkList P).map (·.2) := by rw [← bareAll_walk P', e3, bareAll_walk]
  have w2 : (Rules.walkList Q').map (·.2) = (Rules.walkList Q).map (·.2) := by rw [← bareAll_walk Q', e4, bareAll_walk]
  have w3 : (Rules.walkList r'.alts).map (·.2) = (Rules.walkList r.alts).map (·.2) := by rw [← bareAll_walk r'.alts, e6, bareAll_walk]
  have w4 : y.walk.map (·.2) = x.walk.map (·.2) := by rw [← bare_walk y, e5, bare_walk]
  have hA : sp.listed.map (·.2) = (Rules.walkList P).map (·.2) := by rw [kp]; rfl
  have hlen : sp.numrules = ((Rules.walkList P).map (·.2)).length := by rw [← hA, op.num]; simp [Conn.listed]
  have hlen' : sx'.numrules - sp.numrules = (x.walk.map (·.2)).length := by
    have a1 : sx'.numrules = sx'.listed.length := by rw [ox'.num]; simp [Conn.listed]
    have a2 : sp.numrules = sp.listed.length := by rw [op.num]; simp [Conn.listed]
    have a3 : sp'.listed.length = sp.listed.length := by
      have := congrArg List.length w1
      rw [kp, kp']
      simpa using this
    rw [a1, a2, kx', List.length_append, a3, ← w4]
    simp
  have e7 : s2.listed.map (·.2) = (Rules.walkList P).map (·.2) ++ ((Rules.walkList Q).map (·.2) ++ (Rules.walkList r.alts).map (·.2)) := by
    rw [ka, kq, List.map_append, List.map_append, hA, List.append_assoc]
  have e8 : s2'.listed.map (·.2) = (Rules.walkList P).map (·.2) ++ x.walk.map (·.2) ++ ((Rules.walkList Q).map (·.2) ++ (Rules.walkList r.alts).map (·.2)) := by
    rw [ka', kq', kx', kp']
    simp only [List.map_append, w1, w2, w3, w4, List.append_assoc]
    rfl
  have key : ∀ j, s2'.lookup nm = some j ↔ ∃ i, j = shiftFrom sp.numrules (sx'.numrules - sp.numrules) i ∧ s2.lookup nm = some i := fun j => by
    rw [oa'.names, e8, isLast_between hnm, hlen', hlen]
    simp only [oa.names, e7]
  cases he : s2.lookup nm with
  | some i => exact (key _).mpr ⟨i, rfl, he⟩
  | none =>
    cases he' : s2'.lookup nm with
    | none => rfl
    | some j =>
      obtain ⟨i, -, h⟩ := (key j).mp he'
      rw [he] at h
      cases h

/-- The whole of it. -/
theorem postinit_oneMore {x : Rules} {r r' : Rank} (h : OneMore x r r') (hr : r.Ok) (hr' : r'.Ok) {i i' : Info} (hi : i' = i) (hi0 : i.label = "") {m m' : Made}
    (hm : postinit (.rank 0 false i r.incl r.alts) = .ok m) (hm' : postinit (.rank 0 false i' r'.incl r'.alts) = .ok m')
    (hX : ∀ e ∈ m.conn.id2rule, ∀ nm ∈ e.2.2.refs, nm ∉ x.walk.map (·.2)) : ∃ n0 k, m.g.Within (shiftFrom n0 k) id m'.g := by
  have hpl : (Rules.rank 0 false i r.incl r.alts).Plain := .rank hr.incl hr.alts hi0 hr.inclR hr.altsR
  have hpl' : (Rules.rank 0 false i' r'.incl r'.alts).Plain := .rank hr'.incl hr'.alts (hi ▸ hi0) hr'.inclR hr'.altsR
  unfold postinit at hm hm'
  simp only [walkMonoGrammar, walkMonoRules_plain _ hpl, exceptBindOk, exceptPureOk, Prod.exists] at hm
  simp only [walkMonoGrammar, walkMonoRules_plain _ hpl', exceptBindOk, exceptPureOk, Prod.exists] at hm'
  obtain ⟨root, s, hconn, R, h1, r1, h2, R1, h3, r2, h4, R2, h5, r3, h6, rfl⟩ := hm
  obtain ⟨root', s', hconn', R', h1', r1', h2', R1', h3', r2', h4', R2', h5', r3', h6', rfl⟩ := hm'
  obtain ⟨n0, k, hn, hs, hlk⟩ := connect_oneMore h hr hi hconn hconn'
  have hgood : s.Good ∧ ∀ nm ∈ root.refs, nm ∉ x.walk.map (·.2) := by
    simp only [connect, exceptBindOk, exceptPureOk, Prod.exists, Prod.mk.injEq] at hconn
    obtain ⟨l1, s1, g1, l2, s2, g2, rfl, rfl⟩ := hconn
    obtain ⟨hg1, -, -⟩ := connectList_good r.incl hr.incl hr.inclR Conn.ok_init ⟨by simp, by simp⟩ g1
    obtain ⟨hg2, -, hl2⟩ := connectList_good r.alts hr.alts hr.altsR (connectList_listed r.incl Conn.ok_init g1).1 hg1 g2
    refine ⟨hg2, ?_⟩
    have : ∀ l : List Node, (∀ c ∈ l, ∃ id, c = .rule id) → refsAll l = [] := by
      intro l
      induction l with
      | nil => intro _; rfl
      | cons c l ih =>
        intro hl
        obtain ⟨id, rfl⟩ := hl c (List.mem_cons_self ..)
        rw [refsAll, ih fun c hc => hl c (List.mem_cons_of_mem _ hc)]
        rfl
    intro nm hnm
    rw [Node.refs, this l2 fun c hc => (hl2 c hc).imp fun _ h => h.1] at hnm
    cases hnm
  have hl : Shifted (shiftFrom n0 k) (s.id2rule.map (·.2.2)) (s'.id2rule.map (·.2.2)) := fun j => by
    have := congrArg (Option.map Prod.snd) (hs.rules j)
    simpa [List.getElem?_map, Option.map_map, Function.comp_def] using this
  have hK : ∀ j : Nat, (s'.id2rule.map (·.2.1))[shiftFrom n0 k j]? = (s.id2rule.map (·.2.1))[j]? := fun j => by
    have := congrArg (Option.map Prod.fst) (hs.rules j)
    simpa [List.getElem?_map, Option.map_map, Function.comp_def] using this
  have hlab : ∀ (f : String → Except Panic Bool) (n : Node) (b : Bool), (match n.hasLabels f with
      | .ok b => Except.ok b
      | .error _ => .error Panic.notModelled) = .ok b → n.hasLabels f = .ok b := fun f n b hb => by
    cases hf : n.hasLabels f with
    | ok c => rw [hf] at hb; exact hb
    | error e => rw [hf] at hb; cases hb
  obtain ⟨hS, hA, hroot⟩ := postinit_ren (X := x.walk.map Prod.snd) hlk (shiftFrom_mono n0 k) hl hK
    (by
      intro n hn nm hnm
      obtain ⟨e, he, rfl⟩ := List.mem_map.mp hn
      exact hX e he nm hnm)
    (by
      intro n hn
      obtain ⟨e, he, rfl⟩ := List.mem_map.mp hn
      exact hgood.1.link e he) hn hgood.2 h1 h1' h2 h2' (fun n b => hlab _ n b) (fun n b => hlab _ n b) h3 h3' h4 h4' rfl rfl rfl rfl h5 h5' h6 h6'
  refine ⟨n0, k, ⟨fun i j _ _ he => ?_, fun i n hn => ?_, fun n hn nm hnm => hlk nm (hA n hn nm hnm), hroot⟩⟩
  · have a := shiftFrom_mono n0 k i j
    have b := shiftFrom_mono n0 k j i
    omega
  · have := hS i
    have hn : R2[i]? = some n := hn
    rw [hn] at this
    exact this

/-- Lines with an included one more. -/
theorem within_of_line (hc : ∀ s n, compile s = .ok n → n.Plain) {name : String} (hname : name ≠ "") {A B : List Line} {nm : String} {c : Line} {o : RuleOpts}
    (hl : ∀ l ∈ A ++ .i nm c o :: B, l.Plain) (hfresh : nm ∉ includedNames (A ++ B)) {m m' : Made}
    (h : grammarFromLines compile name (A ++ B) = .ok m) (h' : grammarFromLines compile name (A ++ .i nm c o :: B) = .ok m')
    (hX : ∀ next x next', getRule compile nm name o next c = .ok (x, next') → ∀ e ∈ m.conn.id2rule, ∀ r ∈ e.2.2.refs, r ∉ x.walk.map (·.2)) :
    ∃ n0 k, m.g.Within (shiftFrom n0 k) id m'.g := by
  have hlA : ∀ l ∈ A, l.Plain := fun l hm => hl l (List.mem_append_left _ hm)
  have hlB : ∀ l ∈ B, l.Plain := fun l hm => hl l (List.mem_append_right _ (List.mem_cons_of_mem _ hm))
  have hlAB : ∀ l ∈ A ++ B, l.Plain := fun l hm => (List.mem_append.mp hm).elim (hlA l) (hlB l)
  have happ : includedNames (A ++ B) = includedNames A ++ includedNames B := by simp [includedNames]
  rw [happ, List.mem_append, not_or] at hfresh
  simp only [grammarFromLines, rankFromLines, exceptBindOk, exceptPureOk, Prod.exists] at h h'
  obtain ⟨t, ⟨r, n, hr, rfl⟩, h⟩ := h
  obtain ⟨t', ⟨r', n', hr', rfl⟩, h'⟩ := h'
  have ok := rankLines_plain hc _ hlAB ⟨by simp, by simp, by simp, by simp⟩ hr
  have ok' := rankLines_plain hc _ hl ⟨by simp, by simp, by simp, by simp⟩ hr'
  obtain ⟨r1, n1, ha, hb⟩ := rankLines_append A B hr
  obtain ⟨r1', n1', ha', hb'⟩ := rankLines_append A (.i nm c o :: B) hr'
  rw [ha] at ha'
  cases ha'
  have hn1 : r1.name = name := (rankLines_plain hc _ hlA ⟨by simp, by simp, by simp, by simp⟩ ha).2 hname
  simp only [rankLines, rankLine, exceptBindOk, exceptPureOk, Prod.exists, Prod.mk.injEq] at hb'
  obtain ⟨r2, n2, ⟨x, nx, hx, rfl, rfl⟩, hb'⟩ := hb'
  have hxn : x.name = nm := (getRule_plain hc c (by cases hl _ (List.mem_append_right _ (List.mem_cons_self ..)); assumption) hx).2.1
  have hone : OneMore x r1 (r1.include nm x) := by
    refine ⟨?_, ⟨r1.incl, [], r1.incl, x, [], by simp, ?_, rfl, rfl, rfl⟩, rfl⟩
    · simp [Rank.include, hn1, hname]
    · have : r1.incl.map (fun y => if y.name = nm then x else y) = r1.incl := by
        conv => rhs; rw [← List.map_id r1.incl]
        refine List.map_congr_left fun y hy => ?_
        rw [if_neg, id]
        rintro he
        rcases rankLines_inclNames hc A hlA ha y hy with h0 | ⟨z, hz, -⟩
        · exact hfresh.1 (he ▸ h0)
        · cases hz
      simp only [Rank.include, this]
  have := rankLines_oneMore B (by rw [hxn]; exact hfresh.2) hone hb hb'
  rw [hn1] at hx
  have hi : ({ name := r'.name } : Info) = { name := r.name } := by rw [this.name]
  exact postinit_oneMore this ok.1 ok'.1 hi rfl h h' (hX _ x _ hx)

end Joeson
