import Verif.Proofs.Lang2
/-!
# From the lines of a grammar to the tree of its rules
-/

set_option linter.unusedVariables false

namespace Joeson.RuleText

/-- Neither traced nor left out of the cache. -/
def _root_.Joeson.Info.Usual (i : Info) : Prop := i.debug = false ∧ i.skipCache = false

/-- Neither asks for tracing nor for leaving the rule out of the cache. -/
def _root_.Joeson.RuleOpts.Usual (o : RuleOpts) : Prop := o.debug = false ∧ o.skipCache = false

/-- The name is one that the library makes up, `R[k]`. -/
def Auto (s : String) : Bool := s.toList.contains '['

mutual
/-- The tree of a rule. -/
def TreeB (b : Bool) : Body → Rules → Prop
  | .text e, x => ∃ a n, x = .leaf a .rule n ∧ Like b n e.pat ∧ n.Plain ∧ n.info.Usual
  | .rank ls, x => ∃ a i incl alts, x = .rank a true i incl alts ∧ i.label = "" ∧ i.Usual ∧ TreeI b ls incl ∧ TreeA b ls alts
/-- The included rules. -/
def TreeI (b : Bool) : List GLine → List Rules → Prop
  | [], l => l = []
  | .alt _ _ _ :: ls, l => TreeI b ls l
  | .incl nm _ y :: ls, l => ∃ x l', l = x :: l' ∧ x.name = nm ∧ TreeB b y x ∧ TreeI b ls l'
/-- The alternatives. -/
def TreeA (b : Bool) : List GLine → List Rules → Prop
  | [], l => l = []
  | .alt nm _ y :: ls, l => ∃ x l', l = x :: l' ∧ (if nm = "" then Auto x.name = true else x.name = nm) ∧ TreeB b y x ∧ TreeA b ls l'
  | .incl _ _ _ :: ls, l => TreeA b ls l
end

/-- The names of included rules. -/
def inclNames : List GLine → List String
  | [] => []
  | .incl nm _ _ :: ls => nm :: inclNames ls
  | .alt _ _ _ :: ls => inclNames ls

mutual
/-- No rank includes a name twice. -/
def GLine.Fine : GLine → Prop
  | .alt _ _ y | .incl _ _ y => y.Fine
/-- The same. -/
def Body.Fine : Body → Prop
  | .text _ => True
  | .rank ls => (inclNames ls).Nodup ∧ FineLines ls
/-- The same. -/
def FineLines : List GLine → Prop
  | [] => True
  | l :: ls => l.Fine ∧ FineLines ls
end

theorem nodup_left {α : Type} {a b : List α} (h : (a ++ b).Nodup) : a.Nodup := (List.nodup_append.mp h).1
theorem nodup_right {α : Type} {a b : List α} (h : (a ++ b).Nodup) : b.Nodup := (List.nodup_append.mp h).2.1

theorem inclNames_sub (ls : List GLine) : (inclNames ls).Sublist ((declsOf ls).map (·.1)) := by
  induction ls with
  | nil => exact .slnil
  | cons l ls ih =>
    cases l with
    | alt nm cb y =>
      simp only [inclNames, declsOf, List.map_append]
      exact ih.trans (List.sublist_append_right ..)
    | incl nm cb y =>
      simp only [inclNames, declsOf, GLine.decls, List.map_append, List.map_cons, List.cons_append]
      exact .cons_cons _ (ih.trans (List.sublist_append_right ..))

mutual
theorem body_fine : ∀ (y : Body), (y.decls.map (·.1)).Nodup → y.Fine
  | .text _, _ => trivial
  | .rank ls, h => ⟨(inclNames_sub ls).nodup h, lines_fine ls h⟩
theorem lines_fine : ∀ (ls : List GLine), ((declsOf ls).map (·.1)).Nodup → FineLines ls
  | [], _ => trivial
  | .alt nm cb y :: ls, h => by
    simp only [declsOf, GLine.decls, List.map_append] at h
    exact ⟨body_fine y (nodup_right (nodup_left h)), lines_fine ls (nodup_right h)⟩
  | .incl nm cb y :: ls, h => by
    simp only [declsOf, GLine.decls, List.map_append, List.map_cons] at h
    exact ⟨body_fine y (List.nodup_cons.mp (nodup_left h)).2, lines_fine ls (nodup_right h)⟩
end

/-- What a line contains. -/
def Content : Body → Line → Prop
  | .text e, c => c = .s e.text ∨ c = .o "" (.s e.text) {}
  | .rank ls, c => ∃ lines, linesOf ls = .ok lines ∧ c = .a lines

theorem cbOpts_debug (cb : Option Nat) : ((cbOpts cb).foldl RuleOpts.apply {}).Usual := by
  cases cb <;> exact ⟨rfl, rfl⟩

theorem alt_line {nm : String} {cb : Option Nat} {y : Body} {x : Line} (h : (GLine.alt nm cb y).line = .ok x) :
    ∃ c opts, x = .o nm c opts ∧ Content y c ∧ opts.Usual := by
  simp only [GLine.line, exceptBindOk] at h
  obtain ⟨arg, harg, h⟩ := h
  cases y with
  | text e =>
    simp only [Body.arg, Except.ok.injEq] at harg
    subst harg
    by_cases hn : nm = ""
    · rw [if_pos hn] at h
      simp only [lineO, lineInit, rule2line, exceptBindOk, exceptPureOk] at h
      cases h with
      | intro z hz =>
        obtain ⟨⟨w, hw, rfl⟩, rfl⟩ := hz
        cases hw
        exact ⟨_, _, by rw [hn], .inl rfl, cbOpts_debug cb⟩
    · rw [if_neg hn] at h
      simp only [lineO, lineInit, namedLine, rule2line, exceptBindOk, exceptPureOk] at h
      obtain ⟨z, ⟨w, hw, rfl⟩, rfl⟩ := h
      cases hw
      exact ⟨_, _, rfl, .inr rfl, cbOpts_debug cb⟩
  | rank ls =>
    simp only [Body.arg, exceptBindOk, exceptPureOk] at harg
    obtain ⟨lines, hls, rfl⟩ := harg
    by_cases hn : nm = ""
    · rw [if_pos hn] at h
      simp only [lineO, lineInit, rule2line, exceptBindOk, exceptPureOk] at h
      obtain ⟨z, ⟨w, hw, rfl⟩, rfl⟩ := h
      cases hw
      exact ⟨_, _, by rw [hn], ⟨_, hls, rfl⟩, cbOpts_debug cb⟩
    · rw [if_neg hn] at h
      simp only [lineO, lineInit, namedLine, rule2line, exceptBindOk, exceptPureOk] at h
      obtain ⟨z, ⟨w, hw, rfl⟩, rfl⟩ := h
      cases hw
      exact ⟨_, _, rfl, ⟨_, hls, rfl⟩, cbOpts_debug cb⟩

theorem incl_line {nm : String} {cb : Option Nat} {y : Body} {x : Line} (h : (GLine.incl nm cb y).line = .ok x) :
    ∃ c opts, x = .i nm c opts ∧ Content y c ∧ opts.Usual ∧ nm ≠ "" := by
  simp only [GLine.line, exceptBindOk] at h
  obtain ⟨arg, harg, h⟩ := h
  cases y with
  | text e =>
    simp only [Body.arg, Except.ok.injEq] at harg
    subst harg
    simp only [lineI, lineInit, namedLine, rule2line, exceptBindOk, exceptPureOk] at h
    obtain ⟨z, ⟨w, hw, rfl⟩, h⟩ := h
    cases hw
    by_cases hn : nm = ""
    · simp only [if_pos hn] at h; cases h
    · simp only [if_neg hn] at h
      cases h
      exact ⟨_, _, rfl, .inr rfl, cbOpts_debug cb, hn⟩
  | rank ls =>
    simp only [Body.arg, exceptBindOk, exceptPureOk] at harg
    obtain ⟨lines, hls, rfl⟩ := harg
    simp only [lineI, lineInit, namedLine, rule2line, exceptBindOk, exceptPureOk] at h
    obtain ⟨z, ⟨w, hw, rfl⟩, h⟩ := h
    cases hw
    by_cases hn : nm = ""
    · simp only [if_pos hn] at h; cases h
    · simp only [if_neg hn] at h
      cases h
      exact ⟨_, _, rfl, ⟨_, hls, rfl⟩, cbOpts_debug cb, hn⟩

/-- What the compilation of texts has to do. -/
def Compiles (b : Bool) (compile : Bytes → Except Panic Node) (e : Expr) : Prop :=
  ∃ n, compile e.text = .ok n ∧ Like b n e.pat ∧ n.Plain

theorem auto_oLineName (parent : String) (k : Nat) : Auto (oLineName "" "" parent k) = true := by
  unfold oLineName Auto
  simp [String.toList_append]

section
variable {b : Bool} {compile : Bytes → Except Panic Node}

theorem leaf_tree {e : Expr} (hc : Compiles b compile e) {name : String} {opts : RuleOpts} (ho : opts.Usual) {next next' : Nat} {parent : String}
    {x : Rules} (h : getRule compile name parent opts next (.s e.text) = .ok (x, next')) :
    TreeB b (.text e) x ∧ x.name = name := by
  obtain ⟨n, hn, hl, hp⟩ := hc
  simp only [getRule, exceptBindOk, exceptPureOk, Prod.mk.injEq] at h
  obtain ⟨p, hp', y, hy, rfl, rfl⟩ := h
  rw [hn] at hp'
  cases hp'
  obtain ⟨hnm, rfl⟩ := getRuleEnd_ok hy
  have h1 := hp.setInfo fun i => { i with name := name, debug := opts.debug, skipCache := opts.skipCache, cb := opts.cb }
  refine ⟨⟨_, _, rfl, ?_, h1.setInfo _, ?_⟩, ?_⟩
  · refine Like.setInfo (Like.setInfo hl ?_) ?_
    · exact fun _ _ h => h
    · exact fun _ _ h => h
  · rw [Node.setInfo_name h1.notRule, Node.setInfo_name hp.notRule]; exact ho
  · simp only [Rules.setInfo, Rules.name]
    rw [Node.setInfo_name h1.notRule, Node.setInfo_name hp.notRule]

theorem tree_name_setInfo {y : Body} {x : Rules} (h : TreeB b y x) (c : Option Nat) : TreeB b y (x.setInfo fun i => { i with cb := c }) ∧
    (x.setInfo fun i => { i with cb := c }).name = x.name := by
  cases y with
  | text e =>
    obtain ⟨a, n, rfl, hl, hp, hd⟩ := h
    refine ⟨⟨a, _, rfl, hl.setInfo fun _ _ h => h, hp.setInfo _, ?_⟩, ?_⟩
    · rw [Node.setInfo_name hp.notRule]; exact hd
    · simp only [Rules.setInfo, Rules.name, Node.setInfo_name hp.notRule]
  | rank ls =>
    simp only [TreeB] at h
    obtain ⟨a, i, incl, alts, rfl, h1, h2, h3, h4⟩ := h
    refine ⟨?_, rfl⟩
    simp only [TreeB]
    exact ⟨a, _, incl, alts, rfl, h1, h2, h3, h4⟩

mutual
theorem getRule_tree : ∀ (y : Body), y.All (Compiles b compile) → y.Fine → ∀ {c : Line}, Content y c → ∀ {name parent : String} {opts : RuleOpts},
    opts.Usual → ∀ {next next' : Nat} {x : Rules}, getRule compile name parent opts next c = .ok (x, next') →
    TreeB b y x ∧ x.name = name
  | .text e, hc, _, c, hcont, name, parent, opts, ho, next, next', x, h => by
    rcases hcont with rfl | rfl
    · exact leaf_tree hc ho h
    · simp only [getRule, exceptBindOk, exceptPureOk, Prod.exists, Prod.mk.injEq] at h
      obtain ⟨z, n1, ⟨p, hp, w, hw, rfl, rfl⟩, z', hz, rfl, rfl⟩ := h
      have hget : getRule compile (oLineName "" name parent 0) parent opts next (.s e.text) = .ok (w, next + 1) := by
        simp only [getRule, exceptBindOk, exceptPureOk, Prod.mk.injEq]
        exact ⟨p, hp, w, hw, rfl, trivial⟩
      obtain ⟨ht, hn⟩ := leaf_tree hc ho hget
      have hne : w.name ≠ "" := by rw [hn]; exact oLineName_ne'
      rw [if_neg hne] at hz
      obtain ⟨hnm, rfl⟩ := getRuleEnd_ok hz
      obtain ⟨h1, h2⟩ := tree_name_setInfo ht opts.cb
      exact ⟨h1, by rw [h2]; exact hnm.resolve_left hne⟩
  | .rank ls, hc, hf, c, hcont, name, parent, opts, ho, next, next', x, h => by
    obtain ⟨lines, hls, rfl⟩ := hcont
    simp only [getRule, exceptBindOk, exceptPureOk, Prod.exists, Prod.mk.injEq] at h
    obtain ⟨r, n1, hr, z, hz, rfl, rfl⟩ := h
    obtain ⟨hn, rfl⟩ := getRuleEnd_ok hz
    obtain ⟨incl, alts, h1, h2, h3, h4, h5⟩ := rankLines_tree ls hc hf.2 hls (by simpa [Rank.names] using hf.1) hr
    simp only [List.nil_append] at h1 h2
    refine ⟨?_, ?_⟩
    · simp only [TreeB]
      exact ⟨_, _, _, _, rfl, rfl, ⟨rfl, rfl⟩, h1 ▸ h3, h2 ▸ h4⟩
    · simp only [Rules.name, Rules.setInfo] at hn ⊢
      rcases hn with hn | hn
      · by_cases h0 : name = ""
        · rw [hn, h0]
        · exact h5 h0
      · exact hn
theorem rankLines_tree : ∀ (ls : List GLine), AllLines (Compiles b compile) ls → FineLines ls → ∀ {lines : List Line}, linesOf ls = .ok lines →
    ∀ {r : Rank}, (r.names ++ inclNames ls).Nodup → ∀ {next next' : Nat} {r' : Rank}, rankLines compile lines r next = .ok (r', next') →
    ∃ incl alts, r'.incl = r.incl ++ incl ∧ r'.alts = r.alts ++ alts ∧ TreeI b ls incl ∧ TreeA b ls alts ∧ (r.name ≠ "" → r'.name = r.name)
  | [], _, _, lines, hls, r, hnd, next, next', r', h => by
    cases hls
    cases h
    exact ⟨[], [], by simp, by simp, rfl, rfl, fun _ => rfl⟩
  | .alt nm cb y :: ls, hc, hf, lines, hls, r, hnd, next, next', r', h => by
    simp only [linesOf, exceptBindOk, exceptPureOk] at hls
    obtain ⟨x, hx, rest, hrest, rfl⟩ := hls
    obtain ⟨c, opts, rfl, hcont, ho⟩ := alt_line hx
    simp only [rankLines, exceptBindOk, Prod.exists] at h
    obtain ⟨r1, n1, h1, h2⟩ := h
    simp only [rankLine, exceptBindOk, exceptPureOk, Prod.exists, Prod.mk.injEq] at h1
    obtain ⟨z, n2, hz, rfl, rfl⟩ := h1
    obtain ⟨ht, hn⟩ := getRule_tree y hc.1 hf.1 hcont ho hz
    obtain ⟨incl, alts, e1, e2, e3, e4, e5⟩ := rankLines_tree ls hc.2 hf.2 hrest (by simpa [inclNames, Rank.names] using hnd) h2
    refine ⟨incl, z :: alts, e1, by simpa using e2, by simpa [TreeI] using e3, ?_, e5⟩
    simp only [TreeA]
    refine ⟨z, alts, rfl, ?_, ht, e4⟩
    rw [hn]
    split
    · rename_i h0
      rw [h0]
      exact auto_oLineName _ _
    · rename_i h0
      simp [oLineName, h0]
  | .incl nm cb y :: ls, hc, hf, lines, hls, r, hnd, next, next', r', h => by
    simp only [linesOf, exceptBindOk, exceptPureOk] at hls
    obtain ⟨x, hx, rest, hrest, rfl⟩ := hls
    obtain ⟨c, opts, rfl, hcont, ho, hne⟩ := incl_line hx
    simp only [rankLines, exceptBindOk, Prod.exists] at h
    obtain ⟨r1, n1, h1, h2⟩ := h
    simp only [rankLine, exceptBindOk, exceptPureOk, Prod.exists, Prod.mk.injEq] at h1
    obtain ⟨z, n2, hz, rfl, rfl⟩ := h1
    obtain ⟨ht, hn⟩ := getRule_tree y hc.1 hf.1 hcont ho hz
    simp only [inclNames] at hnd
    have hni : nm ∉ r.names := fun hm => (List.nodup_append.mp hnd).2.2 nm hm nm (List.mem_cons_self ..) rfl
    have hinc := include_fresh (x := z) hni
    obtain ⟨incl, alts, e1, e2, e3, e4, e5⟩ := rankLines_tree ls hc.2 hf.2 hrest (r := r.include nm z) (by
      unfold Rank.names
      rw [hinc]
      simpa [hn, Rank.names] using hnd) h2
    refine ⟨z :: incl, alts, by rw [e1, hinc]; simp, e2, ?_, by simpa [TreeA] using e4, ?_⟩
    · simp only [TreeI]
      exact ⟨z, incl, rfl, hn, ht, e3⟩
    · intro h0
      have : (r.include nm z).name = r.name := by simp only [Rank.include, if_neg h0]
      rw [e5 (by rw [this]; exact h0), this]
end

end

/-! ## The tree is plain, its names -/

mutual
theorem tree_plain {b : Bool} : ∀ (y : Body) {x : Rules}, TreeB b y x → x.Plain ∧ x.isRule = true ∧ x.memoised = true
  | .text e, x, h => by
    obtain ⟨a, n, rfl, hl, hp, hd⟩ := h
    exact ⟨.leaf hp (by simp), rfl, rfl⟩
  | .rank ls, x, h => by
    simp only [TreeB] at h
    obtain ⟨a, i, incl, alts, rfl, h1, h2, h3, h4⟩ := h
    have hi := treeI_plain ls h3
    have ha := treeA_plain ls h4
    exact ⟨.rank (fun x hx => (hi x hx).1) (fun x hx => (ha x hx).1) h1 (fun x hx => (hi x hx).2.1) (fun x hx => (ha x hx).2.1), rfl, rfl⟩
theorem treeI_plain {b : Bool} : ∀ (ls : List GLine) {l : List Rules}, TreeI b ls l → ∀ x ∈ l, x.Plain ∧ x.isRule = true ∧ x.memoised = true
  | [], l, h => by cases h; simp
  | .alt _ _ _ :: ls, l, h => by
    simp only [TreeI] at h
    exact treeI_plain ls h
  | .incl nm cb y :: ls, l, h => by
    simp only [TreeI] at h
    obtain ⟨x, l', rfl, hn, ht, h'⟩ := h
    have h1 := tree_plain y ht
    have h2 := treeI_plain ls h'
    intro z hz
    rcases List.mem_cons.mp hz with rfl | hz
    · exact h1
    · exact h2 z hz
theorem treeA_plain {b : Bool} : ∀ (ls : List GLine) {l : List Rules}, TreeA b ls l → ∀ x ∈ l, x.Plain ∧ x.isRule = true ∧ x.memoised = true
  | [], l, h => by cases h; simp
  | .incl _ _ _ :: ls, l, h => by
    simp only [TreeA] at h
    exact treeA_plain ls h
  | .alt nm cb y :: ls, l, h => by
    simp only [TreeA] at h
    obtain ⟨x, l', rfl, hn, ht, h'⟩ := h
    have h1 := tree_plain y ht
    have h2 := treeA_plain ls h'
    intro z hz
    rcases List.mem_cons.mp hz with rfl | hz
    · exact h1
    · exact h2 z hz
end

/-- The names that are not made up. -/
def realNames (l : List (Nat × String)) : List String := (l.map (·.2)).filter fun s => !Auto s

theorem realNames_append (l l' : List (Nat × String)) : realNames (l ++ l') = realNames l ++ realNames l' := by
  simp [realNames]

/-- Of one name. -/
def realName (s : String) : List String := if Auto s then [] else [s]

theorem realName_ok {s : String} (h : Auto s = false) : realName s = [s] := by simp [realName, h]

mutual
theorem body_names {b : Bool} : ∀ (y : Body) {x : Rules}, TreeB b y x → (∀ d ∈ y.decls, Auto d.1 = false) →
    (realNames x.walk).Perm (realName x.name ++ y.decls.map (·.1))
  | .text e, x, h, _ => by
    obtain ⟨a, n, rfl, hl, hp, hd⟩ := h
    simp only [Rules.walk, realNames, Rules.name, realName, Body.decls, List.map_nil, List.append_nil, List.map_cons, List.filter_cons, List.filter_nil]
    by_cases ha : Auto n.info.name = true <;> simp [ha]
  | .rank ls, x, h, hq => by
    simp only [TreeB] at h
    obtain ⟨a, i, incl, alts, rfl, h1, h2, h3, h4⟩ := h
    have := lines_names ls h3 h4 hq
    simp only [Rules.walk, if_true, realNames_append, Rules.name, Body.decls]
    have hone : realNames [(a, i.name)] = realName i.name := by
      simp only [realNames, realName, List.map_cons, List.map_nil, List.filter_cons, List.filter_nil]
      cases Auto i.name <;> simp
    rw [hone]
    exact (List.perm_append_comm).trans (List.Perm.append_left _ this)
theorem lines_names {b : Bool} : ∀ (ls : List GLine) {incl alts : List Rules}, TreeI b ls incl → TreeA b ls alts → (∀ d ∈ declsOf ls, Auto d.1 = false) →
    (realNames (Rules.walkList incl) ++ realNames (Rules.walkList alts)).Perm ((declsOf ls).map (·.1))
  | [], incl, alts, h1, h2, hq => by
    cases h1
    cases h2
    exact .nil
  | .alt nm cb y :: ls, incl, alts, h1, h2, hq => by
    simp only [TreeI] at h1
    simp only [TreeA] at h2
    obtain ⟨x, l', rfl, hn, ht, h'⟩ := h2
    simp only [declsOf, GLine.decls, List.mem_append] at hq
    have p1 := body_names y ht fun d hd => hq d (.inl (.inr hd))
    have p2 := lines_names ls h1 h' fun d hd => hq d (.inr hd)
    simp only [Rules.walkList, realNames_append, declsOf, GLine.decls, List.map_append]
    have hx : realName x.name = (if nm = "" then [] else [(nm, y)] : List (String × Body)).map (·.1) := by
      by_cases h0 : nm = ""
      · rw [if_pos h0] at hn
        simp [realName, hn, h0]
      · rw [if_neg h0] at hn
        have : Auto nm = false := hq (nm, y) (.inl (.inl (by simp [h0])))
        simp [realName, hn, h0, this]
    rw [← hx]
    refine List.Perm.trans ?_ (List.Perm.append p1 p2)
    rw [← List.append_assoc, ← List.append_assoc]
    exact List.Perm.append_right _ List.perm_append_comm
  | .incl nm cb y :: ls, incl, alts, h1, h2, hq => by
    simp only [TreeI] at h1
    simp only [TreeA] at h2
    obtain ⟨x, l', rfl, hn, ht, h'⟩ := h1
    simp only [declsOf, GLine.decls, List.mem_append, List.mem_cons] at hq
    have p1 := body_names y ht fun d hd => hq d (.inl (.inr hd))
    have p2 := lines_names ls h' h2 fun d hd => hq d (.inr hd)
    simp only [Rules.walkList, realNames_append, declsOf, GLine.decls, List.map_append, List.map_cons]
    have hx : realName x.name = [nm] := by
      have : Auto nm = false := hq (nm, y) (.inl (.inl rfl))
      rw [hn, realName_ok this]
    rw [hx] at p1
    rw [List.append_assoc]
    exact List.Perm.append p1 p2
end

theorem unique_index {l : List String} {p : String → Bool} (h : (l.filter p).Nodup) {x : String} (hx : p x = true) {i j : Nat}
    (hi : l[i]? = some x) (hj : l[j]? = some x) : i = j := by
  have key : ∀ i j : Nat, i < j → l[i]? = some x → l[j]? = some x → False := by
    intro i j hij hi hj
    have h1 : x ∈ l.take j := by
      rw [List.mem_iff_getElem?]
      exact ⟨i, by rw [List.getElem?_take, if_pos hij]; exact hi⟩
    have h2 : x ∈ l.drop j := by
      rw [List.mem_iff_getElem?]
      exact ⟨0, by rw [List.getElem?_drop]; exact hj⟩
    rw [← List.take_append_drop j l, List.filter_append] at h
    exact (List.nodup_append.mp h).2.2 x (List.mem_filter.mpr ⟨h1, hx⟩) x (List.mem_filter.mpr ⟨h2, hx⟩) rfl
  rcases Nat.lt_trichotomy i j with h' | h' | h'
  · exact (key i j h' hi hj).elim
  · exact h'
  · exact (key j i h' hj hi).elim

end Joeson.RuleText
