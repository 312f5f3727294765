import Verif.Proofs.Values
import Verif.Proofs.Lang5
/-!
# The rules of a grammar made from lines, with labels, captures, types and callbacks
-/

set_option linter.unusedVariables false
set_option linter.unusedSectionVars false

namespace Joeson.RuleText

variable {A : String → Prop}

/-- The name of a rule: the one given, or one that the library makes up. -/
def NameIs (nm s : String) : Prop := if nm = "" then Auto s = true else s = nm

mutual
/-- The tree of a rule with its callback. -/
def TreeV (A : String → Prop) : Option Nat → Body → Rules → Prop
  | cb, .text e, x => ∃ a n, x = .leaf a .rule n ∧ Fit (stage0 A) false cb e.vp n
  | cb, .rank ls, x => ∃ a i incl alts, x = .rank a true i incl alts ∧ i.label = "" ∧ i.cb = cb ∧ TreeVI A ls incl ∧ TreeVA A ls alts
/-- The included rules. -/
def TreeVI (A : String → Prop) : List GLine → List Rules → Prop
  | [], l => l = []
  | .alt _ _ _ :: ls, l => TreeVI A ls l
  | .incl nm cb y :: ls, l => ∃ x l', l = x :: l' ∧ x.name = nm ∧ TreeV A cb y x ∧ TreeVI A ls l'
/-- The alternatives. -/
def TreeVA (A : String → Prop) : List GLine → List Rules → Prop
  | [], l => l = []
  | .alt nm cb y :: ls, l => ∃ x l', l = x :: l' ∧ NameIs nm x.name ∧ TreeV A cb y x ∧ TreeVA A ls l'
  | .incl _ _ _ :: ls, l => TreeVA A ls l
end

/-- What the compilation of texts has to do. -/
def CompilesV (A : String → Prop) (compile : Bytes → Except Panic Node) (e : Expr) : Prop :=
  compile e.text = .ok e.node ∧ ∀ nm ∈ e.vp.spliced, A nm

theorem cbOpts_cb (cb : Option Nat) : ((cbOpts cb).foldl RuleOpts.apply {}).cb = cb := by
  cases cb <;> rfl

theorem alt_lineV {nm : String} {cb : Option Nat} {y : Body} {x : Line} (h : (GLine.alt nm cb y).line = .ok x) :
    ∃ c opts, x = .o nm c opts ∧ Content y c ∧ opts.cb = cb := by
  simp only [GLine.line, exceptBindOk] at h
  obtain ⟨arg, harg, h⟩ := h
  cases y with
  | text e =>
    simp only [Body.arg, Except.ok.injEq] at harg
    subst harg
    by_cases hn : nm = ""
    · rw [if_pos hn] at h
      simp only [lineO, lineInit, rule2line, exceptBindOk, exceptPureOk] at h
      obtain ⟨z, ⟨w, hw, rfl⟩, rfl⟩ := h
      cases hw
      exact ⟨_, _, by rw [hn], .inl rfl, cbOpts_cb cb⟩
    · rw [if_neg hn] at h
      simp only [lineO, lineInit, namedLine, rule2line, exceptBindOk, exceptPureOk] at h
      obtain ⟨z, ⟨w, hw, rfl⟩, rfl⟩ := h
      cases hw
      exact ⟨_, _, rfl, .inr rfl, cbOpts_cb cb⟩
  | rank ls =>
    simp only [Body.arg, exceptBindOk, exceptPureOk] at harg
    obtain ⟨lines, hls, rfl⟩ := harg
    by_cases hn : nm = ""
    · rw [if_pos hn] at h
      simp only [lineO, lineInit, rule2line, exceptBindOk, exceptPureOk] at h
      obtain ⟨z, ⟨w, hw, rfl⟩, rfl⟩ := h
      cases hw
      exact ⟨_, _, by rw [hn], ⟨_, hls, rfl⟩, cbOpts_cb cb⟩
    · rw [if_neg hn] at h
      simp only [lineO, lineInit, namedLine, rule2line, exceptBindOk, exceptPureOk] at h
      obtain ⟨z, ⟨w, hw, rfl⟩, rfl⟩ := h
      cases hw
      exact ⟨_, _, rfl, ⟨_, hls, rfl⟩, cbOpts_cb cb⟩

theorem incl_lineV {nm : String} {cb : Option Nat} {y : Body} {x : Line} (h : (GLine.incl nm cb y).line = .ok x) :
    ∃ c opts, x = .i nm c opts ∧ Content y c ∧ opts.cb = cb := by
  simp only [GLine.line, exceptBindOk] at h
  obtain ⟨arg, harg, h⟩ := h
  cases y with
  | text e =>
    simp only [Body.arg, Except.ok.injEq] at harg
    subst harg
    simp only [lineI, lineInit, namedLine, rule2line, exceptBindOk, exceptPureOk] at h
    obtain ⟨z, ⟨w, hw, rfl⟩, h⟩ := h
    cases hw
    by_cases hn : nm = ""
    · simp only [if_pos hn] at h; cases h
    · simp only [if_neg hn] at h
      cases h
      exact ⟨_, _, rfl, .inr rfl, cbOpts_cb cb⟩
  | rank ls =>
    simp only [Body.arg, exceptBindOk, exceptPureOk] at harg
    obtain ⟨lines, hls, rfl⟩ := harg
    simp only [lineI, lineInit, namedLine, rule2line, exceptBindOk, exceptPureOk] at h
    obtain ⟨z, ⟨w, hw, rfl⟩, h⟩ := h
    cases hw
    by_cases hn : nm = ""
    · simp only [if_pos hn] at h; cases h
    · simp only [if_neg hn] at h
      cases h
      exact ⟨_, _, rfl, ⟨_, hls, rfl⟩, cbOpts_cb cb⟩

section
variable {compile : Bytes → Except Panic Node}

theorem Fit.notNodeRule {S : Stage} {h : Bool} {cb : Option Nat} {p : VP} {n : Node} (hf : Fit S h cb p n) : ∀ id, n ≠ .rule id := by
  cases hf <;> simp

theorem leaf_treeV {e : Expr} (hc : CompilesV A compile e) {name : String} {opts : RuleOpts} {next next' : Nat} {parent : String}
    {x : Rules} (h : getRule compile name parent opts next (.s e.text) = .ok (x, next')) :
    TreeV A opts.cb (.text e) x ∧ x.name = name := by
  simp only [getRule, exceptBindOk, exceptPureOk, Prod.mk.injEq] at h
  obtain ⟨p, hp', y, hy, rfl, rfl⟩ := h
  rw [hc.1] at hp'
  cases hp'
  obtain ⟨hnm, rfl⟩ := getRuleEnd_ok hy
  have h0 := expr_fit_at e hc.2 false
  have h1 : Fit (stage0 A) false opts.cb e.vp (e.node.setInfo fun i => { i with name := name, debug := opts.debug, skipCache := opts.skipCache, cb := opts.cb }) :=
    h0.setInfo (fun _ => rfl) (fun _ => rfl) (fun _ => rfl)
  refine ⟨?_, ?_⟩
  · simp only [TreeV]
    exact ⟨_, _, rfl, h1.setInfo (fun _ => rfl) (fun _ => rfl) (fun _ => rfl)⟩
  · simp only [Rules.setInfo, Rules.name]
    rw [Node.setInfo_name h1.notNodeRule, Node.setInfo_name h0.notNodeRule]

theorem treeV_setInfo {cb : Option Nat} {y : Body} {x : Rules} (h : TreeV A cb y x) (c : Option Nat) : TreeV A c y (x.setInfo fun i => { i with cb := c }) ∧
    (x.setInfo fun i => { i with cb := c }).name = x.name := by
  cases y with
  | text e =>
    simp only [TreeV] at h
    obtain ⟨a, n, rfl, hl⟩ := h
    refine ⟨?_, ?_⟩
    · simp only [TreeV]
      exact ⟨a, _, rfl, hl.setInfo (fun _ => rfl) (fun _ => rfl) (fun _ => rfl)⟩
    · simp only [Rules.setInfo, Rules.name, Node.setInfo_name hl.notNodeRule]
  | rank ls =>
    simp only [TreeV] at h
    obtain ⟨a, i, incl, alts, rfl, h1, h2, h3, h4⟩ := h
    refine ⟨?_, rfl⟩
    simp only [TreeV]
    exact ⟨a, _, incl, alts, rfl, h1, rfl, h3, h4⟩

mutual
theorem getRule_treeV : ∀ (y : Body), y.All (CompilesV A compile) → y.Fine → ∀ {c : Line}, Content y c → ∀ {name parent : String} {opts : RuleOpts},
    ∀ {next next' : Nat} {x : Rules}, getRule compile name parent opts next c = .ok (x, next') →
    TreeV A opts.cb y x ∧ x.name = name
  | .text e, hc, _, c, hcont, name, parent, opts, next, next', x, h => by
    rcases hcont with rfl | rfl
    · exact leaf_treeV hc h
    · simp only [getRule, exceptBindOk, exceptPureOk, Prod.exists, Prod.mk.injEq] at h
      obtain ⟨z, n1, ⟨p, hp, w, hw, rfl, rfl⟩, z', hz, rfl, rfl⟩ := h
      have hget : getRule compile (oLineName "" name parent 0) parent opts next (.s e.text) = .ok (w, next + 1) := by
        simp only [getRule, exceptBindOk, exceptPureOk, Prod.mk.injEq]
        exact ⟨p, hp, w, hw, rfl, trivial⟩
      obtain ⟨ht, hn⟩ := leaf_treeV hc hget
      have hne : w.name ≠ "" := by rw [hn]; exact oLineName_ne'
      rw [if_neg hne] at hz
      obtain ⟨hnm, rfl⟩ := getRuleEnd_ok hz
      obtain ⟨h1, h2⟩ := treeV_setInfo ht opts.cb
      exact ⟨h1, by rw [h2]; exact hnm.resolve_left hne⟩
  | .rank ls, hc, hf, c, hcont, name, parent, opts, next, next', x, h => by
    obtain ⟨lines, hls, rfl⟩ := hcont
    simp only [getRule, exceptBindOk, exceptPureOk, Prod.exists, Prod.mk.injEq] at h
    obtain ⟨r, n1, hr, z, hz, rfl, rfl⟩ := h
    obtain ⟨hn, rfl⟩ := getRuleEnd_ok hz
    obtain ⟨incl, alts, h1, h2, h3, h4, h5⟩ := rankLines_treeV ls hc hf.2 hls (by simpa [Rank.names] using hf.1) hr
    simp only [List.nil_append] at h1 h2
    refine ⟨?_, ?_⟩
    · simp only [TreeV]
      exact ⟨_, _, _, _, rfl, rfl, rfl, h1 ▸ h3, h2 ▸ h4⟩
    · simp only [Rules.name, Rules.setInfo] at hn ⊢
      rcases hn with hn | hn
      · by_cases h0 : name = ""
        · rw [hn, h0]
        · exact h5 h0
      · exact hn
theorem rankLines_treeV : ∀ (ls : List GLine), AllLines (CompilesV A compile) ls → FineLines ls → ∀ {lines : List Line}, linesOf ls = .ok lines →
    ∀ {r : Rank}, (r.names ++ inclNames ls).Nodup → ∀ {next next' : Nat} {r' : Rank}, rankLines compile lines r next = .ok (r', next') →
    ∃ incl alts, r'.incl = r.incl ++ incl ∧ r'.alts = r.alts ++ alts ∧ TreeVI A ls incl ∧ TreeVA A ls alts ∧ (r.name ≠ "" → r'.name = r.name)
  | [], _, _, lines, hls, r, hnd, next, next', r', h => by
    cases hls
    cases h
    exact ⟨[], [], by simp, by simp, by simp [TreeVI], by simp [TreeVA], fun _ => rfl⟩
  | .alt nm cb y :: ls, hc, hf, lines, hls, r, hnd, next, next', r', h => by
    simp only [linesOf, exceptBindOk, exceptPureOk] at hls
    obtain ⟨x, hx, rest, hrest, rfl⟩ := hls
    obtain ⟨c, opts, rfl, hcont, ho⟩ := alt_lineV hx
    simp only [rankLines, exceptBindOk, Prod.exists] at h
    obtain ⟨r1, n1, h1, h2⟩ := h
    simp only [rankLine, exceptBindOk, exceptPureOk, Prod.exists, Prod.mk.injEq] at h1
    obtain ⟨z, n2, hz, rfl, rfl⟩ := h1
    obtain ⟨ht, hn⟩ := getRule_treeV y hc.1 hf.1 hcont hz
    obtain ⟨incl, alts, e1, e2, e3, e4, e5⟩ := rankLines_treeV ls hc.2 hf.2 hrest (by simpa [inclNames, Rank.names] using hnd) h2
    refine ⟨incl, z :: alts, e1, by simpa using e2, by simpa only [TreeVI] using e3, ?_, e5⟩
    simp only [TreeVA]
    refine ⟨z, alts, rfl, ?_, ho ▸ ht, e4⟩
    rw [hn]
    unfold NameIs
    split
    · rename_i h0
      rw [h0]
      exact auto_oLineName _ _
    · rename_i h0
      simp [oLineName, h0]
  | .incl nm cb y :: ls, hc, hf, lines, hls, r, hnd, next, next', r', h => by
    simp only [linesOf, exceptBindOk, exceptPureOk] at hls
    obtain ⟨x, hx, rest, hrest, rfl⟩ := hls
    obtain ⟨c, opts, rfl, hcont, ho⟩ := incl_lineV hx
    simp only [rankLines, exceptBindOk, Prod.exists] at h
    obtain ⟨r1, n1, h1, h2⟩ := h
    simp only [rankLine, exceptBindOk, exceptPureOk, Prod.exists, Prod.mk.injEq] at h1
    obtain ⟨z, n2, hz, rfl, rfl⟩ := h1
    obtain ⟨ht, hn⟩ := getRule_treeV y hc.1 hf.1 hcont hz
    simp only [inclNames] at hnd
    have hni : nm ∉ r.names := fun hm => (List.nodup_append.mp hnd).2.2 nm hm nm (List.mem_cons_self ..) rfl
    have hinc := include_fresh (x := z) hni
    obtain ⟨incl, alts, e1, e2, e3, e4, e5⟩ := rankLines_treeV ls hc.2 hf.2 hrest (r := r.include nm z) (by
      unfold Rank.names
      rw [hinc]
      simpa [hn, Rank.names] using hnd) h2
    refine ⟨z :: incl, alts, by rw [e1, hinc]; simp, e2, ?_, by simpa only [TreeVA] using e4, ?_⟩
    · simp only [TreeVI]
      exact ⟨z, incl, rfl, hn, ho ▸ ht, e3⟩
    · intro h0
      have : (r.include nm z).name = r.name := by simp only [Rank.include, if_neg h0]
      rw [e5 (by rw [this]; exact h0), this]
end

end

/-! ## Connected -/

mutual
/-- Rule `id` is an implementation of a rule; `S` is the stage. -/
def ImplV (S : Stage) (R : List Node) : Option Nat → Body → Nat → Prop
  | cb, .text e, id => ∃ n, R[id]? = some n ∧ Fit S false cb e.vp n
  | cb, .rank ls, id => ∃ i l, R[id]? = some (.choice i l) ∧ i.label = "" ∧ i.cb = cb ∧ ImplVA S R ls l ∧ .rule id ∉ l
/-- The alternatives are the numbers of their implementations. -/
def ImplVA (S : Stage) (R : List Node) : List GLine → List Node → Prop
  | [], l => l = []
  | .alt nm cb x :: ls, l => ∃ id l', l = .rule id :: l' ∧ (∃ n, R[id]? = some n ∧ NameIs nm n.info.name) ∧ ImplV S R cb x id ∧
      ImplVA S R ls l'
  | .incl _ _ _ :: ls, l => ImplVA S R ls l
end

section
variable {S : Stage}

mutual
theorem implV_more {R R' : List Node} : ∀ (y : Body) {cb : Option Nat} {id : Nat}, ImplV S R cb y id → ImplV S (R ++ R') cb y id
  | .text e, cb, id, h => by
    simp only [ImplV] at h ⊢
    obtain ⟨n, hn, hl⟩ := h
    exact ⟨n, by rw [List.getElem?_append_left (List.getElem?_eq_some_iff.mp hn).1]; exact hn, hl⟩
  | .rank ls, cb, id, h => by
    simp only [ImplV] at h ⊢
    obtain ⟨i, l, hn, h1, h2, hl, hni⟩ := h
    exact ⟨i, l, by rw [List.getElem?_append_left (List.getElem?_eq_some_iff.mp hn).1]; exact hn, h1, h2, implVA_more ls hl, hni⟩
theorem implVA_more {R R' : List Node} : ∀ (ls : List GLine) {l : List Node}, ImplVA S R ls l → ImplVA S (R ++ R') ls l
  | [], l, h => by simpa only [ImplVA] using h
  | .alt nm cb y :: ls, l, h => by
    simp only [ImplVA] at h ⊢
    obtain ⟨id, l', rfl, ⟨n, hn, h0⟩, h1, h2⟩ := h
    exact ⟨id, l', rfl, ⟨n, by rw [List.getElem?_append_left (List.getElem?_eq_some_iff.mp hn).1]; exact hn, h0⟩, implV_more y h1,
      implVA_more ls h2⟩
  | .incl nm cb y :: ls, l, h => by
    simp only [ImplVA] at h ⊢
    exact implVA_more ls h
end

/-- A rule of that name implements it. -/
def HasV (S : Stage) (R : List Node) (d : String × Option Nat × Body) : Prop :=
  ∃ id n, R[id]? = some n ∧ n.info.name = d.1 ∧ ImplV S R d.2.1 d.2.2 id

theorem HasV.more {R R' : List Node} {d : String × Option Nat × Body} (h : HasV S R d) : HasV S (R ++ R') d := by
  obtain ⟨id, n, hn, hm, hi⟩ := h
  exact ⟨id, n, by rw [List.getElem?_append_left (List.getElem?_eq_some_iff.mp hn).1]; exact hn, hm, implV_more _ hi⟩

/-- More rules. -/
def Longer (s s' : Conn) : Prop := ∃ R, s'.rules = s.rules ++ R

theorem Longer.refl (s : Conn) : Longer s s := ⟨[], by simp⟩
theorem Longer.trans {s s' s'' : Conn} (h : Longer s s') (h' : Longer s' s'') : Longer s s'' := by
  obtain ⟨R, hR⟩ := h
  obtain ⟨R', hR'⟩ := h'
  exact ⟨R ++ R', by rw [hR', hR, List.append_assoc]⟩
theorem Longer.impl {s s' : Conn} (h : Longer s s') {cb : Option Nat} {y : Body} {id : Nat} (hi : ImplV S s.rules cb y id) : ImplV S s'.rules cb y id := by
  obtain ⟨R, hR⟩ := h
  rw [hR]; exact implV_more y hi
theorem Longer.implAlts {s s' : Conn} (h : Longer s s') {ls : List GLine} {l : List Node} (hi : ImplVA S s.rules ls l) :
    ImplVA S s'.rules ls l := by
  obtain ⟨R, hR⟩ := h
  rw [hR]; exact implVA_more ls hi
theorem Longer.has {s s' : Conn} (h : Longer s s') {d : String × Option Nat × Body} (hi : HasV S s.rules d) : HasV S s'.rules d := by
  obtain ⟨R, hR⟩ := h
  rw [hR]; exact hi.more
end

/-- The numbers are those of rules. -/
theorem implVA_lt {S : Stage} {R : List Node} (ls : List GLine) {l : List Node} (h : ImplVA S R ls l) : ∀ id, .rule id ∈ l → id < R.length := by
  induction ls generalizing l with
  | nil => simp only [ImplVA] at h; cases h; simp
  | cons x ls ih =>
    cases x with
    | alt nm cb y =>
      simp only [ImplVA] at h
      obtain ⟨id, l', rfl, ⟨n, hn, _⟩, h1, h2⟩ := h
      intro id' hid
      rcases List.mem_cons.mp hid with h | h
      · cases h; exact (List.getElem?_eq_some_iff.mp hn).1
      · exact ih h2 id' h
    | incl nm cb y => exact ih (by simpa only [ImplVA] using h)

mutual
theorem connect_implV : ∀ (y : Body) {cb : Option Nat} {x : Rules}, TreeV A cb y x → ∀ {rn : String} {s s' : Conn} {n : Node}, s.Ok → connect rn s x = .ok (n, s') →
    Longer s s' ∧ ∃ id, n = .rule id ∧ ImplV (stage1 A) s'.rules cb y id ∧ (∃ m, s'.rules[id]? = some m ∧ m.info.name = x.name) ∧
      ∀ d ∈ y.rules, HasV (stage1 A) s'.rules d
  | .text e, cb, x, ht, rn, s, s', n, hs, h => by
    simp only [TreeV] at ht
    obtain ⟨a, n0, rfl, hl⟩ := ht
    simp only [connect] at h
    split at h
    · cases h
    · cases h
      have hs' := hs.seen (a :: s.seen)
      have hget := post_get hs' a .rule (n0.attach n0.info.name false)
      refine ⟨⟨[n0.attach n0.info.name false], post_rules _ _ _ _⟩, _, rfl, ?_, ⟨_, hget, by rw [Node.attach_name]; rfl⟩, ?_⟩
      · simp only [ImplV]
        exact ⟨_, hget, fit_attach hl _⟩
      · intro d hd
        simp only [Body.rules] at hd
        cases hd
  | .rank ls, cb, x, ht, rn, s, s', n, hs, h => by
    simp only [TreeV] at ht
    obtain ⟨a, i, incl, alts, rfl, h1, h2, h3, h4⟩ := ht
    simp only [connect, exceptBindOk, exceptPureOk, Prod.exists, Prod.mk.injEq] at h
    obtain ⟨l1, s1, hc1, l2, s2, hc2, rfl, rfl⟩ := h
    have ho1 := (connectList_listed incl hs hc1).1
    have ho2 := (connectList_listed alts ho1 hc2).1
    obtain ⟨g1, d1⟩ := connectI_implV ls h3 hs hc1
    obtain ⟨g2, ha, d2⟩ := connectA_implV ls h4 ho1 hc2
    have g3 : Longer s2 (s2.post a .rule (.choice { i with parent := some false, ruleName := i.name } l2)) := ⟨_, post_rules _ _ _ _⟩
    have hget := post_get ho2 a .rule (.choice { i with parent := some false, ruleName := i.name } l2)
    refine ⟨(g1.trans g2).trans g3, _, rfl, ?_, ⟨_, hget, rfl⟩, ?_⟩
    · simp only [ImplV]
      refine ⟨_, l2, hget, h1, h2, g3.implAlts ha, fun hin => ?_⟩
      have hlt := implVA_lt ls ha _ hin
      have hnum := ho2.num
      simp only [Conn.rules, List.length_map] at hlt
      omega
    · intro d hd
      simp only [Body.rules] at hd
      rcases d1 d hd with h | h
      · exact (g2.trans g3).has h
      · exact g3.has (d2 d h)
theorem connectI_implV : ∀ (ls : List GLine) {xs : List Rules}, TreeVI A ls xs → ∀ {rn : String} {s s' : Conn} {l : List Node}, s.Ok →
    connectList rn s xs = .ok (l, s') →
    Longer s s' ∧ ∀ d ∈ rulesOf ls, HasV (stage1 A) s'.rules d ∨ ∃ l ∈ ls, (∃ nm cb y, l = GLine.alt nm cb y) ∧ d ∈ l.rules
  | [], xs, ht, rn, s, s', l, hs, h => by
    simp only [TreeVI] at ht
    cases ht
    cases h
    exact ⟨Longer.refl _, by intro d hd; simp only [rulesOf] at hd; cases hd⟩
  | .alt nm cb y :: ls, xs, ht, rn, s, s', l, hs, h => by
    simp only [TreeVI] at ht
    obtain ⟨g, hd⟩ := connectI_implV ls ht hs h
    refine ⟨g, ?_⟩
    intro d hm
    simp only [rulesOf] at hm
    rcases List.mem_append.mp hm with hm | hm
    · exact .inr ⟨_, List.mem_cons_self .., ⟨_, _, _, rfl⟩, hm⟩
    · rcases hd d hm with h | ⟨z, hz, h⟩
      · exact .inl h
      · exact .inr ⟨z, List.mem_cons_of_mem _ hz, h⟩
  | .incl nm cb y :: ls, xs, ht, rn, s, s', l, hs, h => by
    simp only [TreeVI] at ht
    obtain ⟨x, xs', rfl, hn, hx, ht⟩ := ht
    simp only [connectList, exceptBindOk, exceptPureOk, Prod.exists, Prod.mk.injEq] at h
    obtain ⟨n1, s1, hc1, l2, s2, hc2, rfl, rfl⟩ := h
    have ho1 := (connect_listed x hs hc1).1
    obtain ⟨g1, id, rfl, hi, ⟨m, hm1, hm2⟩, hd1⟩ := connect_implV y hx hs hc1
    obtain ⟨g2, hd2⟩ := connectI_implV ls ht ho1 hc2
    refine ⟨g1.trans g2, ?_⟩
    intro d hm
    simp only [rulesOf, GLine.rules, List.cons_append, List.mem_cons, List.mem_append] at hm
    rcases hm with rfl | hm | hm
    · exact .inl (g2.has ⟨id, m, hm1, by rw [hm2, hn], hi⟩)
    · exact .inl (g2.has (hd1 d hm))
    · rcases hd2 d hm with h | ⟨z, hz, h⟩
      · exact .inl h
      · exact .inr ⟨z, List.mem_cons_of_mem _ hz, h⟩
theorem connectA_implV : ∀ (ls : List GLine) {xs : List Rules}, TreeVA A ls xs → ∀ {rn : String} {s s' : Conn} {l : List Node}, s.Ok →
    connectList rn s xs = .ok (l, s') →
    Longer s s' ∧ ImplVA (stage1 A) s'.rules ls l ∧ ∀ d, (∃ l ∈ ls, (∃ nm cb y, l = GLine.alt nm cb y) ∧ d ∈ l.rules) → HasV (stage1 A) s'.rules d
  | [], xs, ht, rn, s, s', l, hs, h => by
    simp only [TreeVA] at ht
    cases ht
    cases h
    exact ⟨Longer.refl _, by simp only [ImplVA], by rintro d ⟨l, hl, _⟩; cases hl⟩
  | .incl nm cb y :: ls, xs, ht, rn, s, s', l, hs, h => by
    simp only [TreeVA] at ht
    obtain ⟨g, ha, hd⟩ := connectA_implV ls ht hs h
    refine ⟨g, by simpa only [ImplVA] using ha, ?_⟩
    rintro d ⟨z, hz, hz', hm⟩
    rcases List.mem_cons.mp hz with rfl | hz
    · obtain ⟨_, _, _, hz'⟩ := hz'; cases hz'
    · exact hd d ⟨z, hz, hz', hm⟩
  | .alt nm cb y :: ls, xs, ht, rn, s, s', l, hs, h => by
    simp only [TreeVA] at ht
    obtain ⟨x, xs', rfl, hn, hx, ht⟩ := ht
    simp only [connectList, exceptBindOk, exceptPureOk, Prod.exists, Prod.mk.injEq] at h
    obtain ⟨n1, s1, hc1, l2, s2, hc2, rfl, rfl⟩ := h
    have ho1 := (connect_listed x hs hc1).1
    obtain ⟨g1, id, rfl, hi, ⟨m, hm1, hm2⟩, hd1⟩ := connect_implV y hx hs hc1
    obtain ⟨g2, ha, hd2⟩ := connectA_implV ls ht ho1 hc2
    refine ⟨g1.trans g2, ?_, ?_⟩
    · simp only [ImplVA]
      refine ⟨id, l2, rfl, ?_, g2.impl hi, ha⟩
      obtain ⟨R, hR⟩ := g2
      exact ⟨m, by rw [hR, List.getElem?_append_left (List.getElem?_eq_some_iff.mp hm1).1]; exact hm1, hm2 ▸ hn⟩
    · rintro d ⟨z, hz, hz', hm⟩
      rcases List.mem_cons.mp hz with rfl | hz
      · simp only [GLine.rules, List.mem_append] at hm
        rcases hm with hm | hm
        · split at hm
          · cases hm
          · rename_i h0
            rw [List.mem_singleton.mp hm]
            exact g2.has ⟨id, m, hm1, by rw [hm2]; unfold NameIs at hn; rwa [if_neg h0] at hn, hi⟩
        · exact g2.has (hd1 d hm)
      · exact hd2 d ⟨z, hz, hz', hm⟩
end

/-! ## The other passes -/

/-- What a pass does to a rule. -/
structure PassV (S S' : Stage) (n n' : Node) : Prop where
  fit : ∀ cb p, Fit S false cb p n → Fit S' false cb p n'
  name : n'.info.name = n.info.name
  rank : ∀ i l, n = .choice i l → (∀ c ∈ l, ∃ id, c = .rule id) → ∃ i', n' = .choice i' l ∧ i'.label = i.label ∧ i'.cb = i.cb

/-- And to all. -/
def PassVAll (S S' : Stage) (R R' : List Node) : Prop :=
  ∀ (id : Nat) (n : Node), R[id]? = some n → ∃ n', R'[id]? = some n' ∧ PassV S S' n n'

section
variable {S S' S'' : Stage}

theorem implVA_links {R : List Node} (ls : List GLine) {l : List Node} (h : ImplVA S R ls l) : ∀ c ∈ l, ∃ id, c = .rule id := by
  induction ls generalizing l with
  | nil => simp only [ImplVA] at h; cases h; simp
  | cons x ls ih =>
    cases x with
    | alt nm cb y =>
      simp only [ImplVA] at h
      obtain ⟨id, l', rfl, _, h1, h2⟩ := h
      intro c hc
      rcases List.mem_cons.mp hc with rfl | hc
      · exact ⟨id, rfl⟩
      · exact ih h2 c hc
    | incl nm cb y => exact ih (by simpa only [ImplVA] using h)

mutual
theorem implV_pass {R R' : List Node} (hp : PassVAll S S' R R') : ∀ (y : Body) {cb : Option Nat} {id : Nat}, ImplV S R cb y id → ImplV S' R' cb y id
  | .text e, cb, id, h => by
    simp only [ImplV] at h ⊢
    obtain ⟨n, hn, hl⟩ := h
    obtain ⟨n', hn', h1⟩ := hp id n hn
    exact ⟨n', hn', h1.fit _ _ hl⟩
  | .rank ls, cb, id, h => by
    simp only [ImplV] at h ⊢
    obtain ⟨i, l, hn, h1, h2, hl, hni⟩ := h
    obtain ⟨n', hn', hpass⟩ := hp id _ hn
    obtain ⟨i', rfl, e1, e2⟩ := hpass.rank i l rfl (implVA_links ls hl)
    exact ⟨i', l, hn', e1.trans h1, e2.trans h2, implVA_pass hp ls hl, hni⟩
theorem implVA_pass {R R' : List Node} (hp : PassVAll S S' R R') : ∀ (ls : List GLine) {l : List Node}, ImplVA S R ls l → ImplVA S' R' ls l
  | [], l, h => by simpa only [ImplVA] using h
  | .alt nm cb y :: ls, l, h => by
    simp only [ImplVA] at h ⊢
    obtain ⟨id, l', rfl, ⟨n, hn, h0⟩, h1, h2⟩ := h
    obtain ⟨n', hn', hpass⟩ := hp id n hn
    exact ⟨id, l', rfl, ⟨n', hn', hpass.name ▸ h0⟩, implV_pass hp y h1, implVA_pass hp ls h2⟩
  | .incl nm cb y :: ls, l, h => by
    simp only [ImplVA] at h ⊢
    exact implVA_pass hp ls h
end

theorem PassVAll.trans {R R' R'' : List Node} (h : PassVAll S S' R R') (h' : PassVAll S' S'' R' R'') : PassVAll S S'' R R'' := by
  intro id n hn
  obtain ⟨n', hn', p⟩ := h id n hn
  obtain ⟨n'', hn'', p'⟩ := h' id n' hn'
  refine ⟨n'', hn'', ⟨fun cb q hq => p'.fit cb q (p.fit cb q hq), p'.name.trans p.name, ?_⟩⟩
  intro i l hc hl
  obtain ⟨i', hi, e1, e2⟩ := p.rank i l hc hl
  obtain ⟨i'', hi'', e1', e2'⟩ := p'.rank i' l hi hl
  exact ⟨i'', hi'', e1'.trans e1, e2'.trans e2⟩
end

theorem prep_passV {labels : Node → Except Panic Bool} (hL : LabelsIs A labels) {rules : List Node} {n n' : Node}
    (h : n.prep labels rules = .ok n') : PassV (stage1 A) (stage2 A) n n' where
  fit := fun cb p hp => fit_prep hL hp h
  name := (prep_kept h).1
  rank := by
    rintro i l rfl hl
    simp only [Node.prep, prep_links hl] at h
    cases h
    exact ⟨_, rfl, rfl, rfl⟩

theorem setTypes_passV {labels : Node → Except Panic Bool} (hL : LabelsIs A labels) {n n' : Node}
    (h : n.setTypes labels = .ok n') : PassV (stage2 A) stage3 n n' where
  fit := fun cb p hp => fit_setTypes hL hp h
  name := (setTypes_kept h).1
  rank := by
    rintro i l rfl hl
    simp only [Node.setTypes, setTypes_links hl] at h
    cases h
    exact ⟨_, rfl, rfl, rfl⟩

theorem labelsIs {f : String → Except Panic Bool} (hf : ∀ nm b, A nm → f nm = .ok b → b = true) : LabelsIs A fun m => m.hasLabels f :=
  fun _ _ h => ⟨f, hf, h⟩

/-- The rules `A` have labels. -/
def HaveLabels (A : String → Prop) (S : Stage) (lookup : String → Option Nat) (R : List Node) : Prop :=
  ∀ nm id n, A nm → lookup nm = some id → R[id]? = some n → ∃ cb p, Fit S false cb p n ∧ p.hasLabels = true

theorem HaveLabels.pass {S S' : Stage} {lookup : String → Option Nat} {R R' : List Node} (h : HaveLabels A S lookup R) (hp : PassVAll S S' R R')
    (hlen : R.length = R'.length) : HaveLabels A S' lookup R' := by
  intro nm id n' hA hl hn'
  have hlt : id < R.length := by rw [hlen]; exact (List.getElem?_eq_some_iff.mp hn').1
  obtain ⟨n'', hn'', pass⟩ := hp id _ (List.getElem?_eq_getElem hlt)
  rw [hn'] at hn''
  cases hn''
  obtain ⟨cb, p, hf, hh⟩ := h nm id _ hA hl (List.getElem?_eq_getElem hlt)
  exact ⟨cb, p, pass.fit cb p hf, hh⟩

theorem follow_true {lookup : String → Option Nat} {R : List Node} (h : HaveLabels A (stage2 A) lookup R) :
    ∀ (k : Nat) (nm : String) (b : Bool), A nm → followLabels lookup R k nm = .ok b → b = true
  | 0, nm, b, hA, hf => by
    unfold followLabels at hf
    split at hf <;> cases hf
  | k + 1, nm, b, hA, hf => by
    unfold followLabels at hf
    split at hf
    · cases hf
    · rename_i id hid
      split at hf
      · rename_i n heq hn
        cases heq
        obtain ⟨cb, p, hfit, hh⟩ := h nm id n hA hid hn
        rw [← hh]
        exact fit_labels stage2_label (fun nm b => follow_true h k nm b) hfit hf
      · cases hf

theorem prepAll_passV {lookup : String → Option Nat} {l : List Node} : ∀ {d0 d l' : List Node}, HaveLabels A (stage1 A) lookup (d0 ++ l) →
    d0.length = d.length → PassVAll (stage1 A) (stage2 A) d0 d → prepAll lookup l d = .ok l' →
    ∃ l1, l' = d ++ l1 ∧ PassVAll (stage1 A) (stage2 A) l l1 ∧ l.length = l1.length := by
  induction l with
  | nil => intro d0 d l' hR hlen hd h; cases h; exact ⟨[], by simp, by intro id n hn; simp at hn, rfl⟩
  | cons x l ih =>
    intro d0 d l' hR hlen hd h
    simp only [prepAll, exceptBindOk] at h
    obtain ⟨x', hx, h⟩ := h
    have hR0 : HaveLabels A (stage1 A) lookup d0 := fun nm id n hA hl hn =>
      hR nm id n hA hl (by rw [List.getElem?_append_left (List.getElem?_eq_some_iff.mp hn).1]; exact hn)
    have hx' : PassV (stage1 A) (stage2 A) x x' := prep_passV (labelsIs (follow_true (hR0.pass hd hlen) _)) hx
    obtain ⟨l1, rfl, hp, hl1⟩ := ih (d0 := d0 ++ [x]) (by simpa using hR) (by simp [hlen]) (by
      intro id n hn
      by_cases hlt : id < d0.length
      · rw [List.getElem?_append_left hlt] at hn
        obtain ⟨n', hn', pass⟩ := hd id n hn
        exact ⟨n', by rw [List.getElem?_append_left (hlen ▸ hlt)]; exact hn', pass⟩
      · have hid : id = d0.length := by
          have := (List.getElem?_eq_some_iff.mp hn).1
          simp only [List.length_append, List.length_singleton] at this
          omega
        subst hid
        simp only [List.getElem?_concat_length, Option.some.injEq] at hn
        subst hn
        exact ⟨x', by rw [hlen]; simp, hx'⟩) h
    refine ⟨x' :: l1, by simp, ?_, by simp [hl1]⟩
    intro id n hn
    cases id with
    | zero =>
      cases hn
      exact ⟨x', rfl, hx'⟩
    | succ id => exact hp id n hn

theorem setTypesAll_passV {labels : Node → Except Panic Bool} (hL : LabelsIs A labels) {l : List Node} : ∀ {l' : List Node},
    setTypesAll labels l = .ok l' → PassVAll (stage2 A) stage3 l l' := by
  induction l with
  | nil => intro l' h id n hn; simp at hn
  | cons x l ih =>
    intro l' h
    simp only [setTypesAll, exceptBindOk, exceptPureOk] at h
    obtain ⟨x', hx, l1, hl, rfl⟩ := h
    intro id n hn
    cases id with
    | zero =>
      cases hn
      exact ⟨x', rfl, setTypes_passV hL hx⟩
    | succ id => exact ih hl id n hn

mutual
theorem glineRules_decls : ∀ (l : GLine), l.decls = l.rules.map fun d => (d.1, d.2.2)
  | .alt nm cb y => by
    simp only [GLine.decls, GLine.rules, List.map_append, ← bodyRules_decls y]
    by_cases h : nm = "" <;> simp [h]
  | .incl nm cb y => by
    simp only [GLine.decls, GLine.rules, List.map_cons, ← bodyRules_decls y]
theorem bodyRules_decls : ∀ (y : Body), y.decls = y.rules.map fun d => (d.1, d.2.2)
  | .text _ => by simp [Body.decls, Body.rules]
  | .rank ls => by simp only [Body.decls, Body.rules, rulesOf_decls ls]
theorem rulesOf_decls : ∀ (ls : List GLine), declsOf ls = (rulesOf ls).map fun d => (d.1, d.2.2)
  | [] => by simp [declsOf, rulesOf]
  | l :: ls => by simp only [declsOf, rulesOf, List.map_append, glineRules_decls l, rulesOf_decls ls]
end

/-- All passes. -/
theorem passes_V {lookup : String → Option Nat} {R rules rules2 : List Node} (hR : HaveLabels A (stage1 A) lookup R) (hprep : prepAll lookup R [] = .ok rules)
    (htypes : setTypesAll (fun m => match Node.hasLabels (followLabels lookup rules rules.length) m with
      | .ok b => Except.ok b
      | .error _ => .error .notModelled) rules = .ok rules2) : PassVAll (stage1 A) stage3 R rules2 := by
  obtain ⟨lp, hlp, p1, hlen⟩ := prepAll_passV (d0 := []) (by simpa using hR) rfl (by intro id n hn; simp at hn) hprep
  simp only [List.nil_append] at hlp
  subst hlp
  have hL : LabelsIs A (fun m => match Node.hasLabels (followLabels lookup rules rules.length) m with
    | .ok b => Except.ok b
    | .error _ => .error .notModelled) := by
    intro n x h
    refine ⟨_, follow_true (hR.pass p1 hlen) rules.length, ?_⟩
    dsimp only at h
    split at h
    · rename_i b hb; cases h; exact hb
    · cases h
  exact p1.trans (setTypesAll_passV hL htypes)

/-- Rules that are texts with labels. -/
theorem haveLabels_of {L : List GLine} {lookup : String → Option Nat} {R : List Node} (hall : ∀ d ∈ rulesOf L, HasV (stage1 (Labelled L)) R d)
    (hlook : ∀ nm cb y id, (nm, cb, y) ∈ rulesOf L → (R.map (·.info.name))[id]? = some nm → lookup nm = some id) :
    HaveLabels (Labelled L) (stage1 (Labelled L)) lookup R := by
  rintro nm id n ⟨cb, e, hd, hh⟩ hl hn
  obtain ⟨id', n', hid, hname, himp⟩ := hall _ hd
  have := hlook nm cb _ id' hd (by rw [List.getElem?_map, hid]; simp [hname])
  rw [hl] at this
  cases this
  simp only [ImplV] at himp
  obtain ⟨n'', hn'', hf⟩ := himp
  rw [hn] at hn''
  cases hn''
  exact ⟨cb, e.vp, hf, hh⟩

/-- What is found by name. -/
theorem connect_found {L : List GLine} {incl alts : List Rules}
    (h3 : TreeI false L incl) (h4 : TreeA false L alts) (v3 : TreeVI (Labelled L) L incl) (v4 : TreeVA (Labelled L) L alts)
    (hq : ∀ d ∈ declsOf L, Auto d.1 = false) (hnd : ((declsOf L).map (·.1)).Nodup) {rn : String} {s1 s2 : Conn} {l1 l2 : List Node}
    (hc1 : connectList rn {} incl = .ok (l1, s1)) (hc2 : connectList rn s1 alts = .ok (l2, s2)) :
    (∀ nm id, Auto nm = false → ((s2.rules.map (·.info.name))[id]? = some nm ↔ s2.lookup nm = some id)) ∧
      (∀ d ∈ rulesOf L, HasV (stage1 (Labelled L)) s2.rules d) ∧ (∀ nm cb y, (nm, cb, y) ∈ rulesOf L → Auto nm = false) ∧
      HaveLabels (Labelled L) (stage1 (Labelled L)) s2.lookup s2.rules := by
  obtain ⟨ho1, hl1⟩ := connectList_listed incl Conn.ok_init hc1
  obtain ⟨ho2, hl2⟩ := connectList_listed alts ho1 hc2
  obtain ⟨_, d1⟩ := connectI_implV L v3 Conn.ok_init hc1
  obtain ⟨w2, ha, d2⟩ := connectA_implV L v4 ho1 hc2
  have hall : ∀ d ∈ rulesOf L, HasV (stage1 (Labelled L)) s2.rules d := by
    intro d hd
    rcases d1 d hd with h | h
    · exact w2.has h
    · exact d2 d h
  have hlisted : (Conn.listed s2).map (·.2) = s2.rules.map (·.info.name) := by
    simp [Conn.listed, Conn.rules, Function.comp_def]
  have hnodup : (realNames (Conn.listed s2)).Nodup := by
    have hperm := lines_names L h3 h4 hq
    rw [← realNames_append] at hperm
    have hw : Conn.listed s2 = Rules.walkList incl ++ Rules.walkList alts := by
      rw [hl2, hl1]
      rfl
    rw [hw]
    exact hperm.nodup_iff.mpr hnd
  have hreal : ∀ nm cb y, (nm, cb, y) ∈ rulesOf L → Auto nm = false := fun nm cb y hd =>
    hq (nm, y) (by rw [rulesOf_decls]; exact List.mem_map.mpr ⟨_, hd, rfl⟩)
  have hlook : ∀ nm id, Auto nm = false → ((s2.rules.map (·.info.name))[id]? = some nm ↔ s2.lookup nm = some id) := by
    intro nm id ha
    rw [ho2.names nm id, hlisted]
    constructor
    · intro hat
      refine ⟨hat, ?_⟩
      intro j hj hj'
      have := unique_index hnodup (x := nm) (by simp [ha]) (hlisted ▸ hat) (hlisted ▸ hj')
      omega
    · intro h
      exact h.1
  exact ⟨hlook, hall, hreal, haveLabels_of hall fun nm cb y id hd => (hlook nm id (hreal nm cb y hd)).mp⟩

/-- The grammar made from a tree. -/
theorem postinit_implV {L : List GLine} {i : Info} {incl alts : List Rules} (hi : i.label = "") (hcb : i.cb = none)
    (h3 : TreeI false L incl) (h4 : TreeA false L alts) (v3 : TreeVI (Labelled L) L incl) (v4 : TreeVA (Labelled L) L alts)
    (hq : ∀ d ∈ declsOf L, Auto d.1 = false) (hnd : ((declsOf L).map (·.1)).Nodup)
    {m : Made} (h : postinit (.rank 0 false i incl alts) = .ok m) :
    m.g.Built ∧ (∀ n ∈ m.g.rules, n.info.Usual) ∧
      (∀ nm cb y, (nm, cb, y) ∈ rulesOf L → ∃ id, m.g.lookup nm = some id ∧ ImplV stage3 m.g.rules cb y id) ∧
      (∀ nm, Auto nm = false → ∀ id n, m.g.rules[id]? = some n → (m.g.lookup nm = some id ↔ n.info.name = nm)) ∧
      ∃ i' l, m.g.root = .choice i' l ∧ i'.label = "" ∧ i'.cb = none ∧ ImplVA stage3 m.g.rules L l := by
  have hold := postinit_impl hi hcb h3 h4 hq hnd h
  refine ⟨hold.1, hold.2.1, ?_⟩
  have hI := treeI_plain L h3
  have hA := treeA_plain L h4
  have hok : ({ name := i.name, incl := incl, alts := alts } : Rank).Ok :=
    ⟨fun x hx => (hI x hx).1, fun x hx => (hA x hx).1, fun x hx => (hI x hx).2.1, fun x hx => (hA x hx).2.1⟩
  obtain ⟨hof, hb, hk, i0, l0, e1, e2, e3, e4⟩ := postinit_made hi hcb hok h
  have hpl : (Rules.rank 0 false i incl alts).Plain := .rank hok.incl hok.alts hi hok.inclR hok.altsR
  unfold postinit at h
  simp only [walkMonoGrammar, walkMonoRules_plain _ hpl, exceptBindOk, exceptPureOk, Prod.exists] at h
  obtain ⟨root, s, hconn, rules, hprep, root1, hroot1, rules2, htypes, root2, hroot2, rules3, hinl, root3, hroot3, rfl⟩ := h
  simp only [connect, exceptBindOk, exceptPureOk, Prod.exists, Prod.mk.injEq] at hconn
  obtain ⟨l1, s1, hc1, l2, s2, hc2, rfl, rfl⟩ := hconn
  have ho1 := (connectList_listed incl Conn.ok_init hc1).1
  obtain ⟨g1, _⟩ := connectI_impl L h3 Conn.ok_init hc1
  obtain ⟨g2, _, _⟩ := connectA_impl L h4 ho1 hc2
  obtain ⟨_, ha, _⟩ := connectA_implV L v4 ho1 hc2
  have hg := g1.trans g2
  have hrules : ∀ e ∈ s2.id2rule, e.2.1 = .rule ∧ e.2.2.info.Usual := by
    obtain ⟨ext, he, hk⟩ := hg
    rw [he]
    simpa using hk
  have hlink : ∀ id, inlineRule s2.lookup (s2.id2rule.map (·.2.1)) rules2 rules2.length id = .ok none := by
    intro id
    unfold inlineRule
    split
    · rename_i h1 _
      rw [List.getElem?_map, Option.map_eq_some_iff] at h1
      obtain ⟨e, he, h1⟩ := h1
      rw [(hrules e (List.mem_of_getElem? he)).1] at h1
      cases h1
    · rfl
  have htarget : ∀ nm : String, (match s2.lookup nm with
      | some id => inlineRule s2.lookup (s2.id2rule.map fun x => x.2.1) rules2 rules2.length id
      | none => Except.ok none) = Except.ok (none : Option Node) := by
    intro nm
    split
    · exact hlink _
    · rfl
  have h33 := (inlineAll_none htarget hlink rules2).symm.trans hinl
  cases h33
  have h34 := (inline_none htarget hlink root2).symm.trans hroot3
  cases h34
  obtain ⟨hlook, hall, hreal, hlab⟩ := connect_found h3 h4 v3 v4 hq hnd hc1 hc2
  have hlen : s2.rules.length = rules2.length := by
    have := hof.numRules
    simp only [Grammar.numRules] at this
    rw [this, ← hof.listed]
    simp [Conn.rules, Conn.listed]
  have pass : PassVAll (stage1 (Labelled L)) stage3 s2.rules rules2 := passes_V hlab hprep htypes
  refine ⟨?_, ?_, ?_⟩
  · intro nm cb y hd
    obtain ⟨id, n, hid, hname, himp⟩ := hall (nm, cb, y) hd
    refine ⟨id, ?_, implV_pass pass y himp⟩
    refine (hlook nm id (hreal nm cb y hd)).mp ?_
    rw [List.getElem?_map, hid]
    simp [hname]
  · intro nm hd id n hn
    have hlt : id < s2.rules.length := by rw [hlen]; exact (List.getElem?_eq_some_iff.mp hn).1
    obtain ⟨n', hn', hp⟩ := pass id _ (List.getElem?_eq_getElem hlt)
    rw [show rules2[id]? = some n from hn] at hn'
    cases hn'
    rw [hp.name]
    show s2.lookup nm = some id ↔ _
    rw [← hlook nm id hd, List.getElem?_map, List.getElem?_eq_getElem hlt]
    simp
  · have hl := implVA_links L ha
    simp only [Node.prep, prep_links hl] at hroot1
    cases hroot1
    simp only [Node.setTypes, setTypes_links hl] at hroot2
    cases hroot2
    exact ⟨_, _, rfl, hi, hcb, implVA_pass pass L ha⟩

end Joeson.RuleText
