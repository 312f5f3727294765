import Verif.Spec.Build
import Verif.Spec.Grammar
/-! # Lemmas about lines and the building of grammars -/

set_option linter.unusedSectionVars false

namespace Joeson

/-! ## The `Except` monad -/

theorem exceptBindOk {ε α β : Type} {x : Except ε α} {f : α → Except ε β} {b : β} :
    (x >>= f) = .ok b ↔ ∃ a, x = .ok a ∧ f a = .ok b := by
  cases x with
  | error e =>
    constructor
    · intro h; cases h
    · rintro ⟨a, h, _⟩; cases h
  | ok a =>
    constructor
    · intro h; exact ⟨a, rfl, h⟩
    · rintro ⟨a', h, h'⟩; cases h; exact h'

theorem exceptPureOk {ε α : Type} {a b : α} : ((pure a : Except ε α) = .ok b) ↔ a = b := by
  constructor
  · intro h; cases h; rfl
  · rintro rfl; rfl

/-! ## Plain parsers -/

theorem Node.Plain.notRule {n : Node} (h : n.Plain) (id : Nat) : n ≠ .rule id := by
  rintro rfl; cases h

theorem Node.Plain.mono {n : Node} (h : n.Plain) : n.mono = none := by
  cases h <;> try rfl
  rename_i i l hl h1
  match l, h1 with
  | [], _ => rfl
  | [c], h1 => exact absurd rfl (h1 c)
  | _ :: _ :: _, _ => rfl

theorem Node.Plain.setInfo {n : Node} (h : n.Plain) (f : Info → Info) : (n.setInfo f).Plain := by
  cases h with
  | str => exact .str
  | regex => exact .regex
  | choice h h1 => exact .choice h h1
  | seq h => exact .seq h
  | exist h => exact .exist h
  | look h => exact .look h
  | not h => exact .not h
  | pattern h hj => exact .pattern h hj
  | ref => exact .ref

theorem list_map_eq_self {α : Type} {l : List α} {f : α → α} (h : ∀ a ∈ l, f a = a) : l.map f = l := by
  induction l with
  | nil => rfl
  | cons a l ih => simp only [List.map_cons, h a (List.mem_cons_self ..), ih fun b hb => h b (List.mem_cons_of_mem _ hb)]

theorem Node.mapKids_id {n : Node} (hn : n.Plain) {f : Node → Node} (h : ∀ c : Node, c.Plain → f c = c) :
    n.mapKids f = n := by
  cases hn with
  | choice hl _ => simp only [Node.mapKids, list_map_eq_self fun c hc => h c (hl c hc)]
  | seq hl => simp only [Node.mapKids, list_map_eq_self fun c hc => h c (hl c hc)]
  | exist hc => simp only [Node.mapKids, h _ hc]
  | look hc => simp only [Node.mapKids, h _ hc]
  | not hc => simp only [Node.mapKids, h _ hc]
  | @pattern i v j mn mx hv hj =>
    cases j with
    | none => simp only [Node.mapKids, h _ hv, Option.map_none]
    | some c => simp only [Node.mapKids, h _ hv, Option.map_some, h _ (hj c rfl)]
  | _ => rfl

theorem walkMono_plain (k : Nat) : ∀ {n : Node}, n.Plain → walkMono k n = n := by
  induction k with
  | zero => intro n _; rfl
  | succ k ih =>
    intro n hn
    have h1 : n.mapKids (fun c => (c.mono).getD (walkMono k c)) = n :=
      Node.mapKids_id hn fun c hc => by rw [hc.mono]; exact ih hc
    rw [walkMono, h1]
    exact Node.mapKids_id hn fun c hc => ih hc

/-- Is it a rule? -/
def Rules.isRule : Rules → Bool
  | .leaf _ _ _ => true
  | .rank _ r _ _ _ => r

/-- All parsers of a tree of rules are plain; nothing but rules. -/
inductive Rules.Plain : Rules → Prop
  | leaf {a k n} : n.Plain → k ≠ .part → Plain (.leaf a k n)
  | rank {a r i incl alts} : (∀ x ∈ incl, Plain x) → (∀ x ∈ alts, Plain x) → i.label = "" →
      (∀ x ∈ incl, x.isRule = true) → (∀ x ∈ alts, x.isRule = true) → Plain (.rank a r i incl alts)

theorem Rules.Plain.mono {x : Rules} (h : x.Plain) : x.mono = none := by
  cases h with
  | @leaf a k n hn hk => cases k <;> simp [Rules.mono, hn.mono]
  | rank _ _ _ _ _ => rfl

theorem Rules.mapKids_id {x : Rules} (hx : x.Plain) {f : Rules → Rules} (h : ∀ c : Rules, c.Plain → f c = c) :
    x.mapKids f = x := by
  cases hx with
  | leaf _ _ => rfl
  | rank h1 h2 _ _ _ =>
    simp only [Rules.mapKids, list_map_eq_self fun c hc => h c (h1 c hc), list_map_eq_self fun c hc => h c (h2 c hc)]

theorem walkMonoRules_plain (k : Nat) : ∀ {x : Rules}, x.Plain → walkMonoRules k x = x := by
  induction k with
  | zero => intro n _; rfl
  | succ k ih =>
    intro x hx
    match x, hx with
    | .leaf a r n, .leaf hn _ => rw [walkMonoRules, walkMono_plain _ hn]
    | .rank a r i incl alts, hx =>
      have h1 : (Rules.rank a r i incl alts).mapKids (fun c => (c.mono).getD (walkMonoRules k c)) = .rank a r i incl alts :=
        Rules.mapKids_id hx fun c hc => by rw [hc.mono]; exact ih hc
      rw [walkMonoRules, h1]
      · exact Rules.mapKids_id hx fun c hc => ih hc
      · intro a r n h; cases h

/-! ## What lines become -/

theorem Node.setInfo_name {n : Node} (hn : ∀ id, n ≠ .rule id) (f : Info → Info) : (n.setInfo f).info = f n.info := by
  cases n <;> first | rfl | exact absurd rfl (hn _)

/-- No leaf is a numbered rule. -/
def Rules.Leafy : Rules → Prop
  | .leaf _ k n => (∀ id, n ≠ .rule id) ∧ k ≠ .part
  | .rank _ _ _ _ _ => True

theorem Rules.Plain.leafy {x : Rules} (h : x.Plain) : x.Leafy := by
  cases h with
  | leaf hn hk => exact ⟨fun id => hn.notRule id, hk⟩
  | rank _ _ _ _ _ => trivial

theorem Rules.Plain.setInfo {x : Rules} (h : x.Plain) {f : Info → Info} (hf : ∀ i, (f i).label = i.label) :
    (x.setInfo f).Plain := by
  cases h with
  | leaf hn hk => exact .leaf (hn.setInfo f) hk
  | rank h1 h2 hi h3 h4 => exact .rank h1 h2 (by rw [hf, hi]) h3 h4

theorem Rules.setInfo_name {x : Rules} (h : x.Leafy) {f : Info → Info} (hf : ∀ i, (f i).name = i.name) :
    (x.setInfo f).name = x.name := by
  cases x with
  | leaf a k n => simp only [Rules.setInfo, Rules.name, Node.setInfo_name h.1, hf]
  | rank a r i incl alts => simp only [Rules.setInfo, Rules.name, hf]

theorem Rules.Leafy.cb_name {x : Rules} (h : x.Leafy) (c : Option Nat) :
    (x.setInfo fun i => { i with cb := c }).name = x.name := Rules.setInfo_name h fun _ => rfl

theorem getRuleEnd_ok {name : String} {opts : RuleOpts} {x y : Rules} (h : getRuleEnd name opts x = .ok y) :
    (x.name = "" ∨ x.name = name) ∧ y = x.setInfo fun i => { i with cb := opts.cb } := by
  unfold getRuleEnd at h
  split at h
  · cases h
  · rename_i h'
    refine ⟨?_, by cases h; rfl⟩
    by_cases h1 : x.name = ""
    · exact .inl h1
    · exact .inr (Classical.byContradiction fun h2 => h' ⟨h1, h2⟩)

theorem append_ne_left {a b : String} (h : a ≠ "") : a ++ b ≠ "" := by
  intro hh
  exact h (String.append_eq_empty_iff.mp hh).1

theorem append_ne_right {a b : String} (h : b ≠ "") : a ++ b ≠ "" := by
  intro hh
  exact h (String.append_eq_empty_iff.mp hh).2

theorem oLineName_ne' {own byName parent : String} {k : Nat} : oLineName own byName parent k ≠ "" := by
  unfold oLineName
  split
  · assumption
  · split
    · assumption
    · exact append_ne_right (by decide)

section
variable {compile : Bytes → Except Panic Node}

/-- What is known of a rank being filled. -/
structure Rank.Ok (r : Rank) : Prop where
  incl : ∀ x ∈ r.incl, x.Plain
  alts : ∀ x ∈ r.alts, x.Plain
  inclR : ∀ x ∈ r.incl, x.isRule = true
  altsR : ∀ x ∈ r.alts, x.isRule = true

theorem Rules.isRule_setInfo (x : Rules) (f : Info → Info) : (x.setInfo f).isRule = x.isRule := by
  cases x <;> rfl

theorem Rank.Ok.include {r : Rank} (h : r.Ok) {name : String} {x : Rules} (hx : x.Plain) (hr : x.isRule = true) : (r.include name x).Ok where
  incl := by
    intro y hy
    simp only [Rank.include, List.mem_append, List.mem_map, List.mem_singleton] at hy
    rcases hy with ⟨z, hz, rfl⟩ | rfl
    · split
      · exact hx
      · exact h.incl z hz
    · exact hx
  alts := h.alts
  inclR := by
    intro y hy
    simp only [Rank.include, List.mem_append, List.mem_map, List.mem_singleton] at hy
    rcases hy with ⟨z, hz, rfl⟩ | rfl
    · split
      · exact hr
      · exact h.inclR z hz
    · exact hr
  altsR := h.altsR

variable (hc : ∀ s n, compile s = .ok n → n.Plain)
include hc

mutual
theorem getRule_plain : ∀ (l : Line), l.Plain → ∀ {name parent : String} {opts : RuleOpts} {next next' : Nat} {x : Rules},
    getRule compile name parent opts next l = .ok (x, next') → x.Plain ∧ x.name = name ∧ x.isRule = true
  | .a lines, hl, name, parent, opts, next, next', x, h => by
    have hl' : ∀ l ∈ lines, l.Plain := by cases hl; assumption
    simp only [getRule, exceptBindOk, exceptPureOk, Prod.exists, Prod.mk.injEq] at h
    obtain ⟨r, n1, hr, y, hy, rfl, rfl⟩ := h
    obtain ⟨hn, rfl⟩ := getRuleEnd_ok hy
    obtain ⟨ho, hnm⟩ := rankLines_plain lines hl' ⟨by simp, by simp, by simp, by simp⟩ hr
    refine ⟨.rank ho.incl ho.alts rfl ho.inclR ho.altsR, ?_, rfl⟩
    simp only [Rules.name, Rules.setInfo] at hn ⊢
    rcases hn with hn | hn
    · by_cases h0 : name = ""
      · rw [hn, h0]
      · rw [hnm h0]
    · exact hn
  | .c twice p, hl, name, parent, opts, next, next', x, h => by
    have hp : p.Plain := by cases hl; assumption
    simp only [getRule, exceptBindOk, exceptPureOk, Prod.mk.injEq] at h
    obtain ⟨y, hy, rfl, rfl⟩ := h
    obtain ⟨hn, rfl⟩ := getRuleEnd_ok hy
    have hpl : (Rules.leaf next (if twice then LeafKind.wrapped else .rule) (p.setInfo fun i => { i with name := name })).Plain :=
      .leaf (hp.setInfo _) (by cases twice <;> simp)
    refine ⟨hpl.setInfo fun i => rfl, ?_, rfl⟩
    rw [hpl.leafy.cb_name]
    simp only [Rules.name, Node.setInfo_name hp.notRule]
  | .i _ _ _, _, name, parent, opts, next, next', x, h => by cases h
  | .o own content _, hl, name, parent, opts, next, next', x, h => by
    have hl' : content.Plain := by cases hl; assumption
    simp only [getRule, exceptBindOk, exceptPureOk, Prod.exists, Prod.mk.injEq] at h
    obtain ⟨y, n1, hy, z, hz, rfl, rfl⟩ := h
    obtain ⟨hpl, hnm, hir⟩ := getRule_plain content hl' hy
    have hne : y.name ≠ "" := by rw [hnm]; exact oLineName_ne'
    rw [if_neg hne] at hz
    obtain ⟨hn, rfl⟩ := getRuleEnd_ok hz
    refine ⟨hpl.setInfo fun i => rfl, ?_, by rw [Rules.isRule_setInfo]; exact hir⟩
    rw [hpl.leafy.cb_name]
    exact hn.resolve_left hne
  | .s text, _, name, parent, opts, next, next', x, h => by
    simp only [getRule, exceptBindOk, exceptPureOk, Prod.mk.injEq] at h
    obtain ⟨p, hp, y, hy, rfl, rfl⟩ := h
    have hp := hc _ _ hp
    obtain ⟨hn, rfl⟩ := getRuleEnd_ok hy
    have hpl := Rules.Plain.leaf (a := next) (k := .rule) (hp.setInfo fun i => { i with name := name, debug := opts.debug, skipCache := opts.skipCache, cb := opts.cb }) (by simp)
    refine ⟨hpl.setInfo fun i => rfl, ?_, rfl⟩
    rw [hpl.leafy.cb_name]
    simp only [Rules.name, Node.setInfo_name hp.notRule]
theorem rankLine_plain : ∀ (l : Line), l.Plain → ∀ {r : Rank}, r.Ok → ∀ {next next' : Nat} {r' : Rank},
    rankLine compile r next l = .ok (r', next') → r'.Ok ∧ (r.name ≠ "" → r'.name = r.name)
  | .o own content opts, hl, r, hr, next, next', r', h => by
    have hl' : content.Plain := by cases hl; assumption
    simp only [rankLine, exceptBindOk, exceptPureOk, Prod.exists, Prod.mk.injEq] at h
    obtain ⟨y, n1, hy, rfl, rfl⟩ := h
    obtain ⟨hp, _, hir⟩ := getRule_plain content hl' hy
    refine ⟨⟨hr.incl, ?_, hr.inclR, ?_⟩, fun _ => rfl⟩
    · intro x hx
      rcases List.mem_append.mp hx with hx | hx
      · exact hr.alts x hx
      · rw [List.mem_singleton.mp hx]; exact hp
    · intro x hx
      rcases List.mem_append.mp hx with hx | hx
      · exact hr.altsR x hx
      · rw [List.mem_singleton.mp hx]; exact hir
  | .i name content opts, hl, r, hr, next, next', r', h => by
    have hl' : content.Plain := by cases hl; assumption
    simp only [rankLine, exceptBindOk, exceptPureOk, Prod.exists, Prod.mk.injEq] at h
    obtain ⟨y, n1, hy, rfl, rfl⟩ := h
    obtain ⟨hp, _, hir⟩ := getRule_plain content hl' hy
    exact ⟨hr.include hp hir, fun h0 => by simp only [Rank.include, if_neg h0]⟩
  | .a _, _, _, _, _, _, _, h => by cases h
  | .s _, _, _, _, _, _, _, h => by cases h
  | .c _ _, _, _, _, _, _, _, h => by cases h
theorem rankLines_plain : ∀ (ls : List Line), (∀ l ∈ ls, l.Plain) → ∀ {r : Rank}, r.Ok → ∀ {next next' : Nat} {r' : Rank},
    rankLines compile ls r next = .ok (r', next') → r'.Ok ∧ (r.name ≠ "" → r'.name = r.name)
  | [], _, r, hr, next, next', r', h => by
    cases h; exact ⟨hr, fun _ => rfl⟩
  | l :: ls, hl, r, hr, next, next', r', h => by
    simp only [rankLines, exceptBindOk, Prod.exists] at h
    obtain ⟨r1, n1, h1, h2⟩ := h
    obtain ⟨ho, hn⟩ := rankLine_plain l (hl l (List.mem_cons_self ..)) hr h1
    obtain ⟨ho', hn'⟩ := rankLines_plain ls (fun l hm => hl l (List.mem_cons_of_mem _ hm)) ho h2
    exact ⟨ho', fun h0 => by rw [hn' (by rw [hn h0]; exact h0), hn h0]⟩
end

/-! ## Objects are different -/

omit hc in
theorem addrs_setInfo (x : Rules) (f : Info → Info) : (x.setInfo f).walk.map (·.1) = x.walk.map (·.1) := by
  cases x with
  | leaf a k n => cases k <;> simp [Rules.setInfo, Rules.walk]
  | rank a r i incl alts => cases r <;> simp [Rules.setInfo, Rules.walk]

omit hc in
theorem walkList_append (l l' : List Rules) : Rules.walkList (l ++ l') = Rules.walkList l ++ Rules.walkList l' := by
  induction l with
  | nil => rfl
  | cons x l ih => simp [Rules.walkList, ih]

/-- All numbers in `[lo, hi)`, none twice. -/
structure Fresh (lo hi : Nat) (l : List Nat) : Prop where
  nodup : l.Nodup
  lo : ∀ a ∈ l, lo ≤ a
  hi : ∀ a ∈ l, a < hi

omit hc in
theorem Fresh.append {a b c : Nat} {l l' : List Nat} (h : Fresh a b l) (h' : Fresh b c l') (hab : a ≤ b) (hbc : b ≤ c) :
    Fresh a c (l ++ l') where
  nodup := List.nodup_append.mpr ⟨h.nodup, h'.nodup, fun x hx y hy => by have := h.hi x hx; have := h'.lo y hy; omega⟩
  lo := fun x hx => by
    rcases List.mem_append.mp hx with hx | hx
    · exact h.lo x hx
    · have := h'.lo x hx; omega
  hi := fun x hx => by
    rcases List.mem_append.mp hx with hx | hx
    · have := h.hi x hx; omega
    · exact h'.hi x hx

omit hc in
theorem Fresh.perm {a b : Nat} {l l' : List Nat} (h : Fresh a b l) (hp : l.Perm l') : Fresh a b l' where
  nodup := hp.nodup_iff.mp h.nodup
  lo := fun x hx => h.lo x (hp.mem_iff.mpr hx)
  hi := fun x hx => h.hi x (hp.mem_iff.mpr hx)

omit hc in
theorem Fresh.one {a : Nat} : Fresh a (a + 1) [a] :=
  ⟨by simp, by simp, by simp⟩

/-- The objects of a rank being filled. -/
def Rank.addrs (r : Rank) : List Nat := (Rules.walkList r.incl).map (·.1) ++ (Rules.walkList r.alts).map (·.1)

/-- The names of its included rules. -/
def Rank.names (r : Rank) : List String := r.incl.map Rules.name

omit hc in
theorem include_fresh {r : Rank} {name : String} {x : Rules} (h : name ∉ r.names) :
    (r.include name x).incl = r.incl ++ [x] := by
  unfold Rank.include
  dsimp only
  rw [list_map_eq_self]
  intro y hy
  rw [if_neg]
  rintro rfl
  exact h (List.mem_map.mpr ⟨y, hy, rfl⟩)

mutual
theorem getRule_fresh : ∀ (l : Line), l.Plain → l.NoDup → ∀ {name parent : String} {opts : RuleOpts} {next next' : Nat} {x : Rules},
    getRule compile name parent opts next l = .ok (x, next') → next ≤ next' ∧ Fresh next next' (x.walk.map (·.1))
  | .a lines, hl, hd, name, parent, opts, next, next', x, h => by
    have hl' : ∀ l ∈ lines, l.Plain := by cases hl; assumption
    obtain ⟨hd1, hd2⟩ : (∀ l ∈ lines, l.NoDup) ∧ (includedNames lines).Nodup := by cases hd; exact ⟨by assumption, by assumption⟩
    simp only [getRule, exceptBindOk, exceptPureOk, Prod.exists, Prod.mk.injEq] at h
    obtain ⟨r, n1, hr, y, hy, rfl, rfl⟩ := h
    obtain ⟨hn, rfl⟩ := getRuleEnd_ok hy
    obtain ⟨hle, hf⟩ := rankLines_fresh lines hl' hd1 ⟨by simp, by simp, by simp, by simp⟩ (by simpa [Rank.names] using hd2) (lo := next + 1)
      (Nat.le_refl _) ⟨by simp [Rank.addrs, Rules.walkList], by simp [Rank.addrs, Rules.walkList], by simp [Rank.addrs, Rules.walkList]⟩ hr
    refine ⟨by omega, ?_⟩
    rw [addrs_setInfo]
    simp only [Rules.walk, if_true, List.map_append, List.map_cons, List.map_nil]
    exact ((Fresh.one).append hf (by omega) hle).perm (List.perm_append_comm)
  | .c twice p, hl, _, name, parent, opts, next, next', x, h => by
    simp only [getRule, exceptBindOk, exceptPureOk, Prod.mk.injEq] at h
    obtain ⟨y, hy, rfl, rfl⟩ := h
    obtain ⟨hn, rfl⟩ := getRuleEnd_ok hy
    refine ⟨by omega, ?_⟩
    rw [addrs_setInfo]
    cases twice <;> exact Fresh.one
  | .i _ _ _, _, _, name, parent, opts, next, next', x, h => by cases h
  | .o own content _, hl, hd, name, parent, opts, next, next', x, h => by
    have hl' : content.Plain := by cases hl; assumption
    have hd' : content.NoDup := by cases hd; assumption
    simp only [getRule, exceptBindOk, exceptPureOk, Prod.exists, Prod.mk.injEq] at h
    obtain ⟨y, n1, hy, z, hz, rfl, rfl⟩ := h
    obtain ⟨hpl, hnm, _⟩ := getRule_plain hc content hl' hy
    have hne : y.name ≠ "" := by rw [hnm]; exact oLineName_ne'
    rw [if_neg hne] at hz
    obtain ⟨hn, rfl⟩ := getRuleEnd_ok hz
    rw [addrs_setInfo]
    exact getRule_fresh content hl' hd' hy
  | .s text, _, _, name, parent, opts, next, next', x, h => by
    simp only [getRule, exceptBindOk, exceptPureOk, Prod.mk.injEq] at h
    obtain ⟨p, hp, y, hy, rfl, rfl⟩ := h
    obtain ⟨hn, rfl⟩ := getRuleEnd_ok hy
    refine ⟨by omega, ?_⟩
    rw [addrs_setInfo]
    exact Fresh.one
theorem rankLine_fresh : ∀ (l : Line), l.Plain → l.NoDup → ∀ {r : Rank}, r.Ok → ∀ {rest : List Line},
    (r.names ++ includedNames (l :: rest)).Nodup → ∀ {lo next next' : Nat} {r' : Rank}, lo ≤ next → Fresh lo next r.addrs →
    rankLine compile r next l = .ok (r', next') →
    next ≤ next' ∧ Fresh lo next' r'.addrs ∧ (r'.names ++ includedNames rest).Nodup
  | .o own content opts, hl, hd, r, hr, rest, hnd, lo, next, next', r', hlo, hf, h => by
    have hl' : content.Plain := by cases hl; assumption
    have hd' : content.NoDup := by cases hd; assumption
    simp only [rankLine, exceptBindOk, exceptPureOk, Prod.exists, Prod.mk.injEq] at h
    obtain ⟨y, n1, hy, rfl, rfl⟩ := h
    obtain ⟨hle, hfy⟩ := getRule_fresh content hl' hd' hy
    refine ⟨hle, ?_, hnd⟩
    have := hf.append hfy hlo hle
    simpa [Rank.addrs, walkList_append, Rules.walkList] using this
  | .i name content opts, hl, hd, r, hr, rest, hnd, lo, next, next', r', hlo, hf, h => by
    have hl' : content.Plain := by cases hl; assumption
    have hd' : content.NoDup := by cases hd; assumption
    simp only [rankLine, exceptBindOk, exceptPureOk, Prod.exists, Prod.mk.injEq] at h
    obtain ⟨y, n1, hy, rfl, rfl⟩ := h
    obtain ⟨hle, hfy⟩ := getRule_fresh content hl' hd' hy
    have hnm := (getRule_plain hc content hl' hy).2.1
    have hnd' : (r.names ++ name :: includedNames rest).Nodup := by simpa [includedNames] using hnd
    have hni : name ∉ r.names := by
      intro hm
      exact (List.nodup_append.mp hnd').2.2 name hm name (List.mem_cons_self ..) rfl
    have hinc := include_fresh (x := y) hni
    refine ⟨hle, ?_, ?_⟩
    · refine (hf.append hfy hlo hle).perm ?_
      unfold Rank.addrs
      rw [hinc, walkList_append]
      simp only [Rank.include, Rules.walkList, List.append_nil, List.map_append]
      rw [List.append_assoc, List.append_assoc]
      exact List.Perm.append_left _ List.perm_append_comm
    · unfold Rank.names
      rw [hinc]
      simpa [hnm, Rank.names] using hnd'
  | .a _, _, _, _, _, _, _, _, _, _, _, _, _, h => by cases h
  | .s _, _, _, _, _, _, _, _, _, _, _, _, _, h => by cases h
  | .c _ _, _, _, _, _, _, _, _, _, _, _, _, _, h => by cases h
theorem rankLines_fresh : ∀ (ls : List Line), (∀ l ∈ ls, l.Plain) → (∀ l ∈ ls, l.NoDup) → ∀ {r : Rank}, r.Ok →
    (r.names ++ includedNames ls).Nodup → ∀ {lo next next' : Nat} {r' : Rank}, lo ≤ next → Fresh lo next r.addrs →
    rankLines compile ls r next = .ok (r', next') → next ≤ next' ∧ Fresh lo next' r'.addrs
  | [], _, _, r, hr, _, lo, next, next', r', hlo, hf, h => by
    cases h; exact ⟨Nat.le_refl _, hf⟩
  | l :: ls, hl, hd, r, hr, hnd, lo, next, next', r', hlo, hf, h => by
    simp only [rankLines, exceptBindOk, Prod.exists] at h
    obtain ⟨r1, n1, h1, h2⟩ := h
    obtain ⟨ho, hn⟩ := rankLine_plain hc l (hl l (List.mem_cons_self ..)) hr h1
    obtain ⟨hle, hf', hnd'⟩ := rankLine_fresh l (hl l (List.mem_cons_self ..)) (hd l (List.mem_cons_self ..)) hr hnd hlo hf h1
    obtain ⟨hle', hf''⟩ := rankLines_fresh ls (fun l hm => hl l (List.mem_cons_of_mem _ hm))
      (fun l hm => hd l (List.mem_cons_of_mem _ hm)) ho hnd' (by omega) hf' h2
    exact ⟨by omega, hf''⟩
end

end

end Joeson
