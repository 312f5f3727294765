import Verif.Proofs.Forest2
import Verif.Spec.Indirect
/-!
# The helpers of a grammar made from lines

The names of alternatives, and how many rules call a name, in the grammar as it is built.
-/

set_option linter.unusedVariables false

namespace Joeson.RuleText

variable {A : String → Prop}

/-- The node is not a reference to this name. -/
def NoRef (nm : String) (n : Node) : Prop := ∀ i nm', n = .ref i nm' → nm' ≠ nm

section
variable {S S' : Stage} {nm : String}

mutual
theorem fit_noRef : ∀ {h : Bool} {cb : Option Nat} {p : VP} {n : Node}, Fit S h cb p n → n.All (NoRef nm) → nm ∉ p.names
  | _, _, _, _, .str _ _, _ => by simp [VP.names]
  | _, _, _, _, .regex _ _, _ => by simp [VP.names]
  | _, _, _, _, .ref (i := i) _ _ _, h => by
    cases h with
    | ref h =>
      simp only [VP.names, List.mem_singleton]
      exact fun h' => h _ _ rfl h'.symm
  | _, _, _, _, .choice _ _ hl, h => by
    cases h with
    | choice _ h => simpa only [VP.names] using fits_noRef hl h
  | _, _, _, _, .seq _ _ _ hl, h => by
    cases h with
    | seq _ h => simpa only [VP.names] using fits_noRef hl h
  | _, _, _, _, .exist _ _ hn, h => by
    cases h with
    | exist _ h => simpa only [VP.names] using fit_noRef hn h
  | _, _, _, _, .look _ _ hn, h => by
    cases h with
    | look _ h => simpa only [VP.names] using fit_noRef hn h
  | _, _, _, _, .not _ _ hn, h => by
    cases h with
    | not _ h => simpa only [VP.names] using fit_noRef hn h
  | _, _, _, _, .pattern _ _ hv hj _ _, h => by
    cases h with
    | pattern _ h1 h2 =>
      simp only [VP.names, List.mem_append, not_or]
      exact ⟨fit_noRef hv h1, fitO_noRef hj h2⟩
theorem fits_noRef : ∀ {h : Bool} {ps : List VP} {l : List Node}, Fits S h ps l → (∀ c ∈ l, c.All (NoRef nm)) → nm ∉ namesOf ps
  | _, _, _, .nil, _ => by simp [namesOf]
  | _, _, _, .cons hn hl, h => by
    simp only [namesOf, List.mem_append, not_or]
    exact ⟨fit_noRef hn (h _ (List.mem_cons_self ..)), fits_noRef hl fun c hc => h c (List.mem_cons_of_mem _ hc)⟩
theorem fitO_noRef : ∀ {o : Option VP} {j : Option Node}, FitO S o j → (∀ c, j = some c → c.All (NoRef nm)) → nm ∉ namesOfO o
  | _, _, .none, _ => by simp [namesOfO]
  | _, _, .some hn, h => by simpa only [namesOfO] using fit_noRef hn (h _ rfl)
end

open Classical in
/-- The parser calls the name. -/
noncomputable def refers (nm : String) (n : Node) : Bool := decide (¬ n.All (NoRef nm))

theorem refers_fit {h : Bool} {cb : Option Nat} {p : VP} {n : Node} (hf : Fit S h cb p n) : refers nm n = p.names.contains nm := by
  rw [Bool.eq_iff_iff]
  simp only [refers, decide_eq_true_eq, List.contains_iff_mem]
  constructor
  · intro h
    by_contra hno
    refine h (fit_all ?_ hf ?_)
    · intro n _ hn i nm' he
      exact absurd he (hn i nm')
    · intro i nm' hm i' nm'' he
      cases he
      rintro rfl
      exact hno hm
  · exact fun h ha => fit_noRef hf ha h

theorem refers_links {i : Info} {l : List Node} (hl : ∀ c ∈ l, ∃ id, c = .rule id) : refers nm (.choice i l) = false := by
  simp only [refers, decide_eq_false_iff_not, not_not]
  refine .choice (fun i nm' he => by cases he) fun c hc => ?_
  obtain ⟨id, rfl⟩ := hl c hc
  exact .rule fun i nm' he => by cases he

/-- How many of the rules call the name. -/
noncomputable def callers (nm : String) (R : List Node) : Nat := R.countP (refers nm)

theorem callers_pass {C : Expr → Prop} {R R' : List Node} (hf : Forest S C R) (hp : PassVAll S S' R R') (hlen : R.length = R'.length) :
    callers nm R' = callers nm R := by
  have h : R'.map (refers nm) = R.map (refers nm) := by
    refine List.ext_getElem? fun j => ?_
    rw [List.getElem?_map, List.getElem?_map]
    by_cases hlt : j < R.length
    · obtain ⟨n', h1, h2⟩ := hp j R[j] (List.getElem?_eq_getElem hlt)
      rw [h1, List.getElem?_eq_getElem hlt]
      simp only [Option.map_some, Option.some.injEq]
      rcases hf.kind j _ (List.getElem?_eq_getElem hlt) with ⟨cb, e, _, hfit⟩ | ⟨i, l, he, hl⟩
      · rw [refers_fit hfit, refers_fit (h2.fit cb _ hfit)]
      · have hl' : ∀ c ∈ l, ∃ id, c = .rule id := fun c hc => by obtain ⟨id, h, _⟩ := hl c hc; exact ⟨id, h⟩
        obtain ⟨i', h3, _⟩ := h2.rank i l he hl'
        rw [he, h3, refers_links hl', refers_links hl']
    · rw [List.getElem?_eq_none (by omega), List.getElem?_eq_none (by omega)]
  have h2 : ∀ l : List Node, callers nm l = (l.map (refers nm)).countP id := by
    intro l
    rw [List.countP_map]
    rfl
  rw [h2, h2, h]

/-- At most one caller. -/
theorem callers_unique {R : List Node} (h : callers nm R ≤ 1) {j j' : Nat} {n n' : Node} (hj : R[j]? = some n) (hj' : R[j']? = some n')
    (hn : refers nm n = true) (hn' : refers nm n' = true) : j = j' := by
  induction R generalizing j j' with
  | nil => cases hj
  | cons m R ih =>
    unfold callers at h ih
    rw [List.countP_cons] at h
    match j, j', hj, hj' with
    | 0, 0, _, _ => rfl
    | 0, k + 1, h1, h2 =>
      simp only [List.getElem?_cons_zero, Option.some.injEq] at h1
      simp only [List.getElem?_cons_succ] at h2
      subst h1
      rw [if_pos hn] at h
      have := List.countP_pos_iff.mpr ⟨n', List.mem_of_getElem? h2, hn'⟩
      omega
    | k + 1, 0, h1, h2 =>
      simp only [List.getElem?_cons_zero, Option.some.injEq] at h2
      simp only [List.getElem?_cons_succ] at h1
      subst h2
      rw [if_pos hn'] at h
      have := List.countP_pos_iff.mpr ⟨n, List.mem_of_getElem? h1, hn⟩
      omega
    | k + 1, k' + 1, h1, h2 =>
      simp only [List.getElem?_cons_succ] at h1 h2
      rw [ih (by omega) h1 h2]

/-! ## Connecting -/

mutual
/-- The texts of the included lines. -/
def countI (p : Expr → Bool) : List GLine → Nat
  | [] => 0
  | .alt _ _ _ :: ls => countI p ls
  | .incl _ _ b :: ls => b.countTexts p + countI p ls
/-- The texts of the alternatives. -/
def countA (p : Expr → Bool) : List GLine → Nat
  | [] => 0
  | .alt _ _ b :: ls => b.countTexts p + countA p ls
  | .incl _ _ _ :: ls => countA p ls
end

theorem countIA (p : Expr → Bool) : ∀ ls : List GLine, countTextsIn p ls = countI p ls + countA p ls
  | [] => rfl
  | .alt _ _ b :: ls => by simp only [countTextsIn, GLine.countTexts, countI, countA, countIA p ls]; omega
  | .incl _ _ b :: ls => by simp only [countTextsIn, GLine.countTexts, countI, countA, countIA p ls]; omega

/-- The name is one of an alternative, or one made up. -/
def AltName (A : List String) (s : String) : Prop := Auto s = true ∨ s ∈ A

/-- The names of the alternatives of ranks. -/
def ChildNames (A : List String) (R : List Node) : Prop := ∀ j i, Child R j i → ∃ n, R[i]? = some n ∧ AltName A n.info.name

theorem ChildNames.mono {A A' : List String} {R : List Node} (h : ChildNames A R) (hs : ∀ s ∈ A, s ∈ A') : ChildNames A' R := by
  intro j i hc
  obtain ⟨n, hn, ha⟩ := h j i hc
  exact ⟨n, hn, ha.imp id (hs _)⟩

theorem get_more {R R' : List Node} {i : Nat} {n : Node} (h : R[i]? = some n) : (R ++ R')[i]? = some n := by
  rw [List.getElem?_append_left (List.getElem?_eq_some_iff.mp h).1]
  exact h

theorem Longer.get {s s' : Conn} (h : Longer s s') {i : Nat} {n : Node} (hn : s.rules[i]? = some n) : s'.rules[i]? = some n := by
  obtain ⟨R, hR⟩ := h
  rw [hR]
  exact get_more hn

theorem ChildNames.add {A : List String} {R : List Node} {n : Node} (h : ChildNames A R)
    (hn : ∀ inf l id, n = .choice inf l → .rule id ∈ l → ∃ m, R[id]? = some m ∧ AltName A m.info.name) : ChildNames A (R ++ [n]) := by
  intro j i hc
  rcases child_add hc with h' | ⟨_, inf, l, h1, h2⟩
  · obtain ⟨m, hm, ha⟩ := h j i h'
    exact ⟨m, get_more hm, ha⟩
  · obtain ⟨m, hm, ha⟩ := hn inf l i h1 h2
    exact ⟨m, get_more hm, ha⟩

mutual
theorem connect_helpers : ∀ (y : Body) {cb : Option Nat} {x : Rules}, TreeV A cb y x → ∀ {A : List String}, (∀ s ∈ y.altNames, s ∈ A) →
    ∀ {rn : String} {s s' : Conn} {n : Node}, s.Ok → ChildNames A s.rules → connect rn s x = .ok (n, s') →
    ChildNames A s'.rules ∧ ∀ nm, callers nm s'.rules = callers nm s.rules + y.countTexts fun e => e.vp.names.contains nm
  | .text e, cb, x, ht, A, hA, rn, s, s', n, hs, hn, h => by
    simp only [TreeV] at ht
    obtain ⟨a, n0, rfl, hl⟩ := ht
    simp only [connect] at h
    split at h
    · cases h
    · cases h
      have hrules := post_rules { s with seen := a :: s.seen } a .rule (n0.attach n0.info.name false)
      have hseen : ({ s with seen := a :: s.seen } : Conn).rules = s.rules := rfl
      rw [hseen] at hrules
      have hfit : Fit (stage1 _) false cb e.vp (n0.attach n0.info.name false) := fit_attach hl _
      rw [hrules]
      refine ⟨hn.add fun inf l id he hin => ?_, fun nm => ?_⟩
      · rw [he] at hfit
        exact absurd hin (hfit.noLink id)
      · simp only [callers, List.countP_append, Body.countTexts, List.countP_singleton, refers_fit hfit]
  | .rank ls, cb, x, ht, A, hA, rn, s, s', n, hs, hn, h => by
    simp only [TreeV] at ht
    obtain ⟨a, i, incl, alts, rfl, h1, h2, h3, h4⟩ := ht
    simp only [connect, exceptBindOk, exceptPureOk, Prod.exists, Prod.mk.injEq] at h
    obtain ⟨l1, s1, hc1, l2, s2, hc2, rfl, rfl⟩ := h
    simp only [Body.altNames] at hA
    have ho1 := (connectList_listed incl hs hc1).1
    obtain ⟨n1, c1⟩ := connectI_helpers ls h3 hA hs hn hc1
    obtain ⟨n2, c2, hl⟩ := connectA_helpers ls h4 hA ho1 n1 hc2
    have hrules := post_rules s2 a .rule (.choice { i with parent := some false, ruleName := i.name } l2)
    rw [hrules]
    refine ⟨n2.add fun inf l id he hin => ?_, fun nm => ?_⟩
    · cases he
      obtain ⟨id', e1, e2⟩ := hl _ hin
      cases e1
      exact e2
    · have hno : refers nm (.choice { i with parent := some false, ruleName := i.name } l2) = false :=
        refers_links fun c hc => by obtain ⟨id, h, _⟩ := hl c hc; exact ⟨id, h⟩
      have e1 := c1 nm
      have e2 := c2 nm
      simp only [callers, List.countP_append, Body.countTexts, List.countP_singleton, hno, countIA] at e1 e2 ⊢
      simp only [Bool.false_eq_true, if_false]
      omega
theorem connectI_helpers : ∀ (ls : List GLine) {xs : List Rules}, TreeVI A ls xs → ∀ {A : List String}, (∀ s ∈ altNamesIn ls, s ∈ A) →
    ∀ {rn : String} {s s' : Conn} {l : List Node}, s.Ok → ChildNames A s.rules → connectList rn s xs = .ok (l, s') →
    ChildNames A s'.rules ∧ ∀ nm, callers nm s'.rules = callers nm s.rules + countI (fun e => e.vp.names.contains nm) ls
  | [], xs, ht, A, hA, rn, s, s', l, hs, hn, h => by
    simp only [TreeVI] at ht
    cases ht
    cases h
    exact ⟨hn, fun nm => rfl⟩
  | .alt nm cb y :: ls, xs, ht, A, hA, rn, s, s', l, hs, hn, h => by
    simp only [TreeVI] at ht
    exact connectI_helpers ls ht (fun s hs => hA s (by simp only [altNamesIn, List.mem_append]; exact .inr hs)) hs hn h
  | .incl nm cb y :: ls, xs, ht, A, hA, rn, s, s', l, hs, hn, h => by
    simp only [TreeVI] at ht
    obtain ⟨x, xs', rfl, _, hx, ht⟩ := ht
    simp only [connectList, exceptBindOk, exceptPureOk, Prod.exists, Prod.mk.injEq] at h
    obtain ⟨n1, s1, hc1, l2, s2, hc2, rfl, rfl⟩ := h
    have ho1 := (connect_listed x hs hc1).1
    obtain ⟨g1, c1⟩ := connect_helpers y hx (fun s hs => hA s (by simp only [altNamesIn, GLine.altNames, List.mem_append]; exact .inl hs)) hs hn hc1
    obtain ⟨g2, c2⟩ := connectI_helpers ls ht (fun s hs => hA s (by simp only [altNamesIn, List.mem_append]; exact .inr hs)) ho1 g1 hc2
    refine ⟨g2, fun nm => ?_⟩
    rw [c2, c1, countI]
    omega
theorem connectA_helpers : ∀ (ls : List GLine) {xs : List Rules}, TreeVA A ls xs → ∀ {A : List String}, (∀ s ∈ altNamesIn ls, s ∈ A) →
    ∀ {rn : String} {s s' : Conn} {l : List Node}, s.Ok → ChildNames A s.rules → connectList rn s xs = .ok (l, s') →
    ChildNames A s'.rules ∧ (∀ nm, callers nm s'.rules = callers nm s.rules + countA (fun e => e.vp.names.contains nm) ls) ∧
      ∀ c ∈ l, ∃ id, c = .rule id ∧ ∃ n, s'.rules[id]? = some n ∧ AltName A n.info.name
  | [], xs, ht, A, hA, rn, s, s', l, hs, hn, h => by
    simp only [TreeVA] at ht
    cases ht
    cases h
    exact ⟨hn, fun nm => rfl, by simp⟩
  | .incl nm cb y :: ls, xs, ht, A, hA, rn, s, s', l, hs, hn, h => by
    simp only [TreeVA] at ht
    exact connectA_helpers ls ht (fun s hs => hA s (by simp only [altNamesIn, List.mem_append]; exact .inr hs)) hs hn h
  | .alt nm cb y :: ls, xs, ht, A, hA, rn, s, s', l, hs, hn, h => by
    simp only [TreeVA] at ht
    obtain ⟨x, xs', rfl, hname, hx, ht⟩ := ht
    simp only [connectList, exceptBindOk, exceptPureOk, Prod.exists, Prod.mk.injEq] at h
    obtain ⟨n1, s1, hc1, l2, s2, hc2, rfl, rfl⟩ := h
    have ho1 := (connect_listed x hs hc1).1
    obtain ⟨g1, c1⟩ := connect_helpers y hx (fun s hs => hA s (by simp [altNamesIn, GLine.altNames, hs])) hs hn hc1
    obtain ⟨g2, c2, hl⟩ := connectA_helpers ls ht (fun s hs => hA s (by simp only [altNamesIn, List.mem_append]; exact .inr hs)) ho1 g1 hc2
    obtain ⟨w1, id, rfl, _, ⟨m, hm, hmn⟩, _⟩ := connect_implV y hx hs hc1
    obtain ⟨w2, _⟩ := connectA_implV ls ht ho1 hc2
    refine ⟨g2, fun nm => ?_, ?_⟩
    · rw [c2, c1, countA]
      omega
    · intro c hc
      rcases List.mem_cons.mp hc with rfl | hc
      · refine ⟨id, rfl, m, w2.get hm, ?_⟩
        rw [hmn]
        unfold NameIs at hname
        split at hname
        · exact .inl hname
        · exact .inr (hA _ (by simp [altNamesIn, GLine.altNames, hname]))
      · exact hl c hc
end

end
end Joeson.RuleText
