import Verif.Proofs.Values3
import Verif.Spec.LeftText
import Verif.Spec.LeftRank
/-!
# Ranks are trees

In a grammar made from lines each numbered rule is the parser of a text or a rank, whose alternatives have smaller numbers;
no rule is an alternative of two ranks.
-/

set_option linter.unusedVariables false

namespace Joeson.RuleText

variable {A : String → Prop}

/-- Rule `i` is an alternative of rank `j`. -/
def Child (R : List Node) (j i : Nat) : Prop := ∃ inf l, R[j]? = some (.choice inf l) ∧ .rule i ∈ l

/-- The rule is an alternative of a rank. -/
def HasParent (R : List Node) (i : Nat) : Prop := ∃ j, Child R j i

/-- Texts and ranks. -/
structure Forest (S : Stage) (C : Expr → Prop) (R : List Node) : Prop where
  kind : ∀ j n, R[j]? = some n → (∃ cb e, C e ∧ Fit S false cb e.vp n) ∨ ∃ i l, n = .choice i l ∧ ∀ c ∈ l, ∃ id, c = .rule id ∧ id < j
  once : ∀ j j' i, Child R j i → Child R j' i → j = j'

section
variable {S S' : Stage} {C : Expr → Prop}

theorem Fits.noLink {h : Bool} {ps : List VP} {l : List Node} (hf : Fits S h ps l) (id : Nat) : Node.rule id ∉ l := by
  intro hin
  induction l generalizing ps with
  | nil => cases hin
  | cons n l ih =>
    cases hf with
    | cons hn hl =>
      rcases List.mem_cons.mp hin with h | h
      · exact hn.notNodeRule id h.symm
      · exact ih hl h

theorem Fit.noLink {h : Bool} {cb : Option Nat} {p : VP} {i : Info} {l : List Node} (hf : Fit S h cb p (.choice i l)) (id : Nat) : Node.rule id ∉ l := by
  cases hf with
  | choice _ _ hl => exact hl.noLink id

theorem Forest.lt {R : List Node} (hf : Forest S C R) {j i : Nat} (h : Child R j i) : i < j := by
  obtain ⟨inf, l, hj, hi⟩ := h
  rcases hf.kind j _ hj with ⟨cb, e, _, hfit⟩ | ⟨i', l', h1, h2⟩
  · exact absurd hi (hfit.noLink i)
  · cases h1
    obtain ⟨id, h3, h4⟩ := h2 _ hi
    cases h3
    exact h4

theorem Child.len {R : List Node} {j i : Nat} (h : Child R j i) : j < R.length := by
  obtain ⟨inf, l, hj, _⟩ := h
  exact (List.getElem?_eq_some_iff.mp hj).1

theorem Child.more {R R' : List Node} {j i : Nat} (h : Child R j i) : Child (R ++ R') j i := by
  have hlt := h.len
  obtain ⟨inf, l, hj, hi⟩ := h
  exact ⟨inf, l, by rw [List.getElem?_append_left hlt]; exact hj, hi⟩

/-- One more rule. -/
theorem child_add {R : List Node} {n : Node} {j i : Nat} (h : Child (R ++ [n]) j i) :
    Child R j i ∨ (j = R.length ∧ ∃ inf l, n = .choice inf l ∧ .rule i ∈ l) := by
  obtain ⟨inf, l, hj, hi⟩ := h
  by_cases hlt : j < R.length
  · rw [List.getElem?_append_left hlt] at hj
    exact .inl ⟨inf, l, hj, hi⟩
  · have hle : j < (R ++ [n]).length := (List.getElem?_eq_some_iff.mp hj).1
    have : j = R.length := by simp at hle; omega
    subst this
    simp at hj
    exact .inr ⟨rfl, inf, l, hj, hi⟩

theorem Forest.add {R : List Node} (hf : Forest S C R) {n : Node}
    (hn : (∃ cb e, C e ∧ Fit S false cb e.vp n) ∨ ∃ i l, n = .choice i l ∧ ∀ c ∈ l, ∃ id, c = .rule id ∧ id < R.length ∧ ¬ HasParent R id) :
    Forest S C (R ++ [n]) where
  kind := by
    intro j m hm
    by_cases hlt : j < R.length
    · rw [List.getElem?_append_left hlt] at hm
      exact hf.kind j m hm
    · have hle : j < (R ++ [n]).length := (List.getElem?_eq_some_iff.mp hm).1
      have : j = R.length := by simp at hle; omega
      subst this
      simp at hm
      subst hm
      rcases hn with hn | ⟨i, l, rfl, hl⟩
      · exact .inl hn
      · exact .inr ⟨i, l, rfl, fun c hc => by obtain ⟨id, h1, h2, _⟩ := hl c hc; exact ⟨id, h1, h2⟩⟩
  once := by
    have hnew : ∀ j i, Child R j i → ∀ inf l, n = .choice inf l → .rule i ∉ l := by
      rintro j i hc inf l rfl hin
      rcases hn with ⟨cb, e, _, hfit⟩ | ⟨i', l', h1, hl⟩
      · exact hfit.noLink i hin
      · cases h1
        obtain ⟨id, h2, _, h3⟩ := hl _ hin
        cases h2
        exact h3 ⟨j, hc⟩
    intro j j' i h1 h2
    rcases child_add h1 with h1 | ⟨e1, inf, l, h1, h1'⟩ <;> rcases child_add h2 with h2 | ⟨e2, inf', l', h2, h2'⟩
    · exact hf.once j j' i h1 h2
    · exact absurd h2' (hnew j i h1 _ _ h2)
    · exact absurd h1' (hnew j' i h2 _ _ h1)
    · omega

/-- The rules there before are not made alternatives. -/
def Fresh (R R' : List Node) : Prop := ∀ j i, Child R' j i → i < R.length → Child R j i

theorem Fresh.refl (R : List Node) : Fresh R R := fun _ _ h _ => h
theorem Fresh.trans {R R' R'' : List Node} (h : Fresh R R') (h' : Fresh R' R'') (hle : R.length ≤ R'.length) : Fresh R R'' :=
  fun j i hc hi => h j i (h' j i hc (by omega)) hi

theorem Longer.le {s s' : Conn} (h : Longer s s') : s.rules.length ≤ s'.rules.length := by
  obtain ⟨R, hR⟩ := h
  rw [hR]; simp

mutual
theorem connect_forest : ∀ (y : Body) {cb : Option Nat} {x : Rules}, TreeV A cb y x → y.All C → ∀ {rn : String} {s s' : Conn} {n : Node}, s.Ok →
    Forest (stage1 A) C s.rules → connect rn s x = .ok (n, s') →
    Longer s s' ∧ Forest (stage1 A) C s'.rules ∧ Fresh s.rules s'.rules ∧
      ∃ id, n = .rule id ∧ s.rules.length ≤ id ∧ id < s'.rules.length ∧ ¬ HasParent s'.rules id
  | .text e, cb, x, ht, hC, rn, s, s', n, hs, hf, h => by
    simp only [TreeV] at ht
    obtain ⟨a, n0, rfl, hl⟩ := ht
    simp only [connect] at h
    split at h
    · cases h
    · cases h
      have hs' := hs.seen (a :: s.seen)
      have hnum : s.numrules = s.rules.length := by simp [Conn.rules, hs.num]
      have hrules := post_rules { s with seen := a :: s.seen } a .rule (n0.attach n0.info.name false)
      have hseen : ({ s with seen := a :: s.seen } : Conn).rules = s.rules := rfl
      rw [hseen] at hrules
      have hfit : Fit (stage1 A) false cb e.vp (n0.attach n0.info.name false) := fit_attach hl _
      have hf' : Forest (stage1 A) C (s.rules ++ [n0.attach n0.info.name false]) := hf.add (.inl ⟨cb, e, hC, hfit⟩)
      refine ⟨⟨_, hrules⟩, hrules ▸ hf', ?_, _, rfl, Nat.le_of_eq hnum.symm, ?_, ?_⟩
      · rw [hrules]
        intro j i hc hi
        rcases child_add hc with h | ⟨_, inf, l, h1, h2⟩
        · exact h
        · rw [h1] at hfit
          exact absurd h2 (hfit.noLink i)
      · rw [hrules]; simp [hnum]
      · rintro ⟨j, hc⟩
        rw [hrules] at hc
        have h1 := hf'.lt hc
        have h2 := hc.len
        simp at h2 h1
        omega
  | .rank ls, cb, x, ht, hC, rn, s, s', n, hs, hf, h => by
    simp only [TreeV] at ht
    obtain ⟨a, i, incl, alts, rfl, h1, h2, h3, h4⟩ := ht
    simp only [connect, exceptBindOk, exceptPureOk, Prod.exists, Prod.mk.injEq] at h
    obtain ⟨l1, s1, hc1, l2, s2, hc2, rfl, rfl⟩ := h
    simp only [Body.All] at hC
    have ho1 := (connectList_listed incl hs hc1).1
    have ho2 := (connectList_listed alts ho1 hc2).1
    obtain ⟨g1, f1, r1⟩ := connectI_forest ls h3 hC hs hf hc1
    obtain ⟨g2, f2, r2, hl⟩ := connectA_forest ls h4 hC ho1 f1 hc2
    have hnum : s2.numrules = s2.rules.length := by simp [Conn.rules, ho2.num]
    have hrules := post_rules s2 a .rule (.choice { i with parent := some false, ruleName := i.name } l2)
    have f3 : Forest (stage1 A) C (s2.rules ++ [.choice { i with parent := some false, ruleName := i.name } l2]) := by
      refine f2.add (.inr ⟨_, _, rfl, fun c hc => ?_⟩)
      obtain ⟨id, e1, _, e2, e3⟩ := hl c hc
      exact ⟨id, e1, e2, e3⟩
    refine ⟨(g1.trans g2).trans ⟨_, hrules⟩, hrules ▸ f3, ?_, _, rfl, ?_, ?_, ?_⟩
    · rw [hrules]
      intro j k hc hk
      rcases child_add hc with h | ⟨_, inf, l, e1, e2⟩
      · exact (r1.trans r2 g1.le) j k h hk
      · cases e1
        obtain ⟨id, e3, e4, _⟩ := hl _ e2
        cases e3
        have := g1.le
        omega
    · rw [hnum]; exact (g1.trans g2).le
    · rw [hrules]; simp [hnum]
    · rintro ⟨j, hc⟩
      rw [hrules] at hc
      have h1 := f3.lt hc
      have h2 := hc.len
      simp at h2 h1
      omega
theorem connectI_forest : ∀ (ls : List GLine) {xs : List Rules}, TreeVI A ls xs → AllLines C ls → ∀ {rn : String} {s s' : Conn} {l : List Node}, s.Ok →
    Forest (stage1 A) C s.rules → connectList rn s xs = .ok (l, s') → Longer s s' ∧ Forest (stage1 A) C s'.rules ∧ Fresh s.rules s'.rules
  | [], xs, ht, hC, rn, s, s', l, hs, hf, h => by
    simp only [TreeVI] at ht
    cases ht
    cases h
    exact ⟨Longer.refl _, hf, Fresh.refl _⟩
  | .alt nm cb y :: ls, xs, ht, hC, rn, s, s', l, hs, hf, h => by
    simp only [TreeVI] at ht
    exact connectI_forest ls ht hC.2 hs hf h
  | .incl nm cb y :: ls, xs, ht, hC, rn, s, s', l, hs, hf, h => by
    simp only [TreeVI] at ht
    obtain ⟨x, xs', rfl, hn, hx, ht⟩ := ht
    simp only [connectList, exceptBindOk, exceptPureOk, Prod.exists, Prod.mk.injEq] at h
    obtain ⟨n1, s1, hc1, l2, s2, hc2, rfl, rfl⟩ := h
    have ho1 := (connect_listed x hs hc1).1
    obtain ⟨g1, f1, r1, _⟩ := connect_forest y hx hC.1 hs hf hc1
    obtain ⟨g2, f2, r2⟩ := connectI_forest ls ht hC.2 ho1 f1 hc2
    exact ⟨g1.trans g2, f2, r1.trans r2 g1.le⟩
theorem connectA_forest : ∀ (ls : List GLine) {xs : List Rules}, TreeVA A ls xs → AllLines C ls → ∀ {rn : String} {s s' : Conn} {l : List Node}, s.Ok →
    Forest (stage1 A) C s.rules → connectList rn s xs = .ok (l, s') → Longer s s' ∧ Forest (stage1 A) C s'.rules ∧ Fresh s.rules s'.rules ∧
      ∀ c ∈ l, ∃ id, c = .rule id ∧ s.rules.length ≤ id ∧ id < s'.rules.length ∧ ¬ HasParent s'.rules id
  | [], xs, ht, hC, rn, s, s', l, hs, hf, h => by
    simp only [TreeVA] at ht
    cases ht
    cases h
    exact ⟨Longer.refl _, hf, Fresh.refl _, by simp⟩
  | .incl nm cb y :: ls, xs, ht, hC, rn, s, s', l, hs, hf, h => by
    simp only [TreeVA] at ht
    exact connectA_forest ls ht hC.2 hs hf h
  | .alt nm cb y :: ls, xs, ht, hC, rn, s, s', l, hs, hf, h => by
    simp only [TreeVA] at ht
    obtain ⟨x, xs', rfl, hn, hx, ht⟩ := ht
    simp only [connectList, exceptBindOk, exceptPureOk, Prod.exists, Prod.mk.injEq] at h
    obtain ⟨n1, s1, hc1, l2, s2, hc2, rfl, rfl⟩ := h
    have ho1 := (connect_listed x hs hc1).1
    obtain ⟨g1, f1, r1, id, rfl, i1, i2, i3⟩ := connect_forest y hx hC.1 hs hf hc1
    obtain ⟨g2, f2, r2, hl⟩ := connectA_forest ls ht hC.2 ho1 f1 hc2
    refine ⟨g1.trans g2, f2, r1.trans r2 g1.le, ?_⟩
    intro c hc
    rcases List.mem_cons.mp hc with rfl | hc
    · exact ⟨id, rfl, i1, Nat.lt_of_lt_of_le i2 g2.le, fun ⟨j, hj⟩ => i3 ⟨j, r2 j id hj i2⟩⟩
    · obtain ⟨id', e1, e2, e3⟩ := hl c hc
      exact ⟨id', e1, Nat.le_trans g1.le e2, e3⟩
end

/-- After the other passes. -/
theorem Forest.pass {R R' : List Node} (hf : Forest S C R) (hp : PassVAll S S' R R') (hlen : R.length = R'.length) :
    Forest S' C R' ∧ ∀ j i, Child R' j i → Child R j i := by
  have hback : ∀ (j : Nat) (n' : Node), R'[j]? = some n' → ∃ n, R[j]? = some n ∧ PassV S S' n n' := by
    intro j n' hn'
    have hlt : j < R.length := by rw [hlen]; exact (List.getElem?_eq_some_iff.mp hn').1
    obtain ⟨n'', h1, h2⟩ := hp j R[j] (List.getElem?_eq_getElem hlt)
    rw [hn'] at h1
    cases h1
    exact ⟨_, List.getElem?_eq_getElem hlt, h2⟩
  have hch : ∀ j i, Child R' j i → Child R j i := by
    rintro j i ⟨inf, l, hj, hi⟩
    obtain ⟨n, hn, hpass⟩ := hback j _ hj
    rcases hf.kind j n hn with ⟨cb, e, _, hfit⟩ | ⟨i', l', rfl, hl⟩
    · exact absurd hi ((hpass.fit cb _ hfit).noLink i)
    · obtain ⟨i'', h1, _⟩ := hpass.rank i' l' rfl (fun c hc => by obtain ⟨id, h, _⟩ := hl c hc; exact ⟨id, h⟩)
      cases h1
      exact ⟨i', l, hn, hi⟩
  refine ⟨⟨?_, fun j j' i h h' => hf.once j j' i (hch j i h) (hch j' i h')⟩, hch⟩
  intro j n' hn'
  obtain ⟨n, hn, hpass⟩ := hback j _ hn'
  rcases hf.kind j n hn with ⟨cb, e, hC, hfit⟩ | ⟨i', l', rfl, hl⟩
  · exact .inl ⟨cb, e, hC, hpass.fit cb _ hfit⟩
  · obtain ⟨i'', h1, _⟩ := hpass.rank i' l' rfl (fun c hc => by obtain ⟨id, h, _⟩ := hl c hc; exact ⟨id, h⟩)
    exact .inr ⟨i'', l', h1, hl⟩

end
end Joeson.RuleText
