import Verif.Proofs.Unused
/-! # The passes of `postinit` on all rules, and the numbering -/

namespace Joeson
variable {φ : Nat → Nat} {X : List String}

/-- What each rule was when it was prepared. -/
theorem prepAll_at {lk : String → Option Nat} : ∀ {l d R : List Node}, prepAll lk l d = .ok R →
    R.length = d.length + l.length ∧ (∀ i, i < d.length → R[i]? = d[i]?) ∧ ∀ (i : Nat) (n : Node), l[i]? = some n → ∃ m, R[d.length + i]? = some m ∧
      n.prep (fun x => x.hasLabels (followLabels lk (R.take (d.length + i)) (R.take (d.length + i)).length)) (R.take (d.length + i)) = .ok m := by
  intro l
  induction l with
  | nil =>
    intro d R h
    cases h
    exact ⟨by simp, fun _ _ => rfl, fun i n hn => by simp at hn⟩
  | cons x l ih =>
    intro d R h
    simp only [prepAll, exceptBindOk] at h
    obtain ⟨y, hy, h⟩ := h
    obtain ⟨h1, h2, h3⟩ := ih h
    have hlen : (d ++ [y]).length = d.length + 1 := by simp
    rw [hlen] at h1 h2 h3
    have h4 : ∀ i, i < d.length → R[i]? = d[i]? := fun i hi => by
      rw [h2 i (by omega), List.getElem?_append_left hi]
    have htake : R.take d.length = d := by
      apply List.ext_getElem?
      intro i
      by_cases hi : i < d.length
      · rw [List.getElem?_take_of_lt hi, h4 i hi]
      · rw [List.getElem?_eq_none (by simp; omega), List.getElem?_eq_none (by omega)]
    refine ⟨by rw [h1, List.length_cons]; omega, h4, ?_⟩
    intro i n hn
    cases i with
    | zero =>
      simp only [List.getElem?_cons_zero, Option.some.injEq] at hn
      subst hn
      refine ⟨y, ?_, ?_⟩
      · rw [Nat.add_zero, h2 d.length (by omega), List.getElem?_append_right (Nat.le_refl _)]
        simp
      · rw [Nat.add_zero, htake]
        exact hy
    | succ i =>
      rw [List.getElem?_cons_succ] at hn
      obtain ⟨m, hm, hp⟩ := h3 i n hn
      have : d.length + 1 + i = d.length + (i + 1) := by omega
      rw [this] at hm hp
      exact ⟨m, hm, hp⟩

theorem prepAll_ren {lk lk' : String → Option Nat} (hlk : ∀ nm, nm ∉ X → lk' nm = (lk nm).map φ) (hmono : ∀ i j, i < j ↔ φ i < φ j)
    {l l' R R' : List Node} (hl : Shifted φ l l') (ha : ∀ n ∈ l, n.Avoids X) (hk : ∀ n ∈ l, n.isLink = false)
    (h : prepAll lk l [] = .ok R) (h' : prepAll lk' l' [] = .ok R') : Shifted φ R R' ∧ (∀ n ∈ R, n.Avoids X) ∧ ∀ n ∈ R, n.isLink = false := by
  obtain ⟨h1, -, h3⟩ := prepAll_at h
  obtain ⟨h1', -, h3'⟩ := prepAll_at h'
  simp only [List.length_nil, Nat.zero_add] at h1 h3 h1' h3'
  have key : ∀ i, R'[φ i]? = (R[i]?).map (·.renamed φ id) ∧ ∀ n, R[i]? = some n → n.Avoids X ∧ n.isLink = false := by
    intro i
    induction i using Nat.strongRecOn with
    | ind i ih =>
      cases hn : l[i]? with
      | none =>
        have hi : l.length ≤ i := List.getElem?_eq_none_iff.mp hn
        have hn' : l'[φ i]? = none := by rw [hl i, hn]; rfl
        have hi' : l'.length ≤ φ i := List.getElem?_eq_none_iff.mp hn'
        rw [List.getElem?_eq_none (by omega), List.getElem?_eq_none (by omega)]
        exact ⟨rfl, fun n hn => by cases hn⟩
      | some n =>
        have hn' : l'[φ i]? = some (n.renamed φ id) := by rw [hl i, hn]; rfl
        obtain ⟨m, hm, hp⟩ := h3 i n hn
        obtain ⟨m', hm', hp'⟩ := h3' (φ i) _ hn'
        have hS : Shifted φ (R.take i) (R'.take (φ i)) := by
          intro j
          by_cases hj : j < i
          · rw [List.getElem?_take_of_lt hj, List.getElem?_take_of_lt ((hmono j i).mp hj)]
            exact (ih j hj).1
          · have : ¬ φ j < φ i := fun hx => hj ((hmono j i).mpr hx)
            rw [List.getElem?_eq_none (l := R.take i) (by simp; omega), List.getElem?_eq_none (l := R'.take (φ i)) (by simp; omega)]
            rfl
        have hA : ∀ n ∈ R.take i, n.Avoids X ∧ n.isLink = false := by
          intro n hn
          obtain ⟨j, hj⟩ := List.mem_iff_getElem?.mp hn
          have hji : j < i := by
            have := (List.getElem?_eq_some_iff.mp hj).1
            simp at this
            omega
          rw [List.getElem?_take_of_lt hji] at hj
          exact (ih j hji).2 n hj
        have hmem := List.mem_of_getElem? hn
        obtain ⟨rfl, h5⟩ := prep_ren (X := X) (fun x b b' hx hb hb' =>
          hasLabels_ren (followLabels_ren hlk hS (fun n hn => (hA n hn).1) _ _) x hx hb hb') hS (fun n hn => (hA n hn).2) n (ha n hmem) hp hp'
        rw [hm, hm']
        refine ⟨rfl, fun x hx => ?_⟩
        cases hx
        exact ⟨h5, by rw [(prep_kept hp).2]; exact hk n hmem⟩
  refine ⟨fun i => (key i).1, fun n hn => ?_, fun n hn => ?_⟩
  · obtain ⟨j, hj⟩ := List.mem_iff_getElem?.mp hn
    exact ((key j).2 n hj).1
  · obtain ⟨j, hj⟩ := List.mem_iff_getElem?.mp hn
    exact ((key j).2 n hj).2

theorem setTypesAll_at {labels : Node → Except Panic Bool} : ∀ {l R : List Node}, setTypesAll labels l = .ok R →
    R.length = l.length ∧ ∀ (i : Nat) (n : Node), l[i]? = some n → ∃ m, R[i]? = some m ∧ n.setTypes labels = .ok m := by
  intro l
  induction l with
  | nil => intro R h; cases h; exact ⟨rfl, fun i n hn => by simp at hn⟩
  | cons x l ih =>
    intro R h
    simp only [setTypesAll, exceptBindOk, exceptPureOk] at h
    obtain ⟨y, hy, S, hS, rfl⟩ := h
    obtain ⟨h1, h2⟩ := ih hS
    refine ⟨by simp [h1], fun i n hn => ?_⟩
    cases i with
    | zero => cases hn; exact ⟨y, rfl, hy⟩
    | succ i => exact h2 i n hn

theorem inlineAll_at {t : String → Except Panic (Option Node)} {k : Nat → Except Panic (Option Node)} : ∀ {l R : List Node}, inlineAll t k l = .ok R →
    R.length = l.length ∧ ∀ (i : Nat) (n : Node), l[i]? = some n → ∃ m, R[i]? = some m ∧ n.inline t k = .ok m := by
  intro l
  induction l with
  | nil => intro R h; cases h; exact ⟨rfl, fun i n hn => by simp at hn⟩
  | cons x l ih =>
    intro R h
    simp only [inlineAll, exceptBindOk, exceptPureOk] at h
    obtain ⟨y, hy, S, hS, rfl⟩ := h
    obtain ⟨h1, h2⟩ := ih hS
    refine ⟨by simp [h1], fun i n hn => ?_⟩
    cases i with
    | zero => cases hn; exact ⟨y, rfl, hy⟩
    | succ i => exact h2 i n hn

/-- A pass that works rule by rule. -/
theorem pass_ren {F F' : Node → Except Panic Node} (hF : ∀ n m m', n.Avoids X → F n = .ok m → F' (n.renamed φ id) = .ok m' → m' = m.renamed φ id ∧ m.Avoids X)
    {l l' R R' : List Node} (hl : Shifted φ l l') (ha : ∀ n ∈ l, n.Avoids X)
    (h1 : R.length = l.length) (h2 : ∀ (i : Nat) (n : Node), l[i]? = some n → ∃ m, R[i]? = some m ∧ F n = .ok m)
    (h1' : R'.length = l'.length) (h2' : ∀ (i : Nat) (n : Node), l'[i]? = some n → ∃ m, R'[i]? = some m ∧ F' n = .ok m) :
    Shifted φ R R' ∧ ∀ n ∈ R, n.Avoids X := by
  have key : ∀ i, R'[φ i]? = (R[i]?).map (·.renamed φ id) ∧ ∀ n, R[i]? = some n → n.Avoids X := by
    intro i
    cases hn : l[i]? with
    | none =>
      have hi : l.length ≤ i := List.getElem?_eq_none_iff.mp hn
      have hn' : l'[φ i]? = none := by rw [hl i, hn]; rfl
      have hi' : l'.length ≤ φ i := List.getElem?_eq_none_iff.mp hn'
      rw [List.getElem?_eq_none (by omega), List.getElem?_eq_none (by omega)]
      exact ⟨rfl, fun n hn => by cases hn⟩
    | some n =>
      have hn' : l'[φ i]? = some (n.renamed φ id) := by rw [hl i, hn]; rfl
      obtain ⟨m, hm, hp⟩ := h2 i n hn
      obtain ⟨m', hm', hp'⟩ := h2' (φ i) _ hn'
      obtain ⟨rfl, h5⟩ := hF n m m' (ha n (List.mem_of_getElem? hn)) hp hp'
      rw [hm, hm']
      exact ⟨rfl, fun x hx => by cases hx; exact h5⟩
  refine ⟨fun i => (key i).1, fun n hn => ?_⟩
  obtain ⟨j, hj⟩ := List.mem_iff_getElem?.mp hn
  exact (key j).2 n hj

theorem inlineRule_ren {lk lk' : String → Option Nat} (hlk : ∀ nm, nm ∉ X → lk' nm = (lk nm).map φ) {K K' : List LeafKind} (hK : ∀ i : Nat, K'[φ i]? = K[i]?)
    {L L' : List Node} (hL : Shifted φ L L') (ha : ∀ n ∈ L, n.Avoids X) : ∀ (k k' i : Nat) (o o' : Option Node), inlineRule lk K L k i = .ok o →
      inlineRule lk' K' L' k' (φ i) = .ok o' → SameLink φ X o o' := by
  intro k
  induction k with
  | zero =>
    intro k' i o o' h h'
    unfold inlineRule at h h'
    rw [hK i, hL i] at h'
    split at h
    · cases h
    · rename_i hne
      cases h
      split at h'
      · rename_i n h1 h2
        cases hn : L[i]? with
        | none => rw [hn] at h2; cases h2
        | some m => exact absurd hn (hne m h1)
      · cases h'
        exact ⟨rfl, fun n hn => by cases hn⟩
  | succ k ih =>
    intro k' i o o' h h'
    unfold inlineRule at h h'
    rw [hK i, hL i] at h'
    split at h
    · rename_i n h1 h2
      rw [h1, h2] at h'
      simp only [Option.map_some] at h h'
      cases k' with
      | zero => cases h'
      | succ k' =>
        simp only [exceptBindOk, exceptPureOk] at h h'
        obtain ⟨m, hm, rfl⟩ := h
        obtain ⟨m', hm', rfl⟩ := h'
        obtain ⟨rfl, h5⟩ := inline_ren (X := X) (φ := φ) (fun nm o o' hn h h' => by
          rw [hlk nm hn] at h'
          cases hid : lk nm with
          | none => rw [hid] at h h'; cases h; cases h'; exact ⟨rfl, fun n hn => by cases hn⟩
          | some id => rw [hid] at h h'; exact ih k' id o o' h h') (fun i o o' h h' => ih k' i o o' h h') n (ha n (List.mem_of_getElem? h2)) hm hm'
        exact ⟨rfl, fun n hn => by cases hn; exact h5⟩
    · rename_i hne
      cases h
      split at h'
      · rename_i n h1 h2
        cases hn : L[i]? with
        | none => rw [hn] at h2; cases h2
        | some m => exact absurd hn (hne m h1)
      · cases h'
        exact ⟨rfl, fun n hn => by cases hn⟩

/-- The passes after the numbering. -/
theorem postinit_ren {s s' : Conn} (hlk : ∀ nm, nm ∉ X → s'.lookup nm = (s.lookup nm).map φ) (hmono : ∀ i j, i < j ↔ φ i < φ j)
    (hl : Shifted φ (s.id2rule.map (·.2.2)) (s'.id2rule.map (·.2.2))) (hK : ∀ i : Nat, (s'.id2rule.map (·.2.1))[φ i]? = (s.id2rule.map (·.2.1))[i]?)
    (ha : ∀ n ∈ s.id2rule.map (·.2.2), n.Avoids X) (hk : ∀ n ∈ s.id2rule.map (·.2.2), n.isLink = false) {r r' : Node} (hr : r' = r.renamed φ id) (har : r.Avoids X)
    {R R1 R2 R' R1' R2' : List Node} {r1 r2 r3 r1' r2' r3' : Node}
    (h1 : prepAll s.lookup (s.id2rule.map (·.2.2)) [] = .ok R) (h1' : prepAll s'.lookup (s'.id2rule.map (·.2.2)) [] = .ok R')
    (h2 : r.prep (fun m => m.hasLabels (followLabels s.lookup R R.length)) R = .ok r1) (h2' : r'.prep (fun m => m.hasLabels (followLabels s'.lookup R' R'.length)) R' = .ok r1')
    {lb lb' : Node → Except Panic Bool} (hlb : ∀ n b, lb n = .ok b → n.hasLabels (followLabels s.lookup R R.length) = .ok b)
    (hlb' : ∀ n b, lb' n = .ok b → n.hasLabels (followLabels s'.lookup R' R'.length) = .ok b)
    (h3 : setTypesAll lb R = .ok R1) (h3' : setTypesAll lb' R' = .ok R1') (h4 : r1.setTypes lb = .ok r2) (h4' : r1'.setTypes lb' = .ok r2')
    {t t' : String → Except Panic (Option Node)} {k k' : Nat → Except Panic (Option Node)} (ht : t = fun nm => match s.lookup nm with | some id => k id | none => .ok none)
    (ht' : t' = fun nm => match s'.lookup nm with | some id => k' id | none => .ok none) (hkk : k = inlineRule s.lookup (s.id2rule.map (·.2.1)) R1 R1.length)
    (hkk' : k' = inlineRule s'.lookup (s'.id2rule.map (·.2.1)) R1' R1'.length)
    (h5 : inlineAll t k R1 = .ok R2) (h5' : inlineAll t' k' R1' = .ok R2') (h6 : r2.inline t k = .ok r3) (h6' : r2'.inline t' k' = .ok r3') :
    Shifted φ R2 R2' ∧ (∀ n ∈ R2, n.Avoids X) ∧ r3' = r3.renamed φ id := by
  subst hr
  obtain ⟨hS, hA, hL⟩ := prepAll_ren hlk hmono hl ha hk h1 h1'
  have hlab : ∀ (x : Node) (b b' : Bool), x.Avoids X → x.hasLabels (followLabels s.lookup R R.length) = .ok b →
      (x.renamed φ id).hasLabels (followLabels s'.lookup R' R'.length) = .ok b' → b' = b := fun x b b' hx hb hb' =>
    hasLabels_ren (followLabels_ren hlk hS hA _ _) x hx hb hb'
  obtain ⟨rfl, ha1⟩ := prep_ren (X := X) hlab hS hL r har h2 h2'
  have hlab2 : ∀ (x : Node) (b b' : Bool), x.Avoids X → lb x = .ok b → lb' (x.renamed φ id) = .ok b' → b' = b := fun x b b' hx hb hb' =>
    hlab x b b' hx (hlb x b hb) (hlb' _ b' hb')
  obtain ⟨g1, g2⟩ := setTypesAll_at h3
  obtain ⟨g1', g2'⟩ := setTypesAll_at h3'
  obtain ⟨hS1, hA1⟩ := pass_ren (fun n m m' hn h h' => setTypes_ren hlab2 n hn h h') hS hA g1 g2 g1' g2'
  obtain ⟨rfl, ha2⟩ := setTypes_ren hlab2 r1 ha1 h4 h4'
  have hlink : ∀ i o o', k i = .ok o → k' (φ i) = .ok o' → SameLink φ X o o' := fun i o o' h h' => by
    rw [hkk] at h
    rw [hkk'] at h'
    exact inlineRule_ren hlk hK hS1 hA1 _ _ i o o' h h'
  have htgt : ∀ nm o o', nm ∉ X → t nm = .ok o → t' nm = .ok o' → SameLink φ X o o' := fun nm o o' hn h h' => by
    rw [ht] at h
    rw [ht'] at h'
    dsimp only at h h'
    rw [hlk nm hn] at h'
    cases hid : s.lookup nm with
    | none => rw [hid] at h h'; cases h; cases h'; exact ⟨rfl, fun n hn => by cases hn⟩
    | some id => rw [hid] at h h'; exact hlink id o o' h h'
  obtain ⟨g1, g2⟩ := inlineAll_at h5
  obtain ⟨g1', g2'⟩ := inlineAll_at h5'
  obtain ⟨hS2, hA2⟩ := pass_ren (fun n m m' hn h h' => inline_ren htgt hlink n hn h h') hS1 hA1 g1 g2 g1' g2'
  obtain ⟨rfl, -⟩ := inline_ren htgt hlink r2 ha2 h6 h6'
  exact ⟨hS2, hA2, rfl⟩

end Joeson
