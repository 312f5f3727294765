import Verif.Proofs.Build2
import Verif.Spec.Renamed
/-! # What the passes of `postinit` make of rules that have other numbers -/

namespace Joeson
variable {φ : Nat → Nat} {X : List String}

/-- The parser mentions none of the names. -/
def Node.Avoids (X : List String) (n : Node) : Prop := ∀ nm ∈ n.refs, nm ∉ X

/-- None of them mentions one. -/
def AvoidsAll (X : List String) (l : List Node) : Prop := ∀ nm ∈ refsAll l, nm ∉ X

theorem AvoidsAll.head {n : Node} {l : List Node} (h : AvoidsAll X (n :: l)) : n.Avoids X := fun nm hn => h nm (by rw [refsAll]; exact List.mem_append_left _ hn)
theorem AvoidsAll.tail {n : Node} {l : List Node} (h : AvoidsAll X (n :: l)) : AvoidsAll X l := fun nm hn => h nm (by rw [refsAll]; exact List.mem_append_right _ hn)
theorem AvoidsAll.cons {n : Node} {l : List Node} (h : n.Avoids X) (hl : AvoidsAll X l) : AvoidsAll X (n :: l) := fun nm hn => by
  rw [refsAll] at hn
  exact (List.mem_append.mp hn).elim (h nm) (hl nm)
theorem AvoidsAll.nil : AvoidsAll X [] := fun nm hn => by cases hn

theorem Node.Avoids.pat {i : Info} {v j : Node} {mn mx : Int} (h : (Node.pattern i v (some j) mn mx).Avoids X) : v.Avoids X ∧ j.Avoids X := by
  constructor
  · exact fun nm hn => h nm (by rw [Node.refs]; exact List.mem_append_left _ hn)
  · exact fun nm hn => h nm (by rw [Node.refs]; exact List.mem_append_right _ hn)
theorem Node.Avoids.mkPat {i : Info} {v j : Node} {mn mx : Int} (h : v.Avoids X) (hj : j.Avoids X) : (Node.pattern i v (some j) mn mx).Avoids X := fun nm hn => by
  rw [Node.refs] at hn
  exact (List.mem_append.mp hn).elim (h nm) (hj nm)

/-- The rules of one list among those of another. -/
def Shifted (φ : Nat → Nat) (L L' : List Node) : Prop := ∀ j : Nat, L'[φ j]? = (L[j]?).map (·.renamed φ id)

theorem renamed_info (n : Node) (h : n.isLink = false) : (n.renamed φ id).info = n.info := by
  match n, h with
  | .pattern _ _ none _ _, _ | .pattern _ _ (some _) _ _, _ => rfl
  | .str _ _, _ | .regex _ _, _ | .choice _ _, _ | .seq _ _ _, _ | .exist _ _, _ | .look _ _, _ | .not _ _, _ | .ref _ _, _ => rfl

/-! ## Labels -/

section
variable {f f' : String → Except Panic Bool} (hf : ∀ nm b b', nm ∉ X → f nm = .ok b → f' nm = .ok b' → b' = b)
include hf

mutual
theorem hasLabels_ren : ∀ n : Node, n.Avoids X → ∀ {b b' : Bool}, n.hasLabels f = .ok b → (n.renamed φ id).hasLabels f' = .ok b' → b' = b
  | .str _ _, _, b, b', h, h' => by cases h; cases h'; rfl
  | .regex _ _, _, b, b', h, h' => by cases h; cases h'; rfl
  | .choice _ _, _, b, b', h, h' => by cases h; cases h'; rfl
  | .look _ _, _, b, b', h, h' => by cases h; cases h'; rfl
  | .not _ _, _, b, b', h, h' => by cases h; cases h'; rfl
  | .pattern _ _ none _ _, _, b, b', h, h' => by cases h; cases h'; rfl
  | .pattern _ _ (some _) _ _, _, b, b', h, h' => by cases h; cases h'; rfl
  | .rule _, _, b, b', h, h' => by cases h; cases h'; rfl
  | .ref i nm, ha, b, b', h, h' => by
    simp only [Node.renamed, Node.hasLabels] at h h'
    have hi : (i.renamed id).label = i.label := rfl
    rw [hi] at h'
    split at h <;> rename_i h0
    · rw [if_pos h0] at h'
      exact hf nm b b' (ha nm (by simp [Node.refs])) h h'
    · rw [if_neg h0] at h'
      cases h; cases h'; rfl
  | .exist i n, ha, b, b', h, h' => by
    simp only [Node.renamed, Node.hasLabels] at h h'
    have hi : (i.renamed id).label = i.label := rfl
    rw [hi] at h'
    split at h <;> rename_i h0
    · rw [if_pos h0] at h'
      cases h; cases h'; rfl
    · rw [if_neg h0] at h'
      exact hasLabels_ren n ha h h'
  | .seq i r l, ha, b, b', h, h' => by
    simp only [Node.renamed, Node.hasLabels] at h h'
    exact anyLabels_ren l ha h h'
theorem anyLabels_ren : ∀ l : List Node, AvoidsAll X l → ∀ {b b' : Bool}, Node.anyLabels f l = .ok b → Node.anyLabels f' (renamedAll φ id l) = .ok b' → b' = b
  | [], _, b, b', h, h' => by cases h; cases h'; rfl
  | n :: l, ha, b, b', h, h' => by
    simp only [renamedAll, Node.anyLabels, exceptBindOk, exceptPureOk] at h h'
    obtain ⟨x, hx, y, hy, rfl⟩ := h
    obtain ⟨x', hx', y', hy', rfl⟩ := h'
    rw [hasLabels_ren n ha.head hx hx', anyLabels_ren l ha.tail hy hy']
end
end

theorem followLabels_ren {lk lk' : String → Option Nat} (hlk : ∀ nm, nm ∉ X → lk' nm = (lk nm).map φ) {L L' : List Node} (hL : Shifted φ L L')
    (ha : ∀ n ∈ L, n.Avoids X) : ∀ (k k' : Nat) (nm : String) (b b' : Bool), nm ∉ X → followLabels lk L k nm = .ok b → followLabels lk' L' k' nm = .ok b' → b' = b := by
  intro k
  induction k with
  | zero =>
    intro k' nm b b' hn h h'
    unfold followLabels at h
    split at h
    · cases h
    · cases h
  | succ k ih =>
    intro k' nm b b' hn h h'
    unfold followLabels at h h'
    rw [hlk nm hn] at h'
    cases hid : lk nm with
    | none => rw [hid] at h; cases h
    | some id =>
      rw [hid] at h h'
      simp only [Option.map_some] at h h'
      rw [hL id] at h'
      cases hn : L[id]? with
      | none => rw [hn] at h; cases h
      | some n =>
        rw [hn] at h h'
        cases k' with
        | zero => cases h'
        | succ k' =>
          exact hasLabels_ren (fun nm b b' hx => ih k' nm b b' hx) n (ha n (List.mem_of_getElem? hn)) h h'

/-! ## Captures -/

mutual
theorem captures_ren : ∀ n : Node, (n.renamed φ id).captures = n.captures
  | .str _ _ | .regex _ _ | .choice _ _ | .look _ _ | .not _ _ | .pattern _ _ none _ _ | .pattern _ _ (some _) _ _ | .ref _ _ | .rule _ => rfl
  | .seq _ _ l => by rw [Node.renamed, Node.captures, Node.captures, capturesAll_ren l]
  | .exist _ n => by rw [Node.renamed, Node.captures, Node.captures, captures_ren n]
theorem capturesAll_ren : ∀ l : List Node, Node.capturesAll (renamedAll φ id l) = Node.capturesAll l
  | [] => rfl
  | n :: l => by rw [renamedAll, Node.capturesAll, Node.capturesAll, captures_ren n, capturesAll_ren l]
end

theorem captureOf_ren {L L' : List Node} (hL : Shifted φ L L') (hk : ∀ n ∈ L, n.isLink = false) (n : Node) :
    captureOf L' (n.renamed φ id) = captureOf L n := by
  by_cases hl : n.isLink = false
  · have h1 : ∀ (R : List Node) (m : Node), m.isLink = false → captureOf R m = m.info.capture := by
      intro R m hm
      cases m <;> first | rfl | cases hm
    rw [h1 L n hl, h1 L' _ (by
      match n, hl with
      | .pattern _ _ none _ _, _ | .pattern _ _ (some _) _ _, _ => rfl
      | .str _ _, _ | .regex _ _, _ | .choice _ _, _ | .seq _ _ _, _ | .exist _ _, _ | .look _ _, _ | .not _ _, _ | .ref _ _, _ => rfl), renamed_info n hl]
  · cases n <;> first | exact absurd rfl hl | skip
    rename_i id
    simp only [captureOf, Node.renamed, Grammar.info, hL id]
    cases hn : L[id]? with
    | none => rfl
    | some m => simp only [Option.map_some, renamed_info m (hk m (List.mem_of_getElem? hn))]

/-! ## The passes -/

section
variable {labels labels' : Node → Except Panic Bool}
  (hl : ∀ (n : Node) (b b' : Bool), n.Avoids X → labels n = .ok b → labels' (n.renamed φ id) = .ok b' → b' = b)
include hl

section
variable {L L' : List Node} (hL : Shifted φ L L') (hk : ∀ n ∈ L, n.isLink = false)
include hL hk

mutual
theorem prep_ren : ∀ n : Node, n.Avoids X → ∀ {m m' : Node}, n.prep labels L = .ok m → (n.renamed φ id).prep labels' L' = .ok m' →
    m' = m.renamed φ id ∧ m.Avoids X
  | .str _ _, ha, m, m', h, h' => by cases h; cases h'; exact ⟨rfl, ha⟩
  | .regex _ _, ha, m, m', h, h' => by cases h; cases h'; exact ⟨rfl, ha⟩
  | .ref _ _, ha, m, m', h, h' => by cases h; cases h'; exact ⟨rfl, ha⟩
  | .rule _, ha, m, m', h, h' => by cases h; cases h'; exact ⟨rfl, ha⟩
  | .choice i l, ha, m, m', h, h' => by
    simp only [Node.renamed, Node.prep, exceptBindOk, exceptPureOk] at h h'
    obtain ⟨x, hx, rfl⟩ := h
    obtain ⟨x', hx', rfl⟩ := h'
    obtain ⟨rfl, h2⟩ := prepList_ren l ha hx hx'
    refine ⟨?_, h2⟩
    rw [Node.renamed]
    have : (renamedAll φ id x).all (captureOf L') = x.all (captureOf L) := by
      clear hx hx' h2
      induction x with
      | nil => rfl
      | cons y x ih => rw [renamedAll, List.all_cons, List.all_cons, ih, captureOf_ren hL hk]
    rw [this]
    rfl
  | .seq i r l, ha, m, m', h, h' => by
    simp only [Node.renamed, Node.prep, exceptBindOk, exceptPureOk] at h h'
    obtain ⟨x, hx, rfl⟩ := h
    obtain ⟨x', hx', rfl⟩ := h'
    obtain ⟨rfl, h2⟩ := prepList_ren l ha hx hx'
    exact ⟨rfl, h2⟩
  | .exist i n, ha, m, m', h, h' => by
    simp only [Node.renamed, Node.prep, exceptBindOk, exceptPureOk] at h h'
    obtain ⟨x, hx, b, hb, rfl⟩ := h
    obtain ⟨x', hx', b', hb', rfl⟩ := h'
    obtain ⟨rfl, h2⟩ := prep_ren n ha hx hx'
    obtain rfl := hl (.exist i x) b b' h2 hb hb'
    refine ⟨?_, h2⟩
    rw [captures_ren]
    rfl
  | .look i n, ha, m, m', h, h' => by
    simp only [Node.renamed, Node.prep, exceptBindOk, exceptPureOk] at h h'
    obtain ⟨x, hx, rfl⟩ := h
    obtain ⟨x', hx', rfl⟩ := h'
    obtain ⟨rfl, h2⟩ := prep_ren n ha hx hx'
    exact ⟨rfl, h2⟩
  | .not i n, ha, m, m', h, h' => by
    simp only [Node.renamed, Node.prep, exceptBindOk, exceptPureOk] at h h'
    obtain ⟨x, hx, rfl⟩ := h
    obtain ⟨x', hx', rfl⟩ := h'
    obtain ⟨rfl, h2⟩ := prep_ren n ha hx hx'
    exact ⟨rfl, h2⟩
  | .pattern i v none mn mx, ha, m, m', h, h' => by
    simp only [Node.renamed, Node.prep, exceptBindOk, exceptPureOk] at h h'
    obtain ⟨x, hx, rfl⟩ := h
    obtain ⟨x', hx', rfl⟩ := h'
    obtain ⟨rfl, h2⟩ := prep_ren v ha hx hx'
    exact ⟨rfl, h2⟩
  | .pattern i v (some j) mn mx, ha, m, m', h, h' => by
    simp only [Node.renamed, Node.prep, exceptBindOk, exceptPureOk] at h h'
    obtain ⟨x, hx, y, hy, rfl⟩ := h
    obtain ⟨x', hx', y', hy', rfl⟩ := h'
    obtain ⟨rfl, h2⟩ := prep_ren v ha.pat.1 hx hx'
    obtain ⟨rfl, h3⟩ := prep_ren j ha.pat.2 hy hy'
    exact ⟨rfl, .mkPat h2 h3⟩
theorem prepList_ren : ∀ l : List Node, AvoidsAll X l → ∀ {m m' : List Node}, Node.prepList labels L l = .ok m →
    Node.prepList labels' L' (renamedAll φ id l) = .ok m' → m' = renamedAll φ id m ∧ AvoidsAll X m
  | [], ha, m, m', h, h' => by cases h; cases h'; exact ⟨rfl, .nil⟩
  | n :: l, ha, m, m', h, h' => by
    simp only [renamedAll, Node.prepList, exceptBindOk, exceptPureOk] at h h'
    obtain ⟨x, hx, y, hy, rfl⟩ := h
    obtain ⟨x', hx', y', hy', rfl⟩ := h'
    obtain ⟨rfl, h2⟩ := prep_ren n ha.head hx hx'
    obtain ⟨rfl, h3⟩ := prepList_ren l ha.tail hy hy'
    exact ⟨rfl, .cons h2 h3⟩
end
end

mutual
theorem setTypes_ren : ∀ n : Node, n.Avoids X → ∀ {m m' : Node}, n.setTypes labels = .ok m → (n.renamed φ id).setTypes labels' = .ok m' →
    m' = m.renamed φ id ∧ m.Avoids X
  | .str _ _, ha, m, m', h, h' => by cases h; cases h'; exact ⟨rfl, ha⟩
  | .regex _ _, ha, m, m', h, h' => by cases h; cases h'; exact ⟨rfl, ha⟩
  | .ref _ _, ha, m, m', h, h' => by cases h; cases h'; exact ⟨rfl, ha⟩
  | .rule _, ha, m, m', h, h' => by cases h; cases h'; exact ⟨rfl, ha⟩
  | .choice i l, ha, m, m', h, h' => by
    simp only [Node.renamed, Node.setTypes, exceptBindOk, exceptPureOk] at h h'
    obtain ⟨x, hx, rfl⟩ := h
    obtain ⟨x', hx', rfl⟩ := h'
    obtain ⟨rfl, h2⟩ := setTypesList_ren l ha hx hx'
    exact ⟨rfl, h2⟩
  | .seq i r l, ha, m, m', h, h' => by
    simp only [Node.renamed, Node.setTypes, exceptBindOk, exceptPureOk] at h h'
    obtain ⟨b, hb, x, hx, rfl⟩ := h
    obtain ⟨b', hb', x', hx', rfl⟩ := h'
    obtain ⟨rfl, h2⟩ := setTypesList_ren l ha hx hx'
    obtain rfl := hl (.seq i r l) b b' ha hb (by rw [Node.renamed]; exact hb')
    refine ⟨?_, h2⟩
    rw [capturesAll_ren]
    rfl
  | .exist i n, ha, m, m', h, h' => by
    simp only [Node.renamed, Node.setTypes, exceptBindOk, exceptPureOk] at h h'
    obtain ⟨x, hx, rfl⟩ := h
    obtain ⟨x', hx', rfl⟩ := h'
    obtain ⟨rfl, h2⟩ := setTypes_ren n ha hx hx'
    exact ⟨rfl, h2⟩
  | .look i n, ha, m, m', h, h' => by
    simp only [Node.renamed, Node.setTypes, exceptBindOk, exceptPureOk] at h h'
    obtain ⟨x, hx, rfl⟩ := h
    obtain ⟨x', hx', rfl⟩ := h'
    obtain ⟨rfl, h2⟩ := setTypes_ren n ha hx hx'
    exact ⟨rfl, h2⟩
  | .not i n, ha, m, m', h, h' => by
    simp only [Node.renamed, Node.setTypes, exceptBindOk, exceptPureOk] at h h'
    obtain ⟨x, hx, rfl⟩ := h
    obtain ⟨x', hx', rfl⟩ := h'
    obtain ⟨rfl, h2⟩ := setTypes_ren n ha hx hx'
    exact ⟨rfl, h2⟩
  | .pattern i v none mn mx, ha, m, m', h, h' => by
    simp only [Node.renamed, Node.setTypes, exceptBindOk, exceptPureOk] at h h'
    obtain ⟨x, hx, rfl⟩ := h
    obtain ⟨x', hx', rfl⟩ := h'
    obtain ⟨rfl, h2⟩ := setTypes_ren v ha hx hx'
    exact ⟨rfl, h2⟩
  | .pattern i v (some j) mn mx, ha, m, m', h, h' => by
    simp only [Node.renamed, Node.setTypes, exceptBindOk, exceptPureOk] at h h'
    obtain ⟨x, hx, y, hy, rfl⟩ := h
    obtain ⟨x', hx', y', hy', rfl⟩ := h'
    obtain ⟨rfl, h2⟩ := setTypes_ren v ha.pat.1 hx hx'
    obtain ⟨rfl, h3⟩ := setTypes_ren j ha.pat.2 hy hy'
    exact ⟨rfl, .mkPat h2 h3⟩
theorem setTypesList_ren : ∀ l : List Node, AvoidsAll X l → ∀ {m m' : List Node}, Node.setTypesList labels l = .ok m →
    Node.setTypesList labels' (renamedAll φ id l) = .ok m' → m' = renamedAll φ id m ∧ AvoidsAll X m
  | [], ha, m, m', h, h' => by cases h; cases h'; exact ⟨rfl, .nil⟩
  | n :: l, ha, m, m', h, h' => by
    simp only [renamedAll, Node.setTypesList, exceptBindOk, exceptPureOk] at h h'
    obtain ⟨x, hx, y, hy, rfl⟩ := h
    obtain ⟨x', hx', y', hy', rfl⟩ := h'
    obtain ⟨rfl, h2⟩ := setTypes_ren n ha.head hx hx'
    obtain ⟨rfl, h3⟩ := setTypesList_ren l ha.tail hy hy'
    exact ⟨rfl, .cons h2 h3⟩
end
end

/-- The same parser, or none, in both. -/
def SameLink (φ : Nat → Nat) (X : List String) (o o' : Option Node) : Prop := o' = o.map (·.renamed φ id) ∧ ∀ n, o = some n → n.Avoids X

section
variable {t t' : String → Except Panic (Option Node)} {k k' : Nat → Except Panic (Option Node)}
  (ht : ∀ nm o o', nm ∉ X → t nm = .ok o → t' nm = .ok o' → SameLink φ X o o') (hk : ∀ i o o', k i = .ok o → k' (φ i) = .ok o' → SameLink φ X o o')
include ht hk

mutual
theorem inline_ren : ∀ n : Node, n.Avoids X → ∀ {m m' : Node}, n.inline t k = .ok m → (n.renamed φ id).inline t' k' = .ok m' →
    m' = m.renamed φ id ∧ m.Avoids X
  | .str _ _, ha, m, m', h, h' => by cases h; cases h'; exact ⟨rfl, ha⟩
  | .regex _ _, ha, m, m', h, h' => by cases h; cases h'; exact ⟨rfl, ha⟩
  | .ref i nm, ha, m, m', h, h' => by
    simp only [Node.renamed, Node.inline, exceptBindOk] at h h'
    obtain ⟨o, ho, h⟩ := h
    obtain ⟨o', ho', h'⟩ := h'
    obtain ⟨rfl, h2⟩ := ht nm o o' (ha nm (by simp [Node.refs])) ho ho'
    cases o with
    | none =>
      simp only [exceptPureOk] at h
      simp only [Option.map_none, exceptPureOk] at h'
      subst h h'
      exact ⟨rfl, ha⟩
    | some x =>
      simp only [exceptPureOk] at h
      simp only [Option.map_some, exceptPureOk] at h'
      subst h h'
      exact ⟨rfl, AvoidsAll.cons (h2 x rfl) .nil⟩
  | .rule i, ha, m, m', h, h' => by
    simp only [Node.renamed, Node.inline, exceptBindOk] at h h'
    obtain ⟨o, ho, h⟩ := h
    obtain ⟨o', ho', h'⟩ := h'
    obtain ⟨rfl, h2⟩ := hk i o o' ho ho'
    cases o with
    | none =>
      simp only [exceptPureOk] at h
      simp only [Option.map_none, exceptPureOk] at h'
      subst h h'
      exact ⟨rfl, ha⟩
    | some x =>
      simp only [exceptPureOk] at h
      simp only [Option.map_some, exceptPureOk] at h'
      subst h h'
      exact ⟨rfl, h2 x rfl⟩
  | .choice i l, ha, m, m', h, h' => by
    simp only [Node.renamed, Node.inline, exceptBindOk, exceptPureOk] at h h'
    obtain ⟨x, hx, rfl⟩ := h
    obtain ⟨x', hx', rfl⟩ := h'
    obtain ⟨rfl, h2⟩ := inlineList_ren l ha hx hx'
    exact ⟨rfl, h2⟩
  | .seq i r l, ha, m, m', h, h' => by
    simp only [Node.renamed, Node.inline, exceptBindOk, exceptPureOk] at h h'
    obtain ⟨x, hx, rfl⟩ := h
    obtain ⟨x', hx', rfl⟩ := h'
    obtain ⟨rfl, h2⟩ := inlineList_ren l ha hx hx'
    exact ⟨rfl, h2⟩
  | .exist i n, ha, m, m', h, h' => by
    simp only [Node.renamed, Node.inline, exceptBindOk, exceptPureOk] at h h'
    obtain ⟨x, hx, rfl⟩ := h
    obtain ⟨x', hx', rfl⟩ := h'
    obtain ⟨rfl, h2⟩ := inline_ren n ha hx hx'
    exact ⟨rfl, h2⟩
  | .look i n, ha, m, m', h, h' => by
    simp only [Node.renamed, Node.inline, exceptBindOk, exceptPureOk] at h h'
    obtain ⟨x, hx, rfl⟩ := h
    obtain ⟨x', hx', rfl⟩ := h'
    obtain ⟨rfl, h2⟩ := inline_ren n ha hx hx'
    exact ⟨rfl, h2⟩
  | .not i n, ha, m, m', h, h' => by
    simp only [Node.renamed, Node.inline, exceptBindOk, exceptPureOk] at h h'
    obtain ⟨x, hx, rfl⟩ := h
    obtain ⟨x', hx', rfl⟩ := h'
    obtain ⟨rfl, h2⟩ := inline_ren n ha hx hx'
    exact ⟨rfl, h2⟩
  | .pattern i v none mn mx, ha, m, m', h, h' => by
    simp only [Node.renamed, Node.inline, exceptBindOk, exceptPureOk] at h h'
    obtain ⟨x, hx, rfl⟩ := h
    obtain ⟨x', hx', rfl⟩ := h'
    obtain ⟨rfl, h2⟩ := inline_ren v ha hx hx'
    exact ⟨rfl, h2⟩
  | .pattern i v (some j) mn mx, ha, m, m', h, h' => by
    simp only [Node.renamed, Node.inline, exceptBindOk, exceptPureOk] at h h'
    obtain ⟨x, hx, y, hy, rfl⟩ := h
    obtain ⟨x', hx', y', hy', rfl⟩ := h'
    obtain ⟨rfl, h2⟩ := inline_ren v ha.pat.1 hx hx'
    obtain ⟨rfl, h3⟩ := inline_ren j ha.pat.2 hy hy'
    exact ⟨rfl, .mkPat h2 h3⟩
theorem inlineList_ren : ∀ l : List Node, AvoidsAll X l → ∀ {m m' : List Node}, Node.inlineList t k l = .ok m →
    Node.inlineList t' k' (renamedAll φ id l) = .ok m' → m' = renamedAll φ id m ∧ AvoidsAll X m
  | [], ha, m, m', h, h' => by cases h; cases h'; exact ⟨rfl, .nil⟩
  | n :: l, ha, m, m', h, h' => by
    simp only [renamedAll, Node.inlineList, exceptBindOk, exceptPureOk] at h h'
    obtain ⟨x, hx, y, hy, rfl⟩ := h
    obtain ⟨x', hx', y', hy', rfl⟩ := h'
    obtain ⟨rfl, h2⟩ := inline_ren n ha.head hx hx'
    obtain ⟨rfl, h3⟩ := inlineList_ren l ha.tail hy hy'
    exact ⟨rfl, .cons h2 h3⟩
end
end

end Joeson
