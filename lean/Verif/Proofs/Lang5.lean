import Verif.Proofs.Lang4
import Verif.Spec.Spliced
/-!
# Grammars of rule texts can be built
-/

set_option linter.unusedVariables false
set_option linter.unusedSectionVars false

namespace Joeson.RuleText

variable {A : String → Bool}

/-! ## References labelled `@` -/

mutual
/-- References labelled `@` are to rules `A`, and none is inside something optional. -/
def Definite (A : String → Bool) : Node → Bool
  | .ref i nm => i.label != "@" || A nm
  | .choice _ l | .seq _ _ l => DefiniteAll A l
  | .exist _ n => Definite (fun _ => false) n
  | .look _ n | .not _ n => Definite A n
  | .pattern _ v none _ _ => Definite A v
  | .pattern _ v (some j) _ _ => Definite A v && Definite A j
  | _ => true
/-- The same. -/
def DefiniteAll (A : String → Bool) : List Node → Bool
  | [] => true
  | n :: l => Definite A n && DefiniteAll A l
end

mutual
theorem definite_mono {A B : String → Bool} (h : ∀ nm, A nm = true → B nm = true) : ∀ (n : Node), Definite A n = true → Definite B n = true
  | .str _ _, _ | .regex _ _, _ | .rule _, _ => rfl
  | .ref i nm, hd => by
    simp only [Definite, Bool.or_eq_true] at hd ⊢
    exact hd.imp id (h nm)
  | .choice i l, hd => definiteAll_mono h l hd
  | .seq i r l, hd => definiteAll_mono h l hd
  | .exist i n, hd => hd
  | .look i n, hd => definite_mono h n hd
  | .not i n, hd => definite_mono h n hd
  | .pattern i v none mn mx, hd => definite_mono h v hd
  | .pattern i v (some j) mn mx, hd => by
    simp only [Definite, Bool.and_eq_true] at hd ⊢
    exact ⟨definite_mono h v hd.1, definite_mono h j hd.2⟩
theorem definiteAll_mono {A B : String → Bool} (h : ∀ nm, A nm = true → B nm = true) : ∀ (l : List Node), DefiniteAll A l = true → DefiniteAll B l = true
  | [], _ => rfl
  | n :: l, hd => by
    simp only [DefiniteAll, Bool.and_eq_true] at hd ⊢
    exact ⟨definite_mono h n hd.1, definiteAll_mono h l hd.2⟩
end

theorem definite_setInfo {n : Node} (h : Definite A n = true) {f : Info → Info} (hf : ∀ i, i.label ≠ "@" → (f i).label ≠ "@") :
    Definite A (n.setInfo f) = true := by
  cases n with
  | ref i nm =>
    simp only [Definite, Bool.or_eq_true, bne_iff_ne] at h
    show ((f i).label != "@" || A nm) = true
    rw [Bool.or_eq_true, bne_iff_ne]
    exact h.imp (hf i) id
  | pattern i v j mn mx => cases j <;> exact h
  | str | regex | choice | seq | exist | look | not | rule => exact h

mutual
theorem definite_attach : ∀ (n : Node) {A : String → Bool} {rn : String} {p : Bool}, Definite A n = true → Definite A (n.attach rn p) = true
  | .str _ _, _, _, _, _ | .regex _ _, _, _, _, _ | .rule _, _, _, _, _ => rfl
  | .ref i nm, _, _, _, h => h
  | .choice i l, _, _, _, h => definiteAll_attach l h
  | .seq i r l, _, _, _, h => definiteAll_attach l h
  | .exist i n, _, _, _, h => definite_attach n h
  | .look i n, _, _, _, h => definite_attach n h
  | .not i n, _, _, _, h => definite_attach n h
  | .pattern i v none mn mx, _, _, _, h => definite_attach v h
  | .pattern i v (some j) mn mx, A, rn, p, h => by
    simp only [Definite, Node.attach, Bool.and_eq_true] at h ⊢
    exact ⟨definite_attach v h.1, definite_attach j h.2⟩
theorem definiteAll_attach : ∀ (l : List Node) {A : String → Bool} {rn : String} {p : Bool}, DefiniteAll A l = true → DefiniteAll A (Node.attachList rn p l) = true
  | [], _, _, _, _ => rfl
  | n :: l, A, rn, p, h => by
    simp only [DefiniteAll, Node.attachList, Bool.and_eq_true] at h ⊢
    exact ⟨definite_attach n h.1, definiteAll_attach l h.2⟩
end

mutual
theorem definite_labels {f : String → Except Panic Bool} : ∀ (n : Node) {A : String → Bool}, (∀ nm, A nm = true → ∃ x, f nm = .ok x) →
    Definite A n = true → ∃ x, n.hasLabels f = .ok x
  | .str _ _, _, _, _ | .regex _ _, _, _, _ | .rule _, _, _, _ | .choice _ _, _, _, _ | .look _ _, _, _, _ | .not _ _, _, _, _
  | .pattern _ _ _ _ _, _, _, _ => ⟨_, rfl⟩
  | .ref i nm, A, hA, h => by
    simp only [Definite, Bool.or_eq_true, bne_iff_ne] at h
    rw [Node.hasLabels]
    split
    · rename_i hl
      exact hA nm (h.resolve_left (fun h => h hl))
    · exact ⟨_, rfl⟩
  | .seq i r l, A, hA, h => by
    obtain ⟨x, hx⟩ := definiteAll_labels (f := f) l hA h
    exact ⟨x, by rw [Node.hasLabels, hx]⟩
  | .exist i n, A, hA, h => by
    obtain ⟨x, hx⟩ := definite_labels (f := f) n (A := fun _ => false) (fun _ h => by cases h) h
    rw [Node.hasLabels]
    split
    · exact ⟨_, rfl⟩
    · exact ⟨x, hx⟩
theorem definiteAll_labels {f : String → Except Panic Bool} : ∀ (l : List Node) {A : String → Bool}, (∀ nm, A nm = true → ∃ x, f nm = .ok x) →
    DefiniteAll A l = true → ∃ x, Node.anyLabels f l = .ok x
  | [], _, _, _ => ⟨_, rfl⟩
  | n :: l, A, hA, h => by
    simp only [DefiniteAll, Bool.and_eq_true] at h
    obtain ⟨x, hx⟩ := definite_labels (f := f) n hA h.1
    obtain ⟨y, hy⟩ := definiteAll_labels (f := f) l hA h.2
    exact ⟨x || y, by rw [Node.anyLabels, hx, hy]; rfl⟩
end

theorem definite_none {n : Node} (h : Definite (fun _ => false) n = true) : Definite A n = true :=
  definite_mono (fun _ h => by cases h) n h

section
variable {labels : Node → Except Panic Bool} (hL : ∀ n, Definite (fun _ => false) n = true → ∃ x, labels n = .ok x)
include hL

mutual
theorem definite_prep {rules : List Node} : ∀ (n : Node) {A : String → Bool}, Definite A n = true → ∃ n', n.prep labels rules = .ok n' ∧ Definite A n' = true
  | .str _ _, _, h | .regex _ _, _, h | .rule _, _, h | .ref _ _, _, h => ⟨_, rfl, h⟩
  | .choice i l, A, h => by
    obtain ⟨l', hl, hd⟩ := definiteAll_prep (rules := rules) l h
    refine ⟨_, by rw [Node.prep, hl]; rfl, ?_⟩
    exact hd
  | .seq i r l, A, h => by
    obtain ⟨l', hl, hd⟩ := definiteAll_prep (rules := rules) l h
    refine ⟨_, by rw [Node.prep, hl]; rfl, ?_⟩
    exact hd
  | .exist i n, A, h => by
    obtain ⟨n', hn, hd⟩ := definite_prep (rules := rules) n h
    obtain ⟨x, hx⟩ := hL (.exist i n') hd
    refine ⟨_, by rw [Node.prep, hn]; show (labels (.exist i n') >>= _) = _; rw [hx]; rfl, ?_⟩
    exact hd
  | .look i n, A, h => by
    obtain ⟨n', hn, hd⟩ := definite_prep (rules := rules) n h
    refine ⟨_, by rw [Node.prep, hn]; rfl, ?_⟩
    exact hd
  | .not i n, A, h => by
    obtain ⟨n', hn, hd⟩ := definite_prep (rules := rules) n h
    refine ⟨_, by rw [Node.prep, hn]; rfl, ?_⟩
    exact hd
  | .pattern i v none mn mx, A, h => by
    obtain ⟨n', hn, hd⟩ := definite_prep (rules := rules) v h
    refine ⟨_, by rw [Node.prep, hn]; rfl, ?_⟩
    exact hd
  | .pattern i v (some j) mn mx, A, h => by
    simp only [Definite, Bool.and_eq_true] at h
    obtain ⟨n', hn, hd⟩ := definite_prep (rules := rules) v h.1
    obtain ⟨j', hj, hd'⟩ := definite_prep (rules := rules) j h.2
    refine ⟨_, by rw [Node.prep, hn, hj]; rfl, ?_⟩
    simp [Definite, hd, hd']
theorem definiteAll_prep {rules : List Node} : ∀ (l : List Node) {A : String → Bool}, DefiniteAll A l = true → ∃ l', Node.prepList labels rules l = .ok l' ∧ DefiniteAll A l' = true
  | [], _, _ => ⟨_, rfl, rfl⟩
  | n :: l, A, h => by
    simp only [DefiniteAll, Bool.and_eq_true] at h
    obtain ⟨n', hn, hd⟩ := definite_prep (rules := rules) n h.1
    obtain ⟨l', hl, hd'⟩ := definiteAll_prep (rules := rules) l h.2
    exact ⟨n' :: l', by rw [Node.prepList, hn, hl]; rfl, by simp [DefiniteAll, hd, hd']⟩
end

end

section
variable {labels : Node → Except Panic Bool} (hL : ∀ n, Definite A n = true → ∃ x, labels n = .ok x)
include hL

mutual
theorem definite_setTypes : ∀ (n : Node), Definite A n = true → ∃ n', n.setTypes labels = .ok n'
  | .str _ _, h | .regex _ _, h | .rule _, h | .ref _ _, h => ⟨_, rfl⟩
  | .choice i l, h => by
    obtain ⟨l', hl⟩ := definiteAll_setTypes l h
    exact ⟨_, by rw [Node.setTypes, hl]; rfl⟩
  | .seq i r l, h => by
    obtain ⟨l', hl⟩ := definiteAll_setTypes l h
    obtain ⟨x, hx⟩ := hL (.seq i r l) h
    exact ⟨_, by rw [Node.setTypes, hx, hl]; rfl⟩
  | .exist i n, h => by
    obtain ⟨n', hn⟩ := definite_setTypes n (definite_none h)
    exact ⟨_, by rw [Node.setTypes, hn]; rfl⟩
  | .look i n, h => by
    obtain ⟨n', hn⟩ := definite_setTypes n h
    exact ⟨_, by rw [Node.setTypes, hn]; rfl⟩
  | .not i n, h => by
    obtain ⟨n', hn⟩ := definite_setTypes n h
    exact ⟨_, by rw [Node.setTypes, hn]; rfl⟩
  | .pattern i v none mn mx, h => by
    obtain ⟨n', hn⟩ := definite_setTypes v h
    exact ⟨_, by rw [Node.setTypes, hn]; rfl⟩
  | .pattern i v (some j) mn mx, h => by
    simp only [Definite, Bool.and_eq_true] at h
    obtain ⟨n', hn⟩ := definite_setTypes v h.1
    obtain ⟨j', hj⟩ := definite_setTypes j h.2
    exact ⟨_, by rw [Node.setTypes, hn, hj]; rfl⟩
theorem definiteAll_setTypes : ∀ (l : List Node), DefiniteAll A l = true → ∃ l', Node.setTypesList labels l = .ok l'
  | [], _ => ⟨_, rfl⟩
  | n :: l, h => by
    simp only [DefiniteAll, Bool.and_eq_true] at h
    obtain ⟨n', hn⟩ := definite_setTypes n h.1
    obtain ⟨l', hl⟩ := definiteAll_setTypes l h.2
    exact ⟨n' :: l', by rw [Node.setTypesList, hn, hl]; rfl⟩
end

theorem definite_setTypesAll : ∀ (l : List Node), (∀ n ∈ l, Definite A n = true) → ∃ l', setTypesAll labels l = .ok l'
  | [], _ => ⟨_, rfl⟩
  | n :: l, h => by
    obtain ⟨n', hn⟩ := definite_setTypes hL n (h n (List.mem_cons_self ..))
    obtain ⟨l', hl⟩ := definite_setTypesAll l fun m hm => h m (List.mem_cons_of_mem _ hm)
    exact ⟨n' :: l', by rw [setTypesAll, hn, hl]; rfl⟩

end

theorem definite_prepAll {lookup : String → Option Nat} : ∀ (l d : List Node), (∀ n ∈ l, Definite A n = true) → (∀ n ∈ d, Definite A n = true) →
    ∃ l', prepAll lookup l d = .ok l' ∧ ∀ n ∈ l', Definite A n = true
  | [], d, _, hd => ⟨d, rfl, hd⟩
  | n :: l, d, h, hd => by
    obtain ⟨n', hn, hn'⟩ := definite_prep (labels := fun m => m.hasLabels (followLabels lookup d d.length)) (rules := d)
      (fun m hm => definite_labels m (A := fun _ => false) (fun _ h => by cases h) hm) n (h n (List.mem_cons_self ..))
    obtain ⟨l', hl, hd'⟩ := definite_prepAll (lookup := lookup) l (d ++ [n']) (fun m hm => h m (List.mem_cons_of_mem _ hm)) (by
      intro m hm
      rcases List.mem_append.mp hm with hm | hm
      · exact hd m hm
      · rw [List.mem_singleton.mp hm]; exact hn')
    exact ⟨l', by rw [prepAll, hn]; exact hl, hd'⟩

/-! ## Connecting -/

mutual
/-- All parsers of the tree are definite. -/
def Rules.AllDef (A : String → Bool) : Rules → Prop
  | .leaf _ _ n => Definite A n = true
  | .rank _ _ _ incl alts => AllDefs A incl ∧ AllDefs A alts
/-- The same. -/
def AllDefs (A : String → Bool) : List Rules → Prop
  | [] => True
  | x :: l => Rules.AllDef A x ∧ AllDefs A l
end

theorem allDefs_mem {l : List Rules} : AllDefs A l ↔ ∀ x ∈ l, Rules.AllDef A x := by
  induction l with
  | nil => simp [AllDefs]
  | cons x l ih => simp [AllDefs, ih]

theorem definiteAll_mem {l : List Node} : DefiniteAll A l = true ↔ ∀ n ∈ l, Definite A n = true := by
  induction l with
  | nil => simp [DefiniteAll]
  | cons x l ih => simp [DefiniteAll, ih]

/-- Objects of a tree. -/
abbrev addrsOf (l : List (Nat × String)) : List Nat := l.map (·.1)

mutual
theorem connect_total : ∀ (x : Rules), x.Plain → Rules.AllDef A x → ∀ (rn : String) (s : Conn), (addrsOf x.walk).Nodup →
    (∀ a ∈ addrsOf x.walk, a ∉ s.seen) → (∀ n ∈ s.rules, Definite A n = true) →
    ∃ n s', connect rn s x = .ok (n, s') ∧ (∀ a ∈ s'.seen, a ∈ s.seen ∨ a ∈ addrsOf x.walk) ∧ (∀ m ∈ s'.rules, Definite A m = true) ∧ Definite A n = true
  | .leaf a .part n, hp, _, _, _, _, _, _ => by
    cases hp with
    | leaf _ hk => exact absurd rfl hk
  | .leaf a .rule n, hp, hd, rn, s, _, hs, hr => by
    have hns : (s.seen.contains a && n.hasKids) = false := by
      have : a ∉ s.seen := hs a (by simp [addrsOf, Rules.walk])
      simp [this]
    refine ⟨_, _, by rw [connect, hns]; rfl, ?_, ?_, rfl⟩
    · intro c hc
      rcases List.mem_cons.mp hc with rfl | hc
      · exact .inr (by simp [addrsOf, Rules.walk])
      · exact .inl hc
    · intro m hm
      rw [post_rules] at hm
      rcases List.mem_append.mp hm with hm | hm
      · exact hr m hm
      · rw [List.mem_singleton.mp hm]; exact definite_attach n hd
  | .leaf a .wrapped n, hp, hd, rn, s, _, hs, hr => by
    have hns : (s.seen.contains a && n.hasKids) = false := by
      have : a ∉ s.seen := hs a (by simp [addrsOf, Rules.walk])
      simp [this]
    refine ⟨_, _, by rw [connect, hns]; rfl, ?_, ?_, rfl⟩
    · intro c hc
      rcases List.mem_cons.mp hc with rfl | hc
      · exact .inr (by simp [addrsOf, Rules.walk])
      · exact .inl hc
    · intro m hm
      rw [post_rules] at hm
      rcases List.mem_append.mp hm with hm | hm
      · exact hr m hm
      · rw [List.mem_singleton.mp hm]; exact definite_attach n hd
  | .rank a true i incl alts, hp, hd, rn, s, hnd, hs, hr => by
    obtain ⟨p1, p2⟩ : (∀ x ∈ incl, x.Plain) ∧ (∀ x ∈ alts, x.Plain) := by cases hp; exact ⟨by assumption, by assumption⟩
    simp only [Rules.walk, addrsOf, List.map_append] at hnd hs
    have hnd2 := (List.nodup_append.mp hnd).1
    obtain ⟨l1, s1, h1, hs1, hr1, _⟩ := connectList_total incl p1 hd.1 i.name s (nodup_left hnd2)
      (fun a ha => hs a (by simp only [List.mem_append]; exact .inl (.inl ha))) hr
    obtain ⟨l2, s2, h2, hs2, hr2, hd2⟩ := connectList_total alts p2 hd.2 i.name s1 (nodup_right hnd2) (by
      intro a ha hm
      rcases hs1 a hm with h | h
      · exact hs a (by simp only [List.mem_append]; exact .inl (.inr ha)) h
      · exact (List.nodup_append.mp hnd2).2.2 a h a ha rfl) hr1
    refine ⟨_, _, by rw [connect, h1]; show (connectList i.name s1 alts >>= _) = _; rw [h2]; rfl, ?_, ?_, rfl⟩
    · intro c hc
      simp only [Rules.walk, addrsOf, List.map_append, List.mem_append]
      rcases hs2 c hc with h | h
      · rcases hs1 c h with h | h
        · exact .inl h
        · exact .inr (.inl (.inl h))
      · exact .inr (.inl (.inr h))
    · intro m hm
      rw [post_rules] at hm
      rcases List.mem_append.mp hm with hm | hm
      · exact hr2 m hm
      · rw [List.mem_singleton.mp hm]; exact definiteAll_mem.mpr hd2
  | .rank a false i incl alts, hp, hd, rn, s, hnd, hs, hr => by
    obtain ⟨p1, p2⟩ : (∀ x ∈ incl, x.Plain) ∧ (∀ x ∈ alts, x.Plain) := by cases hp; exact ⟨by assumption, by assumption⟩
    simp only [Rules.walk, addrsOf, List.map_append] at hnd hs
    have hnd2 := (List.nodup_append.mp hnd).1
    obtain ⟨l1, s1, h1, hs1, hr1, _⟩ := connectList_total incl p1 hd.1 rn s (nodup_left hnd2)
      (fun a ha => hs a (by simp only [List.mem_append]; exact .inl (.inl ha))) hr
    obtain ⟨l2, s2, h2, hs2, hr2, hd2⟩ := connectList_total alts p2 hd.2 rn s1 (nodup_right hnd2) (by
      intro a ha hm
      rcases hs1 a hm with h | h
      · exact hs a (by simp only [List.mem_append]; exact .inl (.inr ha)) h
      · exact (List.nodup_append.mp hnd2).2.2 a h a ha rfl) hr1
    refine ⟨_, _, by rw [connect, h1]; show (connectList rn s1 alts >>= _) = _; rw [h2]; rfl, ?_, hr2, ?_⟩
    rotate_left
    · exact definiteAll_mem.mpr hd2
    intro c hc
    simp only [Rules.walk, addrsOf, List.map_append, List.mem_append]
    rcases hs2 c hc with h | h
    · rcases hs1 c h with h | h
      · exact .inl h
      · exact .inr (.inl (.inl h))
    · exact .inr (.inl (.inr h))
theorem connectList_total : ∀ (l : List Rules), (∀ x ∈ l, x.Plain) → AllDefs A l → ∀ (rn : String) (s : Conn), (addrsOf (Rules.walkList l)).Nodup →
    (∀ a ∈ addrsOf (Rules.walkList l), a ∉ s.seen) → (∀ n ∈ s.rules, Definite A n = true) →
    ∃ ns s', connectList rn s l = .ok (ns, s') ∧ (∀ a ∈ s'.seen, a ∈ s.seen ∨ a ∈ addrsOf (Rules.walkList l)) ∧
      (∀ m ∈ s'.rules, Definite A m = true) ∧ ∀ n ∈ ns, Definite A n = true
  | [], _, _, rn, s, _, _, hr => ⟨[], s, rfl, fun _ h => .inl h, hr, by simp⟩
  | x :: l, hp, hd, rn, s, hnd, hs, hr => by
    simp only [Rules.walkList, addrsOf, List.map_append] at hnd hs
    obtain ⟨n, s1, h1, hs1, hr1, hd1⟩ := connect_total x (hp x (List.mem_cons_self ..)) hd.1 rn s (nodup_left hnd)
      (fun a ha => hs a (List.mem_append.mpr (.inl ha))) hr
    obtain ⟨ns, s2, h2, hs2, hr2, hd2⟩ := connectList_total l (fun y hy => hp y (List.mem_cons_of_mem _ hy)) hd.2 rn s1 (nodup_right hnd) (by
      intro a ha hm
      rcases hs1 a hm with h | h
      · exact hs a (List.mem_append.mpr (.inr ha)) h
      · exact (List.nodup_append.mp hnd).2.2 a h a ha rfl) hr1
    refine ⟨n :: ns, s2, by rw [connectList, h1]; show (connectList rn s1 l >>= _) = _; rw [h2]; rfl, ?_, hr2, ?_⟩
    · intro c hc
      simp only [Rules.walkList, addrsOf, List.map_append, List.mem_append]
      rcases hs2 c hc with h | h
      · rcases hs1 c h with h | h
        · exact .inl h
        · exact .inr (.inl h)
      · exact .inr (.inr h)
    · intro m hm
      rcases List.mem_cons.mp hm with rfl | hm
      · exact hd1
      · exact hd2 m hm
end

/-! ## Lines -/

mutual
theorem arg_total : ∀ (y : Body), y.Named → ∃ x, y.arg = .ok x ∧ (∀ e, y = .text e → x = .text e.text) ∧ (∀ ls, y = .rank ls → ∃ lines, x = .line (.a lines))
  | .text e, _ => ⟨_, rfl, fun _ h => by cases h; rfl, fun _ h => by cases h⟩
  | .rank ls, h => by
    obtain ⟨lines, hl⟩ := linesOf_total ls h
    refine ⟨.line (.a lines), by rw [Body.arg, hl]; rfl, ?_, ?_⟩
    · intro e h; cases h
    · intro _ _; exact ⟨_, rfl⟩
theorem linesOf_total : ∀ (ls : List GLine), NamedLines ls → ∃ lines, linesOf ls = .ok lines
  | [], _ => ⟨_, rfl⟩
  | .alt nm cb y :: ls, h => by
    obtain ⟨x, hx, hx1, hx2⟩ := arg_total y h.1
    obtain ⟨lines, hl⟩ := linesOf_total ls h.2
    have hex : ∃ l, lineO (if nm = "" then .plain x else .named nm x) (cbOpts cb) = .ok l := by
      cases y with
      | text e =>
        rw [hx1 e rfl]
        split <;> exact ⟨_, rfl⟩
      | rank ls =>
        obtain ⟨lines, rfl⟩ := hx2 ls rfl
        split <;> exact ⟨_, rfl⟩
    obtain ⟨l, hl'⟩ := hex
    have hline : (GLine.alt nm cb y).line = .ok l := by rw [GLine.line, hx]; exact hl'
    exact ⟨l :: lines, by rw [linesOf, hline, hl]; rfl⟩
  | .incl nm cb y :: ls, h => by
    obtain ⟨x, hx, hx1, hx2⟩ := arg_total y h.1.2
    obtain ⟨lines, hl⟩ := linesOf_total ls h.2
    have hn : nm ≠ "" := h.1.1
    have hex : ∃ l, lineI (.named nm x) (cbOpts cb) = .ok l := by
      cases y with
      | text e =>
        rw [hx1 e rfl]
        refine ⟨.i nm (.o "" (.s e.text) {}) ((cbOpts cb).foldl RuleOpts.apply {}), ?_⟩
        show (if nm = "" then _ else _) = _
        rw [if_neg hn]
        rfl
      | rank ls =>
        obtain ⟨lines, rfl⟩ := hx2 ls rfl
        refine ⟨.i nm (.a lines) ((cbOpts cb).foldl RuleOpts.apply {}), ?_⟩
        show (if nm = "" then _ else _) = _
        rw [if_neg hn]
        rfl
    obtain ⟨l, hl'⟩ := hex
    have hline : (GLine.incl nm cb y).line = .ok l := by rw [GLine.line, hx]; exact hl'
    exact ⟨l :: lines, by rw [linesOf, hline, hl]; rfl⟩
end

/-- What the compilation of texts has to do. -/
def CompilesDef (A : String → Bool) (compile : Bytes → Except Panic Node) (e : Expr) : Prop :=
  ∃ n, compile e.text = .ok n ∧ n.Plain ∧ Definite A n = true

theorem getRuleEnd_total {name : String} {opts : RuleOpts} {x : Rules} (h : x.name = name) :
    getRuleEnd name opts x = .ok (x.setInfo fun i => { i with cb := opts.cb }) := by
  unfold getRuleEnd
  rw [if_neg (fun h' => h'.2 h)]

theorem allDef_setInfo {x : Rules} (h : Rules.AllDef A x) {f : Info → Info} (hf : ∀ i, (f i).label = i.label) : Rules.AllDef A (x.setInfo f) := by
  cases x with
  | leaf a k n => exact definite_setInfo h fun i hi => by rw [hf]; exact hi
  | rank a r i incl alts => exact h

section
variable {compile : Bytes → Except Panic Node}

theorem leaf_total {e : Expr} (hc : CompilesDef A compile e) (name parent : String) (opts : RuleOpts) (next : Nat) :
    ∃ x, getRule compile name parent opts next (.s e.text) = .ok (x, next + 1) ∧ x.name = name ∧ Rules.AllDef A x ∧ addrsOf x.walk = [next] ∧ x.Leafy := by
  obtain ⟨n, hn, hp, hd⟩ := hc
  have h1 := hp.setInfo fun i => { i with name := name, debug := opts.debug, skipCache := opts.skipCache, cb := opts.cb }
  have hname : (Rules.leaf next .rule (n.setInfo fun i => { i with name := name, debug := opts.debug, skipCache := opts.skipCache, cb := opts.cb })).name = name := by
    simp only [Rules.name, Node.setInfo_name hp.notRule]
  have hpl := Rules.Plain.leaf (a := next) (k := .rule) h1 (by simp)
  refine ⟨_, by rw [getRule, hn]; show (getRuleEnd name opts _ >>= _) = _; rw [getRuleEnd_total hname]; rfl, ?_, ?_, ?_, ?_⟩
  · rw [hpl.leafy.cb_name, hname]
  · refine definite_setInfo (definite_setInfo hd ?_) ?_
    · exact fun _ h => h
    · exact fun _ h => h
  · rw [addrsOf, addrs_setInfo]; rfl
  · refine (hpl.setInfo ?_).leafy
    exact fun _ => rfl

mutual
theorem getRule_total : ∀ (y : Body), y.All (CompilesDef A compile) → y.Fine → ∀ {c : Line}, Content y c → ∀ (name parent : String) (opts : RuleOpts) (next : Nat),
    name ≠ "" → ∃ x next', getRule compile name parent opts next c = .ok (x, next') ∧ next ≤ next' ∧ Fresh next next' (addrsOf x.walk) ∧ x.name = name ∧ Rules.AllDef A x
  | .text e, hc, _, c, hcont, name, parent, opts, next, hne => by
    rcases hcont with rfl | rfl
    · obtain ⟨x, hx, hn, hd, ha, _⟩ := leaf_total hc name parent opts next
      exact ⟨x, _, hx, by omega, by rw [ha]; exact ⟨by simp, by simp, by simp⟩, hn, hd⟩
    · obtain ⟨x, hx, hn, hd, ha, hlf⟩ := leaf_total hc (oLineName "" name parent 0) parent opts next
      have hon : oLineName "" name parent 0 = name := by simp [oLineName, hne]
      rw [hon] at hn
      refine ⟨x.setInfo fun i => { i with cb := opts.cb }, next + 1, ?_, by omega, ?_, ?_, ?_⟩
      · rw [getRule, hx]
        show (getRuleEnd name opts (if x.name = "" then _ else x) >>= _) = _
        rw [if_neg (by rw [hn]; exact hne), getRuleEnd_total hn]
        rfl
      · rw [addrsOf, addrs_setInfo, show x.walk.map (·.1) = [next] from ha]
        exact ⟨by simp, by simp, by simp⟩
      · rw [hlf.cb_name, hn]
      · exact allDef_setInfo hd fun _ => rfl
  | .rank ls, hc, hf, c, hcont, name, parent, opts, next, hne => by
    obtain ⟨lines, hls, rfl⟩ := hcont
    obtain ⟨r, n1, hr, hle, hfr, hn, hdi, hda⟩ := rankLines_total ls hc hf.2 hls { name := name } (by simpa [Rank.names] using hf.1) (next + 1) (next + 1)
      (Nat.le_refl _) ⟨by simp [Rank.addrs, Rules.walkList], by simp [Rank.addrs, Rules.walkList], by simp [Rank.addrs, Rules.walkList]⟩ trivial trivial
    have hnm : (Rules.rank next true { name := r.name } r.incl r.alts).name = name := hn hne
    refine ⟨_, n1, by rw [getRule, hr]; show (getRuleEnd name opts _ >>= _) = _; rw [getRuleEnd_total hnm]; rfl, by omega, ?_, ?_, ?_⟩
    rotate_left
    · exact hnm
    · exact ⟨hdi, hda⟩
    rw [addrsOf, addrs_setInfo]
    simp only [Rules.walk, if_true, List.map_append, List.map_cons, List.map_nil]
    have hone : Fresh next (next + 1) [next] := ⟨by simp, by simp, by simp⟩
    refine Fresh.perm (l := [next] ++ r.addrs) ?_ List.perm_append_comm
    exact ⟨(hone.append hfr (by omega) hle).nodup, (hone.append hfr (by omega) hle).lo, (hone.append hfr (by omega) hle).hi⟩
theorem rankLines_total : ∀ (ls : List GLine), AllLines (CompilesDef A compile) ls → FineLines ls → ∀ {lines : List Line}, linesOf ls = .ok lines →
    ∀ (r : Rank), (r.names ++ inclNames ls).Nodup → ∀ (lo next : Nat), lo ≤ next → Fresh lo next r.addrs → AllDefs A r.incl → AllDefs A r.alts →
    ∃ r' next', rankLines compile lines r next = .ok (r', next') ∧ next ≤ next' ∧ Fresh lo next' r'.addrs ∧ (r.name ≠ "" → r'.name = r.name) ∧ AllDefs A r'.incl ∧ AllDefs A r'.alts
  | [], _, _, lines, hls, r, _, lo, next, _, hfr, hi, ha => by
    cases hls
    exact ⟨r, next, rfl, Nat.le_refl _, hfr, fun _ => rfl, hi, ha⟩
  | .alt nm cb y :: ls, hc, hf, lines, hls, r, hnd, lo, next, hlo, hfr, hi, ha => by
    simp only [linesOf, exceptBindOk, exceptPureOk] at hls
    obtain ⟨l, hl, rest, hrest, rfl⟩ := hls
    obtain ⟨c, opts, rfl, hcont, ho⟩ := alt_line hl
    obtain ⟨x, n1, hx, hle, hfx, hxn, hxd⟩ := getRule_total y hc.1 hf.1 hcont (oLineName nm "" r.name r.alts.length) r.name opts next oLineName_ne'
    have hfr' : Fresh lo n1 ({ r with alts := r.alts ++ [x] } : Rank).addrs := by
      have := hfr.append hfx hlo hle
      simpa [Rank.addrs, walkList_append, Rules.walkList] using this
    obtain ⟨r', n2, h2, hle2, hf2, hn2, hi2, ha2⟩ := rankLines_total ls hc.2 hf.2 hrest { r with alts := r.alts ++ [x] }
      (by simpa [inclNames, Rank.names] using hnd) lo n1 (by omega) hfr' hi (allDefs_mem.mpr (by
        intro z hz
        rcases List.mem_append.mp hz with hz | hz
        · exact allDefs_mem.mp ha z hz
        · rw [List.mem_singleton.mp hz]; exact hxd))
    refine ⟨r', n2, ?_, by omega, hf2, hn2, hi2, ha2⟩
    rw [rankLines, rankLine, hx]
    exact h2
  | .incl nm cb y :: ls, hc, hf, lines, hls, r, hnd, lo, next, hlo, hfr, hi, ha => by
    simp only [linesOf, exceptBindOk, exceptPureOk] at hls
    obtain ⟨l, hl, rest, hrest, rfl⟩ := hls
    obtain ⟨c, opts, rfl, hcont, ho, hne⟩ := incl_line hl
    obtain ⟨x, n1, hx, hle, hfx, hxn, hxd⟩ := getRule_total y hc.1 hf.1 hcont nm r.name opts next hne
    simp only [inclNames] at hnd
    have hni : nm ∉ r.names := fun hm => (List.nodup_append.mp hnd).2.2 nm hm nm (List.mem_cons_self ..) rfl
    have hinc := include_fresh (x := x) hni
    have hfr' : Fresh lo n1 (r.include nm x).addrs := by
      have h1 := hfr.append hfx hlo hle
      refine h1.perm ?_
      unfold Rank.addrs
      rw [hinc, walkList_append]
      simp only [Rank.include, Rules.walkList, List.append_nil, List.map_append, addrsOf]
      rw [List.append_assoc, List.append_assoc]
      exact List.Perm.append_left _ List.perm_append_comm
    obtain ⟨r', n2, h2, hle2, hf2, hn2, hi2, ha2⟩ := rankLines_total ls hc.2 hf.2 hrest (r.include nm x) (by
      unfold Rank.names
      rw [hinc]
      simpa [hxn, Rank.names] using hnd) lo n1 (by omega) hfr' (by
      rw [hinc]
      exact allDefs_mem.mpr (by
        intro z hz
        rcases List.mem_append.mp hz with hz | hz
        · exact allDefs_mem.mp hi z hz
        · rw [List.mem_singleton.mp hz]; exact hxd)) ha
    refine ⟨r', n2, ?_, by omega, hf2, ?_, hi2, ha2⟩
    · rw [rankLines, rankLine, hx]
      exact h2
    · intro h0
      have : (r.include nm x).name = r.name := by simp only [Rank.include, if_neg h0]
      rw [hn2 (by rw [this]; exact h0), this]
end

end

/-- A grammar can be made from a tree. -/
theorem postinit_total {i : Info} {incl alts : List Rules} (hpl : (Rules.rank 0 false i incl alts).Plain)
    (hd : Rules.AllDef A (.rank 0 false i incl alts)) (hnd : (addrsOf (Rules.rank 0 false i incl alts).walk).Nodup)
    (hmem : ∀ {n s}, connect "" {} (.rank 0 false i incl alts) = .ok (n, s) → ∀ e ∈ s.id2rule, e.2.1 = .rule)
    (hF : ∀ {n s rules}, connect "" {} (.rank 0 false i incl alts) = .ok (n, s) → prepAll s.lookup s.rules [] = .ok rules →
      ∀ nm, A nm = true → ∃ x, followLabels s.lookup rules rules.length nm = .ok x) :
    ∃ m, postinit (.rank 0 false i incl alts) = .ok m := by
  obtain ⟨root, s, h1, _, hr, hroot⟩ := connect_total _ hpl hd "" {} hnd (by simp) (by simp [Conn.rules])
  obtain ⟨rules, h2, hr2⟩ := definite_prepAll (lookup := s.lookup) s.rules [] hr (by simp)
  obtain ⟨root1, h3, hroot1⟩ := definite_prep (labels := fun m => m.hasLabels (followLabels s.lookup rules rules.length)) (rules := rules)
    (fun m hm => definite_labels m (A := fun _ => false) (fun _ h => by cases h) hm) root hroot
  have hL : ∀ n, Definite A n = true → ∃ x, (fun m => match Node.hasLabels (followLabels s.lookup rules rules.length) m with
      | .ok b => Except.ok b
      | .error _ => .error Panic.notModelled) n = .ok x := by
    intro n hn
    obtain ⟨x, hx⟩ := definite_labels (f := followLabels s.lookup rules rules.length) n (hF h1 h2) hn
    exact ⟨x, by simp only [hx]⟩
  obtain ⟨rules2, h4⟩ := definite_setTypesAll hL rules hr2
  obtain ⟨root2, h5⟩ := definite_setTypes hL root1 hroot1
  have hlink : ∀ id, inlineRule s.lookup (s.id2rule.map (·.2.1)) rules2 rules2.length id = .ok none := by
    intro id
    unfold inlineRule
    split
    · rename_i h1' _
      rw [List.getElem?_map, Option.map_eq_some_iff] at h1'
      obtain ⟨e, he, h1'⟩ := h1'
      rw [hmem h1 e (List.mem_of_getElem? he)] at h1'
      cases h1'
    · rfl
  have htarget : ∀ nm : String, (match s.lookup nm with
      | some id => inlineRule s.lookup (s.id2rule.map fun x => x.2.1) rules2 rules2.length id
      | none => Except.ok none) = Except.ok (none : Option Node) := by
    intro nm
    split
    · exact hlink _
    · rfl
  refine ⟨⟨{ rules := rules2, lookup := s.lookup, root := root2 }, s⟩, ?_⟩
  unfold postinit
  simp only [walkMonoGrammar, walkMonoRules_plain _ hpl, exceptBindOk, exceptPureOk, Prod.exists]
  exact ⟨root, s, h1, rules, h2, root1, h3, rules2, h4, root2, h5, rules2, inlineAll_none htarget hlink rules2, root2,
    inline_none htarget hlink root2, rfl⟩

/-! ## Texts -/

mutual
theorem body_all_mono {C C' : Expr → Prop} (h : ∀ e, C e → C' e) : ∀ (y : Body), y.All C → y.All C'
  | .text e, hc => h e hc
  | .rank ls, hc => lines_all_mono h ls hc
theorem lines_all_mono {C C' : Expr → Prop} (h : ∀ e, C e → C' e) : ∀ (ls : List GLine), AllLines C ls → AllLines C' ls
  | [], _ => trivial
  | .alt _ _ y :: ls, hc => ⟨body_all_mono h y hc.1, lines_all_mono h ls hc.2⟩
  | .incl _ _ y :: ls, hc => ⟨body_all_mono h y hc.1, lines_all_mono h ls hc.2⟩
end

mutual
theorem body_all_and {C D E : Expr → Prop} (h : ∀ e, C e → D e → E e) : ∀ (y : Body), y.All C → y.All D → y.All E
  | .text e, hc, hd => h e hc hd
  | .rank ls, hc, hd => lines_all_and h ls hc hd
theorem lines_all_and {C D E : Expr → Prop} (h : ∀ e, C e → D e → E e) : ∀ (ls : List GLine), AllLines C ls → AllLines D ls → AllLines E ls
  | [], _, _ => trivial
  | .alt _ _ y :: ls, hc, hd => ⟨body_all_and h y hc.1 hd.1, lines_all_and h ls hc.2 hd.2⟩
  | .incl _ _ y :: ls, hc, hd => ⟨body_all_and h y hc.1 hd.1, lines_all_and h ls hc.2 hd.2⟩
end

mutual
/-- A bound for all texts. -/
theorem body_all_bound {C : Nat → Expr → Prop} (hm : ∀ k k' e, k ≤ k' → C k e → C k' e) : ∀ (y : Body), y.All (fun e => ∃ k, C k e) →
    ∃ k, ∀ k', k ≤ k' → y.All (C k')
  | .text e, hc => by
    obtain ⟨k, hk⟩ := hc
    exact ⟨k, fun k' h => hm k k' e h hk⟩
  | .rank ls, hc => lines_all_bound hm ls hc
theorem lines_all_bound {C : Nat → Expr → Prop} (hm : ∀ k k' e, k ≤ k' → C k e → C k' e) : ∀ (ls : List GLine),
    AllLines (fun e => ∃ k, C k e) ls → ∃ k, ∀ k', k ≤ k' → AllLines (C k') ls
  | [], _ => ⟨0, fun _ _ => trivial⟩
  | .alt _ _ y :: ls, hc => by
    obtain ⟨k1, h1⟩ := body_all_bound hm y hc.1
    obtain ⟨k2, h2⟩ := lines_all_bound hm ls hc.2
    exact ⟨max k1 k2, fun k' h => ⟨h1 k' (by omega), h2 k' (by omega)⟩⟩
  | .incl _ _ y :: ls, hc => by
    obtain ⟨k1, h1⟩ := body_all_bound hm y hc.1
    obtain ⟨k2, h2⟩ := lines_all_bound hm ls hc.2
    exact ⟨max k1 k2, fun k' h => ⟨h1 k' (by omega), h2 k' (by omega)⟩⟩
end

end Joeson.RuleText
