import Verif.Proofs.Lang
import Verif.Proofs.Build2
/-!
# The parser of a rule text matches what its expression does, before and after the grammar is built
-/

set_option linter.unusedVariables false

namespace Joeson.RuleText

variable {b : Bool}

theorem Like.setInfo {n : Node} {p : Pat} (h : Like b n p) {f : Info → Info} (hf : b = true → ∀ i, i.label = "" → (f i).label = "") :
    Like b (n.setInfo f) p := by
  cases h with
  | str h => exact .str fun hb => hf hb _ (h hb)
  | regex h => exact .regex fun hb => hf hb _ (h hb)
  | ref h => exact .ref fun hb => hf hb _ (h hb)
  | choice h hl => exact .choice (fun hb => hf hb _ (h hb)) hl
  | seq h hr hl => exact .seq (fun hb => hf hb _ (h hb)) hr hl
  | exist h hn => exact .exist (fun hb => hf hb _ (h hb)) hn
  | look h hn => exact .look (fun hb => hf hb _ (h hb)) hn
  | not h hn => exact .not (fun hb => hf hb _ (h hb)) hn
  | pattern h hv hj h1 h2 => exact .pattern (fun hb => hf hb _ (h hb)) hv hj h1 h2

theorem like_labelled {n : Node} {p : Pat} (h : Like b n p) {lab : Option Bytes} (hl : b = true → lab = none) :
    Like b (labelled lab n) p := by
  cases lab with
  | none => exact h
  | some w => exact h.setInfo fun hb => absurd (hl hb) (by simp)

theorem minOf_pat (r : Option Bounds) (k : Nat) : minOf r > (k : Int) ↔ k < minPat r := by
  unfold minOf minPat boundOf
  cases h : r.bind Bounds.min with
  | none => simp
  | some ds => simp

theorem maxOf_pat (r : Option Bounds) (k : Nat) (hk : 2 ≤ k) : ¬ (0 ≤ maxOf r ∧ maxOf r ≤ (k : Int)) ↔ Room (maxPat r) k := by
  unfold maxOf maxPat boundOf Room
  cases h : r.bind Bounds.max with
  | none => simp
  | some ds =>
    simp only [Option.map_some, Option.some.injEq, forall_eq']
    omega

theorem likes_seqOf {l : List Node} {ps : List Pat} (h : Likes b l ps) : Like b (seqOf l) (Pat.seqOf ps) := by
  match h with
  | .nil => exact .seq (fun _ => rfl) (fun _ h => by cases h) .nil
  | .cons h1 .nil => exact h1
  | .cons h1 (.cons h2 h3) => exact .seq (fun _ => rfl) (fun _ h => by cases h) (.cons h1 (.cons h2 h3))

theorem like_rep {v : Node} {j : Option Node} {p : Pat} {o : Option Pat} (hv : Like b v p) (hj : LikeO b j o) {r : Option Bounds}
    : Like b (mkPattern v j (minOf r) (maxOf r)) (.rep p o (minPat r) (maxPat r)) :=
  .pattern (fun _ => rfl) hv hj (minOf_pat r) (maxOf_pat r)

theorem plusRoom (k : Nat) (_ : 2 ≤ k) : ¬ ((0 : Int) ≤ -1 ∧ (-1 : Int) ≤ (k : Int)) ↔ Room none k := by
  constructor
  · intro _; simp [Room]
  · intro _ h; omega

theorem like_plus {v : Node} {j : Option Node} {p : Pat} {o : Option Pat} (hv : Like b v p) (hj : LikeO b j o) :
    Like b (mkPattern v j 1 (-1)) (.rep p o 1 none) :=
  .pattern (fun _ => rfl) hv hj (fun k => by omega) plusRoom

mutual
theorem prim_like : ∀ (p : Prim), (b = true → p.Unlabelled) → Like b p.node p.pat
  | .ref w, _ | .call w _, _ => .ref fun _ => rfl
  | .group e, hu => expr_like e hu
  | .lgroup _ e, hu => expr_like e hu
  | .str l, _ => .str fun _ => rfl
  | .regex _ re, _ | .cls _ re, _ => .regex fun _ => rfl
theorem deco_like : ∀ (d : Deco), (b = true → d.Unlabelled) → Like b d.node d.pat
  | .prim p, hu => prim_like p hu
  | .opt p, hu => .exist (fun _ => rfl) (prim_like p hu)
  | .star p r, hu => like_rep (prim_like p hu) .none
  | .starJoin p j r, hu => like_rep (prim_like p fun h => (hu h).1) (.some (prim_like j fun h => (hu h).2))
  | .plus p, hu => like_plus (prim_like p hu) .none
  | .plusJoin p j, hu => like_plus (prim_like p fun h => (hu h).1) (.some (prim_like j fun h => (hu h).2))
  | .times p r, hu => like_rep (prim_like p hu) .none
  | .not p, hu => .not (fun _ => rfl) (prim_like p hu)
  | .look e, hu => .look (fun _ => rfl) (expr_like e hu)
theorem units_like : ∀ (us : Units), (b = true → us.Unlabelled) → Likes b us.nodes us.pats
  | .one _ lab d, hu => .cons (like_labelled (deco_like d fun h => (hu h).2) fun h => (hu h).1) .nil
  | .cons _ lab d us, hu =>
    .cons (like_labelled (deco_like d fun h => (hu h).2.1) fun h => (hu h).1) (units_like us fun h => (hu h).2.2)
  | .open_ _ lab e, hu =>
    .cons (like_labelled (.look (fun _ => rfl) (expr_like e fun h => (hu h).2)) fun h => (hu h).1) .nil
theorem alts_like : ∀ (as : Alts), (b = true → as.Unlabelled) → Likes b as.nodes as.pats
  | .one us, hu => .cons (likes_seqOf (units_like us hu)) .nil
  | .cons us _ as, hu => .cons (likes_seqOf (units_like us fun h => (hu h).1)) (alts_like as fun h => (hu h).2)
theorem expr_like : ∀ (e : Expr), (b = true → e.Unlabelled) → Like b e.node e.pat
  | .single us _, hu => likes_seqOf (units_like us hu)
  | .choice _ us _ as _ _, hu =>
    .choice (fun _ => rfl) (.cons (likes_seqOf (units_like us fun h => (hu h).1)) (alts_like as fun h => (hu h).2))
end

theorem plain_labelled {n : Node} (h : n.Plain) (lab : Option Bytes) : (labelled lab n).Plain := by
  cases lab with
  | none => exact h
  | some w => exact h.setInfo _

theorem plain_seqOf {l : List Node} (h : ∀ c ∈ l, c.Plain) : (seqOf l).Plain := by
  match l, h with
  | [], h => exact .seq h
  | [n], h => exact h n (by simp)
  | a :: c :: l, h => exact .seq h

mutual
theorem prim_plain : ∀ (p : Prim), p.node.Plain
  | .ref w | .call w _ => .ref
  | .group e => expr_plain e
  | .lgroup _ e => expr_plain e
  | .str l => .str
  | .regex _ re | .cls _ re => .regex
theorem deco_plain : ∀ (d : Deco), d.node.Plain
  | .prim p => prim_plain p
  | .opt p => .exist (prim_plain p)
  | .star p r => .pattern (prim_plain p) (by simp)
  | .starJoin p j r => .pattern (prim_plain p) (by intro c hc; cases hc; exact prim_plain j)
  | .plus p => .pattern (prim_plain p) (by simp)
  | .plusJoin p j => .pattern (prim_plain p) (by intro c hc; cases hc; exact prim_plain j)
  | .times p r => .pattern (prim_plain p) (by simp)
  | .not p => .not (prim_plain p)
  | .look e => .look (expr_plain e)
theorem units_plain : ∀ (us : Units), ∀ c ∈ us.nodes, c.Plain
  | .one _ lab d, c, hc => by
    have := deco_plain d
    simp only [Units.nodes, List.mem_singleton] at hc
    subst hc
    exact plain_labelled this lab
  | .cons _ lab d us, c, hc => by
    have h1 := deco_plain d
    have h2 := units_plain us
    rcases List.mem_cons.mp hc with rfl | hc
    · exact plain_labelled h1 lab
    · exact h2 c hc
  | .open_ _ lab e, c, hc => by
    have := expr_plain e
    simp only [Units.nodes, List.mem_singleton] at hc
    subst hc
    exact plain_labelled (.look this) lab
theorem alts_plain : ∀ (as : Alts), ∀ c ∈ as.nodes, c.Plain
  | .one us, c, hc => by
    have := plain_seqOf (units_plain us)
    simp only [Alts.nodes, List.mem_singleton] at hc
    subst hc
    exact this
  | .cons us _ as, c, hc => by
    have h1 := plain_seqOf (units_plain us)
    have h2 := alts_plain as
    rcases List.mem_cons.mp hc with rfl | hc
    · exact h1
    · exact h2 c hc
/-- The parser of a rule text has no choice with a single alternative. -/
theorem expr_plain : ∀ (e : Expr), e.node.Plain
  | .single us _ => plain_seqOf (units_plain us)
  | .choice _ us _ as _ _ => by
    have h1 := plain_seqOf (units_plain us)
    have h2 := alts_plain as
    refine .choice ?_ ?_
    · intro c hc
      rcases List.mem_cons.mp hc with rfl | hc
      · exact h1
      · exact h2 c hc
    · intro c hc
      have : as.nodes ≠ [] := by cases as <;> simp [Alts.nodes]
      simp only [List.cons.injEq] at hc
      exact this hc.2
end

/-! ## Building keeps it -/

mutual
theorem like_attach : ∀ {n : Node} {p : Pat}, Like b n p → ∀ rn q, Like b (n.attach rn q) p
  | _, _, .str h, rn, q => .str h
  | _, _, .regex h, rn, q => .regex h
  | _, _, .ref h, rn, q => .ref h
  | _, _, .choice h hl, rn, q => .choice h (likes_attach hl rn false)
  | _, _, .seq h hr hl, rn, q => .seq h hr (likes_attach hl rn true)
  | _, _, .exist h hn, rn, q => .exist h (like_attach hn rn q)
  | _, _, .look h hn, rn, q => .look h (like_attach hn rn false)
  | _, _, .not h hn, rn, q => .not h (like_attach hn rn false)
  | _, _, .pattern h hv .none h1 h2, rn, q => .pattern h (like_attach hv rn false) .none h1 h2
  | _, _, .pattern h hv (.some hj) h1 h2, rn, q => .pattern h (like_attach hv rn false) (.some (like_attach hj rn false)) h1 h2
theorem likes_attach : ∀ {l : List Node} {ps : List Pat}, Likes b l ps → ∀ rn q, Likes b (Node.attachList rn q l) ps
  | _, _, .nil, rn, q => .nil
  | _, _, .cons h hl, rn, q => .cons (like_attach h rn q) (likes_attach hl rn q)
end

mutual
/-- No labels. -/
theorem like_noLabels {f : String → Except Panic Bool} (hb : b = true) : ∀ {n : Node} {p : Pat}, Like b n p → n.hasLabels f = .ok false
  | _, _, .str h => by simp [Node.hasLabels, h hb]
  | _, _, .regex h => by simp [Node.hasLabels, h hb]
  | _, _, .ref h => by simp [Node.hasLabels, h hb]
  | _, _, .choice h hl => by simp [Node.hasLabels, h hb]
  | _, _, .seq h hr hl => by
    have := likes_noLabels (f := f) hb hl
    simpa [Node.hasLabels] using this
  | _, _, .exist h hn => by
    have := like_noLabels (f := f) hb hn
    simp [Node.hasLabels, h hb, this]
  | _, _, .look h hn => by simp [Node.hasLabels, h hb]
  | _, _, .not h hn => by simp [Node.hasLabels, h hb]
  | _, _, .pattern h hv hj h1 h2 => by simp [Node.hasLabels, h hb]
theorem likes_noLabels {f : String → Except Panic Bool} (hb : b = true) : ∀ {l : List Node} {ps : List Pat}, Likes b l ps → Node.anyLabels f l = .ok false
  | _, _, .nil => rfl
  | _, _, .cons h hl => by
    have h1 := like_noLabels (f := f) hb h
    have h2 := likes_noLabels (f := f) hb hl
    simp only [Node.anyLabels, h1, h2]
    rfl
end

/-- `labels` is the computation of labels. -/
def LabelsOf (b : Bool) (labels : Node → Except Panic Bool) : Prop :=
  b = true → ∀ n p, Like b n p → labels n = .ok false

mutual
theorem like_prep {labels : Node → Except Panic Bool} (hL : LabelsOf b labels) {rules : List Node} :
    ∀ {n : Node} {p : Pat}, Like b n p → ∀ {n' : Node}, n.prep labels rules = .ok n' → Like b n' p
  | _, _, .str h, _, hp => by cases hp; exact .str h
  | _, _, .regex h, _, hp => by cases hp; exact .regex h
  | _, _, .ref h, _, hp => by cases hp; exact .ref h
  | _, _, .choice h hl, _, hp => by
    simp only [Node.prep, exceptBindOk, exceptPureOk] at hp
    obtain ⟨l', hl', rfl⟩ := hp
    exact .choice h (likes_prep hL hl hl')
  | _, _, .seq h hr hl, _, hp => by
    simp only [Node.prep, exceptBindOk, exceptPureOk] at hp
    obtain ⟨l', hl', rfl⟩ := hp
    exact .seq h hr (likes_prep hL hl hl')
  | _, _, .exist h hn, _, hp => by
    simp only [Node.prep, exceptBindOk, exceptPureOk] at hp
    obtain ⟨n', hn', has, hhas, rfl⟩ := hp
    have h1 := like_prep hL hn hn'
    refine .exist ?_ h1
    intro hb
    have := hL hb _ _ (Like.exist h h1)
    rw [this] at hhas
    cases hhas
    simpa using h hb
  | _, _, .look h hn, _, hp => by
    simp only [Node.prep, exceptBindOk, exceptPureOk] at hp
    obtain ⟨n', hn', rfl⟩ := hp
    exact .look h (like_prep hL hn hn')
  | _, _, .not h hn, _, hp => by
    simp only [Node.prep, exceptBindOk, exceptPureOk] at hp
    obtain ⟨n', hn', rfl⟩ := hp
    exact .not h (like_prep hL hn hn')
  | _, _, .pattern h hv .none h1 h2, _, hp => by
    simp only [Node.prep, exceptBindOk, exceptPureOk] at hp
    obtain ⟨v', hv', rfl⟩ := hp
    exact .pattern h (like_prep hL hv hv') .none h1 h2
  | _, _, .pattern h hv (.some hj) h1 h2, _, hp => by
    simp only [Node.prep, exceptBindOk, exceptPureOk] at hp
    obtain ⟨v', hv', j', hj', rfl⟩ := hp
    exact .pattern h (like_prep hL hv hv') (.some (like_prep hL hj hj')) h1 h2
theorem likes_prep {labels : Node → Except Panic Bool} (hL : LabelsOf b labels) {rules : List Node} :
    ∀ {l : List Node} {ps : List Pat}, Likes b l ps → ∀ {l' : List Node}, Node.prepList labels rules l = .ok l' → Likes b l' ps
  | _, _, .nil, _, hp => by cases hp; exact .nil
  | _, _, .cons h hl, _, hp => by
    simp only [Node.prepList, exceptBindOk, exceptPureOk] at hp
    obtain ⟨n', hn', l', hl', rfl⟩ := hp
    exact .cons (like_prep hL h hn') (likes_prep hL hl hl')
end

mutual
theorem like_setTypes {labels : Node → Except Panic Bool} (hL : LabelsOf b labels) :
    ∀ {n : Node} {p : Pat}, Like b n p → ∀ {n' : Node}, n.setTypes labels = .ok n' → Like b n' p
  | _, _, .str h, _, hp => by cases hp; exact .str h
  | _, _, .regex h, _, hp => by cases hp; exact .regex h
  | _, _, .ref h, _, hp => by cases hp; exact .ref h
  | _, _, .choice h hl, _, hp => by
    simp only [Node.setTypes, exceptBindOk, exceptPureOk] at hp
    obtain ⟨l', hl', rfl⟩ := hp
    exact .choice h (likes_setTypes hL hl hl')
  | _, _, .seq h hr hl, _, hp => by
    simp only [Node.setTypes, exceptBindOk, exceptPureOk] at hp
    obtain ⟨has, hhas, l', hl', rfl⟩ := hp
    refine .seq h ?_ (likes_setTypes hL hl hl')
    intro hb
    rw [hL hb _ _ (Like.seq h hr hl)] at hhas
    cases hhas
    unfold seqType
    simp only [Bool.false_eq_true, if_false]
    split <;> simp
  | _, _, .exist h hn, _, hp => by
    simp only [Node.setTypes, exceptBindOk, exceptPureOk] at hp
    obtain ⟨n', hn', rfl⟩ := hp
    exact .exist h (like_setTypes hL hn hn')
  | _, _, .look h hn, _, hp => by
    simp only [Node.setTypes, exceptBindOk, exceptPureOk] at hp
    obtain ⟨n', hn', rfl⟩ := hp
    exact .look h (like_setTypes hL hn hn')
  | _, _, .not h hn, _, hp => by
    simp only [Node.setTypes, exceptBindOk, exceptPureOk] at hp
    obtain ⟨n', hn', rfl⟩ := hp
    exact .not h (like_setTypes hL hn hn')
  | _, _, .pattern h hv .none h1 h2, _, hp => by
    simp only [Node.setTypes, exceptBindOk, exceptPureOk] at hp
    obtain ⟨v', hv', rfl⟩ := hp
    exact .pattern h (like_setTypes hL hv hv') .none h1 h2
  | _, _, .pattern h hv (.some hj) h1 h2, _, hp => by
    simp only [Node.setTypes, exceptBindOk, exceptPureOk] at hp
    obtain ⟨v', hv', j', hj', rfl⟩ := hp
    exact .pattern h (like_setTypes hL hv hv') (.some (like_setTypes hL hj hj')) h1 h2
theorem likes_setTypes {labels : Node → Except Panic Bool} (hL : LabelsOf b labels) :
    ∀ {l : List Node} {ps : List Pat}, Likes b l ps → ∀ {l' : List Node}, Node.setTypesList labels l = .ok l' → Likes b l' ps
  | _, _, .nil, _, hp => by cases hp; exact .nil
  | _, _, .cons h hl, _, hp => by
    simp only [Node.setTypesList, exceptBindOk, exceptPureOk] at hp
    obtain ⟨n', hn', l', hl', rfl⟩ := hp
    exact .cons (like_setTypes hL h hn') (likes_setTypes hL hl hl')
end

end Joeson.RuleText
