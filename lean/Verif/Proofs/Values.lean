import Verif.Spec.Values
import Verif.Spec.Spliced
import Verif.Proofs.Lang4
/-!
# Parsers with the labels, captures and types of an expression, through the stages of building a grammar
-/

set_option linter.unusedVariables false

namespace Joeson.RuleText

/-- What is known of the attributes of a parser at a stage. `h`: its parent handles labels. -/
structure Stage where
  info : Bool → VP → Info → Prop
  repr : List VP → SeqRepr → Prop
  /-- of the names of references labelled `@` -/
  at_ : String → Prop

mutual
/-- A parser for the expression; `cb` is its callback. -/
inductive Fit (S : Stage) : Bool → Option Nat → VP → Node → Prop
  | str {h cb lab t i} : S.info h (.lit lab t) i → i.cb = cb → Fit S h cb (.lit lab t) (.str i t)
  | regex {h cb lab re i} : S.info h (.re lab re) i → i.cb = cb → Fit S h cb (.re lab re) (.regex i re)
  | ref {h cb lab nm q i} : S.info h (.name lab nm q) i → i.cb = cb → (lab = "@" → S.at_ nm) → Fit S h cb (.name lab nm q) (.ref i nm)
  | choice {h cb lab ps i l} : S.info h (.alt lab ps) i → i.cb = cb → Fits S false ps l → Fit S h cb (.alt lab ps) (.choice i l)
  | seq {h cb lab ps i r l} : S.info h (.seq lab ps) i → i.cb = cb → S.repr ps r → Fits S true ps l →
      Fit S h cb (.seq lab ps) (.seq i r l)
  | exist {h cb lab p i n} : S.info h (.opt lab p) i → i.cb = cb → Fit S h none p n → Fit S h cb (.opt lab p) (.exist i n)
  | look {h cb lab p i n} : S.info h (.look lab p) i → i.cb = cb → Fit S false none p n → Fit S h cb (.look lab p) (.look i n)
  | not {h cb lab p i n} : S.info h (.not lab p) i → i.cb = cb → Fit S false none p n → Fit S h cb (.not lab p) (.not i n)
  | pattern {h cb lab p o mn' mx' i v j mn mx} : S.info h (.rep lab p o mn' mx') i → i.cb = cb → Fit S false none p v → FitO S o j →
      (∀ k : Nat, mn > (k : Int) ↔ k < mn') → (∀ k : Nat, 2 ≤ k → (¬ (0 ≤ mx ∧ mx ≤ (k : Int)) ↔ Room mx' k)) →
      Fit S h cb (.rep lab p o mn' mx') (.pattern i v j mn mx)
/-- One by one. -/
inductive Fits (S : Stage) : Bool → List VP → List Node → Prop
  | nil {h} : Fits S h [] []
  | cons {h p ps n l} : Fit S h none p n → Fits S h ps l → Fits S h (p :: ps) (n :: l)
/-- If there is one. -/
inductive FitO (S : Stage) : Option VP → Option Node → Prop
  | none : FitO S none none
  | some {p n} : Fit S false none p n → FitO S (some p) (some n)
end

/-- As it is made. -/
def stage0 (A : String → Prop) : Stage where
  info _ p i := i.label = p.lab ∧ i.capture = p.raw
  repr _ _ := True
  at_ := A

/-- Connected. -/
def stage1 (A : String → Prop) : Stage where
  info h p i := i.label = p.lab ∧ i.capture = p.raw ∧ i.parent = some h
  repr _ _ := True
  at_ := A

/-- Prepared. -/
def stage2 (A : String → Prop) : Stage where
  info h p i := i.label = p.outLab ∧ i.capture = p.keeps ∧ i.parent = some h
  repr _ _ := True
  at_ := A

/-- As one of the model. -/
def Form.repr : Form → SeqRepr
  | .single => .single
  | .array => .array
  | .object => .object

/-- Finished. -/
def stage3 : Stage where
  info h p i := i.label = p.outLab ∧ i.capture = p.keeps ∧ i.parent = some h
  repr l r := r = (formOf l).repr
  at_ _ := True

theorem Fit.notRule {S : Stage} {h : Bool} {cb : Option Nat} {p : VP} {n : Node} (hf : Fit S h cb p n) : n.isRule = false := by
  cases hf <;> rfl

theorem Fit.info {S : Stage} {h : Bool} {cb : Option Nat} {p : VP} {n : Node} (hf : Fit S h cb p n) : S.info h p n.info ∧ n.info.cb = cb := by
  cases hf <;> exact ⟨by assumption, by assumption⟩

/-! ## As made -/

theorem raw_setLab (l : String) (p : VP) : (p.setLab l).raw = p.raw := by cases p <;> rfl
theorem lab_setLab (l : String) (p : VP) : (p.setLab l).lab = l := by cases p <;> rfl

theorem Fit.relabel {h : Bool} {cb : Option Nat} {p : VP} {n : Node} (hf : Fit (stage0 fun _ => True) h cb p n) (l : String) :
    Fit (stage0 fun _ => True) h cb (p.setLab l) (n.setInfo fun i => { i with label := l }) := by
  cases hf with
  | str hi hc => exact .str ⟨rfl, hi.2⟩ hc
  | regex hi hc => exact .regex ⟨rfl, hi.2⟩ hc
  | ref hi hc hn => exact .ref ⟨rfl, hi.2⟩ hc fun _ => trivial
  | choice hi hc hl => exact .choice ⟨rfl, hi.2⟩ hc hl
  | seq hi hc hr hl => exact .seq ⟨rfl, hi.2⟩ hc hr hl
  | exist hi hc hn => exact .exist ⟨rfl, hi.2⟩ hc hn
  | look hi hc hn => exact .look ⟨rfl, hi.2⟩ hc hn
  | not hi hc hn => exact .not ⟨rfl, hi.2⟩ hc hn
  | pattern hi hc hv hj h1 h2 => exact .pattern ⟨rfl, hi.2⟩ hc hv hj h1 h2

/-- Setting attributes other than label, capture and callback. -/
theorem Fit.setInfo {A : String → Prop} {h : Bool} {cb cb' : Option Nat} {p : VP} {n : Node} (hf : Fit (stage0 A) h cb p n) {f : Info → Info}
    (hl : ∀ i, (f i).label = i.label) (hk : ∀ i, (f i).capture = i.capture) (hcb : ∀ i, (f i).cb = cb') :
    Fit (stage0 A) h cb' p (n.setInfo f) := by
  have key : ∀ {q : VP} {i : Info}, (stage0 A).info h q i → (stage0 A).info h q (f i) :=
    fun hi => ⟨(hl _).trans hi.1, (hk _).trans hi.2⟩
  cases hf with
  | str hi hc => exact .str (key hi) (hcb _)
  | regex hi hc => exact .regex (key hi) (hcb _)
  | ref hi hc hn => exact .ref (key hi) (hcb _) hn
  | choice hi hc hl => exact .choice (key hi) (hcb _) hl
  | seq hi hc hr hl => exact .seq (key hi) (hcb _) hr hl
  | exist hi hc hn => exact .exist (key hi) (hcb _) hn
  | look hi hc hn => exact .look (key hi) (hcb _) hn
  | not hi hc hn => exact .not (key hi) (hcb _) hn
  | pattern hi hc hv hj h1 h2 => exact .pattern (key hi) (hcb _) hv hj h1 h2

theorem fit_labelled {h : Bool} {p : VP} {n : Node} (hf : Fit (stage0 fun _ => True) h none p n) {lab : Option Bytes} :
    Fit (stage0 fun _ => True) h none (VP.labelled lab p) (labelled lab n) := by
  cases lab with
  | none => exact hf
  | some w => exact hf.relabel _

theorem fits_seqOf {h : Bool} {ps : List VP} {l : List Node} (hf : ∀ h, Fits (stage0 fun _ => True) h ps l) : Fit (stage0 fun _ => True) h none (VP.seqOf ps) (seqOf l) := by
  match ps, l, hf h, hf true with
  | _, _, .nil, _ => exact .seq ⟨rfl, rfl⟩ rfl trivial .nil
  | _, _, .cons h1 .nil, _ => exact h1
  | _, _, .cons _ (.cons _ _), .cons h1 (.cons h2 h3) => exact .seq ⟨rfl, rfl⟩ rfl trivial (.cons h1 (.cons h2 h3))

theorem fit_rep {h : Bool} {v : Node} {j : Option Node} {p : VP} {o : Option VP} (hv : Fit (stage0 fun _ => True) false none p v) (hj : FitO (stage0 fun _ => True) o j)
    {r : Option Bounds} :
    Fit (stage0 fun _ => True) h none (.rep "" p o (minPat r) (maxPat r)) (mkPattern v j (minOf r) (maxOf r)) :=
  .pattern ⟨rfl, hv.info.1.2⟩ rfl hv hj (minOf_pat r) (maxOf_pat r)

theorem fit_plus {h : Bool} {v : Node} {j : Option Node} {p : VP} {o : Option VP} (hv : Fit (stage0 fun _ => True) false none p v) (hj : FitO (stage0 fun _ => True) o j) :
    Fit (stage0 fun _ => True) h none (.rep "" p o 1 none) (mkPattern v j 1 (-1)) :=
  .pattern ⟨rfl, hv.info.1.2⟩ rfl hv hj (fun k => by omega) plusRoom

mutual
theorem prim_fit : ∀ (p : Prim) (h : Bool), Fit (stage0 fun _ => True) h none p.vp p.node
  | .ref w, h | .call w _, h => .ref ⟨rfl, rfl⟩ rfl fun _ => trivial
  | .group e, h => expr_fit e h
  | .lgroup _ e, h => expr_fit e h
  | .str l, h => .str ⟨rfl, rfl⟩ rfl
  | .regex _ re, h | .cls _ re, h => .regex ⟨rfl, rfl⟩ rfl
theorem deco_fit : ∀ (d : Deco) (h : Bool), Fit (stage0 fun _ => True) h none d.vp d.node
  | .prim p, h => prim_fit p h
  | .opt p, h => .exist ⟨rfl, rfl⟩ rfl (prim_fit p h)
  | .star p r, h => fit_rep (prim_fit p false) .none
  | .starJoin p j r, h => fit_rep (prim_fit p false) (.some (prim_fit j false))
  | .plus p, h => fit_plus (prim_fit p false) .none
  | .plusJoin p j, h => fit_plus (prim_fit p false) (.some (prim_fit j false))
  | .times p r, h => fit_rep (prim_fit p false) .none
  | .not p, h => .not ⟨rfl, rfl⟩ rfl (prim_fit p false)
  | .look e, h => .look ⟨rfl, rfl⟩ rfl (expr_fit e false)
theorem units_fit : ∀ (us : Units) (h : Bool), Fits (stage0 fun _ => True) h us.vps us.nodes
  | .one _ lab d, h => .cons (fit_labelled (deco_fit d h)) .nil
  | .cons _ lab d us, h => .cons (fit_labelled (deco_fit d h)) (units_fit us h)
  | .open_ _ lab e, h => .cons (fit_labelled (p := .look "" e.vp) (n := mkLook e.node) (.look ⟨rfl, rfl⟩ rfl (expr_fit e false))) .nil
theorem alts_fit : ∀ (as : Alts) (h : Bool), Fits (stage0 fun _ => True) h as.vps as.nodes
  | .one us, h => .cons (fits_seqOf (units_fit us)) .nil
  | .cons us _ as, h => .cons (fits_seqOf (units_fit us)) (alts_fit as h)
theorem expr_fit : ∀ (e : Expr) (h : Bool), Fit (stage0 fun _ => True) h none e.vp e.node
  | .single us _, h => fits_seqOf (units_fit us)
  | .choice _ us _ as _ _, h =>
    .choice ⟨rfl, rfl⟩ rfl (.cons (fits_seqOf (units_fit us)) (alts_fit as false))
end

mutual
theorem fit_at {A : String → Prop} : ∀ {h : Bool} {cb : Option Nat} {p : VP} {n : Node}, Fit (stage0 fun _ => True) h cb p n →
    (∀ nm ∈ p.spliced, A nm) → Fit (stage0 A) h cb p n
  | _, _, _, _, .str hi hc, _ => .str hi hc
  | _, _, _, _, .regex hi hc, _ => .regex hi hc
  | _, _, _, _, .ref hi hc hn, hA => .ref hi hc fun hl => hA _ (by simp [VP.spliced, hl])
  | _, _, _, _, .choice hi hc hl, hA => .choice hi hc (fits_at hl hA)
  | _, _, _, _, .seq hi hc hr hl, hA => .seq hi hc hr (fits_at hl hA)
  | _, _, _, _, .exist hi hc hn, hA => .exist hi hc (fit_at hn hA)
  | _, _, _, _, .look hi hc hn, hA => .look hi hc (fit_at hn hA)
  | _, _, _, _, .not hi hc hn, hA => .not hi hc (fit_at hn hA)
  | _, _, _, _, .pattern hi hc hv .none h1 h2, hA =>
    .pattern hi hc (fit_at hv fun nm hm => hA nm (List.mem_append.mpr (.inl hm))) .none h1 h2
  | _, _, _, _, .pattern hi hc hv (.some hj) h1 h2, hA =>
    .pattern hi hc (fit_at hv fun nm hm => hA nm (List.mem_append.mpr (.inl hm)))
      (.some (fit_at hj fun nm hm => hA nm (List.mem_append.mpr (.inr hm)))) h1 h2
theorem fits_at {A : String → Prop} : ∀ {h : Bool} {ps : List VP} {l : List Node}, Fits (stage0 fun _ => True) h ps l →
    (∀ nm ∈ splicedIn ps, A nm) → Fits (stage0 A) h ps l
  | _, _, _, .nil, _ => .nil
  | _, _, _, .cons hf hl, hA =>
    .cons (fit_at hf fun nm hm => hA nm (List.mem_append.mpr (.inl hm))) (fits_at hl fun nm hm => hA nm (List.mem_append.mpr (.inr hm)))
end

/-- The parser of a rule text, as it is made. -/
theorem expr_fit_at {A : String → Prop} (e : Expr) (hA : ∀ nm ∈ e.vp.spliced, A nm) (h : Bool) : Fit (stage0 A) h none e.vp e.node :=
  fit_at (expr_fit e h) hA

/-! ## Connected -/

mutual
theorem fit_attach {A : String → Prop} : ∀ {h : Bool} {cb : Option Nat} {p : VP} {n : Node}, Fit (stage0 A) h cb p n → ∀ rn, Fit (stage1 A) h cb p (n.attach rn h)
  | _, _, _, _, .str hi hc, rn => .str ⟨hi.1, hi.2, rfl⟩ hc
  | _, _, _, _, .regex hi hc, rn => .regex ⟨hi.1, hi.2, rfl⟩ hc
  | _, _, _, _, .ref hi hc hn, rn => .ref ⟨hi.1, hi.2, rfl⟩ hc hn
  | _, _, _, _, .choice hi hc hl, rn => .choice ⟨hi.1, hi.2, rfl⟩ hc (fits_attach hl rn)
  | _, _, _, _, .seq hi hc hr hl, rn => .seq ⟨hi.1, hi.2, rfl⟩ hc trivial (fits_attach hl rn)
  | _, _, _, _, .exist hi hc hn, rn => .exist ⟨hi.1, hi.2, rfl⟩ hc (fit_attach hn rn)
  | _, _, _, _, .look hi hc hn, rn => .look ⟨hi.1, hi.2, rfl⟩ hc (fit_attach hn rn)
  | _, _, _, _, .not hi hc hn, rn => .not ⟨hi.1, hi.2, rfl⟩ hc (fit_attach hn rn)
  | _, _, _, _, .pattern hi hc hv .none h1 h2, rn => .pattern ⟨hi.1, hi.2, rfl⟩ hc (fit_attach hv rn) .none h1 h2
  | _, _, _, _, .pattern hi hc hv (.some hj) h1 h2, rn =>
    .pattern ⟨hi.1, hi.2, rfl⟩ hc (fit_attach hv rn) (.some (fit_attach hj rn)) h1 h2
theorem fits_attach {A : String → Prop} : ∀ {h : Bool} {ps : List VP} {l : List Node}, Fits (stage0 A) h ps l → ∀ rn, Fits (stage1 A) h ps (Node.attachList rn h l)
  | _, _, _, .nil, rn => .nil
  | _, _, _, .cons hf hl, rn => .cons (fit_attach hf rn) (fits_attach hl rn)
end

/-! ## Prepared -/

mutual
/-- Labels of a prepared parser. -/
theorem fit_labels {S : Stage} (hS : ∀ h p i, S.info h p i → i.label = p.outLab) {f : String → Except Panic Bool}
    (hf : ∀ nm b, S.at_ nm → f nm = .ok b → b = true) :
    ∀ {h : Bool} {cb : Option Nat} {p : VP} {n : Node}, Fit S h cb p n → ∀ {y : Bool}, n.hasLabels f = .ok y → y = p.hasLabels
  | _, _, _, _, .str hi hc, y, hy => by simp only [Node.hasLabels, hS _ _ _ hi, Except.ok.injEq] at hy; exact hy.symm
  | _, _, _, _, .regex hi hc, y, hy => by simp only [Node.hasLabels, hS _ _ _ hi, Except.ok.injEq] at hy; exact hy.symm
  | _, _, _, _, @Fit.ref _ h cb lab nm q i hi hc hn, y, hy => by
    have h1 : i.label = lab := hS _ _ _ hi
    simp only [Node.hasLabels, h1] at hy
    simp only [VP.hasLabels]
    split at hy
    · rename_i hl
      rw [hf nm y (hn hl) hy, hl]
      rfl
    · cases hy; rfl
  | _, _, _, _, .choice hi hc hl, y, hy => by simp only [Node.hasLabels, hS _ _ _ hi, Except.ok.injEq] at hy; exact hy.symm
  | _, _, _, _, .seq hi hc hr hl, y, hy => fits_labels hS hf hl (by simpa only [Node.hasLabels] using hy)
  | _, _, _, _, @Fit.exist _ h cb lab p i n hi hc hn, y, hy => by
    have h2 : i.label = (VP.opt lab p).outLab := hS _ _ _ hi
    simp only [VP.outLab] at h2
    simp only [Node.hasLabels, h2] at hy
    simp only [VP.hasLabels]
    by_cases hl : lab = ""
    · subst hl
      by_cases hp : p.hasLabels = true
      · simp only [hp, beq_self_eq_true, Bool.and_self, if_true, ne_eq, not_true, false_and, and_false, if_false] at hy
        rw [fit_labels hS hf hn hy]
        simp
      · simp only [hp, Bool.false_and, Bool.false_eq_true, if_false, ne_eq, not_true, false_and] at hy
        rw [fit_labels hS hf hn hy]
        simp
    · have : (if (p.hasLabels && lab == "") = true then "@" else lab) = lab := by simp [hl]
      rw [this] at hy
      by_cases hl2 : lab = "@"
      · rw [if_neg (by simp [hl2])] at hy
        rw [fit_labels hS hf hn hy]
        simp [hl2]
      · by_cases hl3 : lab = "&"
        · rw [if_neg (by simp [hl3])] at hy
          rw [fit_labels hS hf hn hy]
          simp [hl3]
        · rw [if_pos ⟨hl, hl2, hl3⟩] at hy
          cases hy
          simp [hl, hl2, hl3]
  | _, _, _, _, .look hi hc hn, y, hy => by simp only [Node.hasLabels, hS _ _ _ hi, Except.ok.injEq] at hy; exact hy.symm
  | _, _, _, _, .not hi hc hn, y, hy => by simp only [Node.hasLabels, hS _ _ _ hi, Except.ok.injEq] at hy; exact hy.symm
  | _, _, _, _, .pattern hi hc hv hj h1 h2, y, hy => by simp only [Node.hasLabels, hS _ _ _ hi, Except.ok.injEq] at hy; exact hy.symm
theorem fits_labels {S : Stage} (hS : ∀ h p i, S.info h p i → i.label = p.outLab) {f : String → Except Panic Bool}
    (hf : ∀ nm b, S.at_ nm → f nm = .ok b → b = true) :
    ∀ {h : Bool} {ps : List VP} {l : List Node}, Fits S h ps l → ∀ {y : Bool}, Node.anyLabels f l = .ok y → y = VP.anyLabels ps
  | _, _, _, .nil, y, hy => by cases hy; rfl
  | _, _, _, .cons hn hl, y, hy => by
    simp only [Node.anyLabels, exceptBindOk, exceptPureOk] at hy
    obtain ⟨a, ha, b, hb, rfl⟩ := hy
    rw [fit_labels hS hf hn ha, fits_labels hS hf hl hb, VP.anyLabels]
end

theorem bool_one (b : Bool) : (if b = true then 1 else 0) = b.toNat := by cases b <;> rfl

mutual
theorem fit_count {S : Stage} (hS : ∀ h p i, S.info h p i → i.capture = p.keeps) :
    ∀ {h : Bool} {cb : Option Nat} {p : VP} {n : Node}, Fit S h cb p n → n.captures = p.count
  | _, _, _, _, .str hi hc => by simp [Node.captures, VP.keeps, VP.count, hS _ _ _ hi, bool_one]
  | _, _, _, _, .regex hi hc => by simp [Node.captures, VP.keeps, VP.count, hS _ _ _ hi, bool_one]
  | _, _, _, _, @Fit.ref _ h cb lab nm q i hi hc hn => by cases q <;> simp [Node.captures, VP.keeps, VP.count, hS _ _ _ hi]
  | _, _, _, _, .choice hi hc hl => by simp [Node.captures, VP.keeps, VP.count, hS _ _ _ hi, bool_one]
  | _, _, _, _, .seq hi hc hr hl => by
    have := fits_count hS hl
    simp only [Node.captures, VP.count, this]
  | _, _, _, _, .exist hi hc hn => by
    have := fit_count hS hn
    simp only [Node.captures, VP.count, this]
  | _, _, _, _, .look hi hc hn => by simp [Node.captures, VP.keeps, VP.count, hS _ _ _ hi, bool_one]
  | _, _, _, _, .not hi hc hn => by simp [Node.captures, VP.keeps, VP.count, hS _ _ _ hi, bool_one]
  | _, _, _, _, .pattern hi hc hv hj h1 h2 => by simp [Node.captures, VP.keeps, VP.count, hS _ _ _ hi, bool_one]
theorem fits_count {S : Stage} (hS : ∀ h p i, S.info h p i → i.capture = p.keeps) :
    ∀ {h : Bool} {ps : List VP} {l : List Node}, Fits S h ps l → Node.capturesAll l = VP.countAll ps
  | _, _, _, .nil => rfl
  | _, _, _, .cons hf hl => by
    have h1 := fit_count hS hf
    have h2 := fits_count hS hl
    simp only [Node.capturesAll, VP.countAll, h1, h2]
end

theorem info_notRule {rules : List Node} {n : Node} (h : n.isRule = false) : captureOf rules n = n.info.capture := by
  cases n <;> first | rfl | cases h

theorem fits_keeps {S : Stage} (hS : ∀ h p i, S.info h p i → i.capture = p.keeps) (rules : List Node) {h : Bool} :
    ∀ {ps : List VP} {l : List Node}, Fits S h ps l → l.all (captureOf rules) = VP.keepsAll ps
  | _, _, .nil => rfl
  | _, _, .cons hf hl => by
    rw [List.all_cons, fits_keeps hS rules hl, info_notRule hf.notRule, hS _ _ _ hf.info.1, VP.keepsAll]

/-- `labels` is the computation of labels, if the rules `A` have labels. -/
def LabelsIs (A : String → Prop) (labels : Node → Except Panic Bool) : Prop :=
  ∀ (n : Node) (y : Bool), labels n = .ok y → ∃ f, (∀ nm b, A nm → f nm = .ok b → b = true) ∧ n.hasLabels f = .ok y

theorem stage2_label {A : String → Prop} (h : Bool) (p : VP) (i : Info) (hi : (stage2 A).info h p i) : i.label = p.outLab := hi.1
theorem stage2_capture {A : String → Prop} (h : Bool) (p : VP) (i : Info) (hi : (stage2 A).info h p i) : i.capture = p.keeps := hi.2.1

mutual
theorem fit_prep {A : String → Prop} {labels : Node → Except Panic Bool} (hL : LabelsIs A labels) {rules : List Node} :
    ∀ {h : Bool} {cb : Option Nat} {p : VP} {n : Node}, Fit (stage1 A) h cb p n → ∀ {n' : Node}, n.prep labels rules = .ok n' → Fit (stage2 A) h cb p n'
  | _, _, _, _, .str hi hc, _, hp => by cases hp; exact .str hi hc
  | _, _, _, _, .regex hi hc, _, hp => by cases hp; exact .regex hi hc
  | _, _, _, _, .ref hi hc hn, _, hp => by cases hp; exact .ref hi hc hn
  | _, _, _, _, .choice hi hc hl, _, hp => by
    simp only [Node.prep, exceptBindOk, exceptPureOk] at hp
    obtain ⟨l', hl', rfl⟩ := hp
    have h1 := fits_prep hL hl hl'
    exact .choice ⟨hi.1, fits_keeps stage2_capture rules h1, hi.2.2⟩ hc h1
  | _, _, _, _, .seq hi hc hr hl, _, hp => by
    simp only [Node.prep, exceptBindOk, exceptPureOk] at hp
    obtain ⟨l', hl', rfl⟩ := hp
    exact .seq ⟨hi.1, hi.2.1, hi.2.2⟩ hc trivial (fits_prep hL hl hl')
  | _, _, _, _, @Fit.exist _ h cb lab p i n hi hc hn, _, hp => by
    simp only [Node.prep, exceptBindOk, exceptPureOk] at hp
    obtain ⟨n', hn', has, hhas, rfl⟩ := hp
    have h1 := fit_prep hL hn hn'
    have h2 : i.label = lab := hi.1
    have h3 : has = (VP.opt lab p).hasLabels := by
      obtain ⟨f, hf, hy⟩ := hL _ _ hhas
      simp only [Node.hasLabels, h2] at hy
      simp only [VP.hasLabels]
      split at hy
      · rename_i hl
        cases hy
        simp [hl.1, hl.2.1, hl.2.2]
      · rename_i hl
        rw [fit_labels stage2_label hf h1 hy]
        by_cases hl1 : lab = "" <;> by_cases hl2 : lab = "@" <;> by_cases hl3 : lab = "&" <;> simp [hl1, hl2, hl3] at hl ⊢
    subst h3
    refine .exist ⟨?_, ?_, hi.2.2⟩ hc h1
    · simp only [VP.outLab, VP.hasLabels, h2]
      by_cases hl : lab = "" <;> simp [hl]
    · simp only [VP.keeps, fit_count stage2_capture h1]
  | _, _, _, _, .look hi hc hn, _, hp => by
    simp only [Node.prep, exceptBindOk, exceptPureOk] at hp
    obtain ⟨n', hn', rfl⟩ := hp
    exact .look hi hc (fit_prep hL hn hn')
  | _, _, _, _, .not hi hc hn, _, hp => by
    simp only [Node.prep, exceptBindOk, exceptPureOk] at hp
    obtain ⟨n', hn', rfl⟩ := hp
    exact .not hi hc (fit_prep hL hn hn')
  | _, _, _, _, .pattern hi hc hv .none h1 h2, _, hp => by
    simp only [Node.prep, exceptBindOk, exceptPureOk] at hp
    obtain ⟨v', hv', rfl⟩ := hp
    exact .pattern hi hc (fit_prep hL hv hv') .none h1 h2
  | _, _, _, _, .pattern hi hc hv (.some hj) h1 h2, _, hp => by
    simp only [Node.prep, exceptBindOk, exceptPureOk] at hp
    obtain ⟨v', hv', j', hj', rfl⟩ := hp
    exact .pattern hi hc (fit_prep hL hv hv') (.some (fit_prep hL hj hj')) h1 h2
theorem fits_prep {A : String → Prop} {labels : Node → Except Panic Bool} (hL : LabelsIs A labels) {rules : List Node} :
    ∀ {h : Bool} {ps : List VP} {l : List Node}, Fits (stage1 A) h ps l → ∀ {l' : List Node}, Node.prepList labels rules l = .ok l' → Fits (stage2 A) h ps l'
  | _, _, _, .nil, _, hp => by cases hp; exact .nil
  | _, _, _, .cons hf hl, _, hp => by
    simp only [Node.prepList, exceptBindOk, exceptPureOk] at hp
    obtain ⟨n', hn', l', hl', rfl⟩ := hp
    exact .cons (fit_prep hL hf hn') (fits_prep hL hl hl')
end

/-! ## Finished -/

theorem seqType_form (l : List VP) : seqType (VP.anyLabels l) (VP.countAll l) = (formOf l).repr := by
  unfold seqType formOf
  cases VP.anyLabels l with
  | true => rfl
  | false =>
    by_cases h : 1 < VP.countAll l
    · simp [h, Form.repr]
    · simp [h, Form.repr]

mutual
theorem fit_setTypes {A : String → Prop} {labels : Node → Except Panic Bool} (hL : LabelsIs A labels) :
    ∀ {h : Bool} {cb : Option Nat} {p : VP} {n : Node}, Fit (stage2 A) h cb p n → ∀ {n' : Node}, n.setTypes labels = .ok n' → Fit stage3 h cb p n'
  | _, _, _, _, .str hi hc, _, hp => by cases hp; exact .str hi hc
  | _, _, _, _, .regex hi hc, _, hp => by cases hp; exact .regex hi hc
  | _, _, _, _, .ref hi hc hn, _, hp => by cases hp; exact .ref hi hc fun _ => trivial
  | _, _, _, _, .choice hi hc hl, _, hp => by
    simp only [Node.setTypes, exceptBindOk, exceptPureOk] at hp
    obtain ⟨l', hl', rfl⟩ := hp
    exact .choice hi hc (fits_setTypes hL hl hl')
  | _, _, _, _, @Fit.seq _ h cb lab ps i r l hi hc hr hl, _, hp => by
    simp only [Node.setTypes, exceptBindOk, exceptPureOk] at hp
    obtain ⟨has, hhas, l', hl', rfl⟩ := hp
    refine .seq hi hc ?_ (fits_setTypes hL hl hl')
    have h3 : has = VP.anyLabels ps := by
      obtain ⟨f, hf, hy⟩ := hL _ _ hhas
      exact fits_labels stage2_label hf hl (by simpa only [Node.hasLabels] using hy)
    subst h3
    rw [fits_count stage2_capture hl]
    exact seqType_form ps
  | _, _, _, _, .exist hi hc hn, _, hp => by
    simp only [Node.setTypes, exceptBindOk, exceptPureOk] at hp
    obtain ⟨n', hn', rfl⟩ := hp
    exact .exist hi hc (fit_setTypes hL hn hn')
  | _, _, _, _, .look hi hc hn, _, hp => by
    simp only [Node.setTypes, exceptBindOk, exceptPureOk] at hp
    obtain ⟨n', hn', rfl⟩ := hp
    exact .look hi hc (fit_setTypes hL hn hn')
  | _, _, _, _, .not hi hc hn, _, hp => by
    simp only [Node.setTypes, exceptBindOk, exceptPureOk] at hp
    obtain ⟨n', hn', rfl⟩ := hp
    exact .not hi hc (fit_setTypes hL hn hn')
  | _, _, _, _, .pattern hi hc hv .none h1 h2, _, hp => by
    simp only [Node.setTypes, exceptBindOk, exceptPureOk] at hp
    obtain ⟨v', hv', rfl⟩ := hp
    exact .pattern hi hc (fit_setTypes hL hv hv') .none h1 h2
  | _, _, _, _, .pattern hi hc hv (.some hj) h1 h2, _, hp => by
    simp only [Node.setTypes, exceptBindOk, exceptPureOk] at hp
    obtain ⟨v', hv', j', hj', rfl⟩ := hp
    exact .pattern hi hc (fit_setTypes hL hv hv') (.some (fit_setTypes hL hj hj')) h1 h2
theorem fits_setTypes {A : String → Prop} {labels : Node → Except Panic Bool} (hL : LabelsIs A labels) :
    ∀ {h : Bool} {ps : List VP} {l : List Node}, Fits (stage2 A) h ps l → ∀ {l' : List Node}, Node.setTypesList labels l = .ok l' → Fits stage3 h ps l'
  | _, _, _, .nil, _, hp => by cases hp; exact .nil
  | _, _, _, .cons hf hl, _, hp => by
    simp only [Node.setTypesList, exceptBindOk, exceptPureOk] at hp
    obtain ⟨n', hn', l', hl', rfl⟩ := hp
    exact .cons (fit_setTypes hL hf hn') (fits_setTypes hL hl hl')
end

end Joeson.RuleText
