import Verif.Proofs.Values2
import Mathlib.Logic.Relation
import Mathlib.Data.List.Nodup
import Batteries.Data.List.Perm
/-!
# The labels of rules merged with `@` can be computed
-/

set_option linter.unusedVariables false
set_option linter.unusedSectionVars false

namespace Joeson.RuleText

mutual
theorem optSpliced_sub : ∀ (p : VP), ∀ nm ∈ p.optSpliced, nm ∈ p.spliced
  | .name _ _ _, nm, h | .lit _ _, nm, h | .re _ _, nm, h => by simp [VP.optSpliced] at h
  | .seq _ l, nm, h | .alt _ l, nm, h => optSplicedIn_sub l nm h
  | .opt _ p, nm, h => h
  | .not _ p, nm, h | .look _ p, nm, h => optSpliced_sub p nm h
  | .rep _ v s _ _, nm, h => by
    simp only [VP.optSpliced, VP.spliced, List.mem_append] at h ⊢
    exact h.imp (optSpliced_sub v nm) (optSplicedInO_sub s nm)
theorem optSplicedIn_sub : ∀ (l : List VP), ∀ nm ∈ optSplicedIn l, nm ∈ splicedIn l
  | [], nm, h => by simp [optSplicedIn] at h
  | p :: l, nm, h => by
    simp only [optSplicedIn, splicedIn, List.mem_append] at h ⊢
    exact h.imp (optSpliced_sub p nm) (optSplicedIn_sub l nm)
theorem optSplicedInO_sub : ∀ (o : Option VP), ∀ nm ∈ optSplicedInO o, nm ∈ splicedInO o
  | none, nm, h => by simp [optSplicedInO] at h
  | some p, nm, h => optSpliced_sub p nm h
end

theorem optSpliced_nil (p : VP) (h : p.spliced = []) : p.optSpliced = [] :=
  List.eq_nil_iff_forall_not_mem.mpr fun nm hn => by simpa [h] using optSpliced_sub p nm hn

theorem spliced_setLab {l : String} (hl : l ≠ "@") {p : VP} (hp : p.spliced = []) : (p.setLab l).spliced = [] := by
  cases p with
  | name lab nm q => simp [VP.setLab, VP.spliced, hl]
  | _ => exact hp

theorem spliced_labelled {lab : Option Bytes} (hl : OtherLabel lab) {p : VP} (hp : p.spliced = []) : (VP.labelled lab p).spliced = [] := by
  cases lab with
  | none => exact hp
  | some w => exact spliced_setLab (hl w rfl) hp

theorem spliced_seqOf {l : List VP} (h : splicedIn l = []) : (VP.seqOf l).spliced = [] := by
  match l with
  | [] => rfl
  | [p] => simpa [VP.seqOf, splicedIn] using h
  | p :: q :: l => simpa [VP.seqOf, VP.spliced] using h

mutual
theorem Prim.noAt_spliced : ∀ (p : Prim), p.NoAt → p.vp.spliced = []
  | .ref _, _ | .call _ _, _ | .str _, _ | .regex _ _, _ | .cls _ _, _ => by simp [Prim.vp, VP.spliced]
  | .group e, h | .lgroup _ e, h => Expr.noAt_spliced e h
theorem Deco.noAt_spliced : ∀ (d : Deco), d.NoAt → d.vp.spliced = []
  | .prim p, h => Prim.noAt_spliced p h
  | .opt p, h | .not p, h => Prim.noAt_spliced p h
  | .star p _, h | .plus p, h | .times p _, h => by simp [Deco.vp, VP.spliced, splicedInO, Prim.noAt_spliced p h]
  | .starJoin p j _, h | .plusJoin p j, h => by simp [Deco.vp, VP.spliced, splicedInO, Prim.noAt_spliced p h.1, Prim.noAt_spliced j h.2]
  | .look e, h => Expr.noAt_spliced e h
theorem Units.noAt_spliced : ∀ (us : Units), us.NoAt → splicedIn us.vps = []
  | .one _ lab d, h => by simp [Units.vps, splicedIn, spliced_labelled h.1 (Deco.noAt_spliced d h.2)]
  | .cons _ lab d us, h => by simp [Units.vps, splicedIn, spliced_labelled h.1 (Deco.noAt_spliced d h.2.1), Units.noAt_spliced us h.2.2]
  | .open_ _ lab e, h => by
    have := spliced_labelled (p := .look "" e.vp) h.1 (Expr.noAt_spliced e h.2)
    simp [Units.vps, splicedIn, this]
theorem Alts.noAt_spliced : ∀ (as : Alts), as.NoAt → splicedIn as.vps = []
  | .one us, h => by simp [Alts.vps, splicedIn, spliced_seqOf (Units.noAt_spliced us h)]
  | .cons us _ as, h => by simp [Alts.vps, splicedIn, spliced_seqOf (Units.noAt_spliced us h.1), Alts.noAt_spliced as h.2]
theorem Expr.noAt_spliced : ∀ (e : Expr), e.NoAt → e.vp.spliced = []
  | .single us _, h => spliced_seqOf (Units.noAt_spliced us h)
  | .choice _ us _ as _ _, h => by
    simp [Expr.vp, VP.spliced, splicedIn, spliced_seqOf (Units.noAt_spliced us h.1), Alts.noAt_spliced as h.2]
end

/-- Without the label `@` nothing is merged. -/
theorem Expr.NoAt.merges {L : List GLine} {e : Expr} (h : e.NoAt) : e.Merges L :=
  ⟨by simp [Expr.noAt_spliced e h], optSpliced_nil _ (Expr.noAt_spliced e h)⟩

/-- `Spliceable`, checked. -/
def spliceableB (L : List GLine) : Nat → String → Bool
  | 0, _ => false
  | k + 1, nm => (rulesOf L).any fun d => d.1 == nm && match d.2.2 with
    | .text e => e.vp.hasLabels && e.vp.spliced.all (spliceableB L k)
    | .rank _ => false

theorem spliceableB_sound {L : List GLine} : ∀ (k : Nat) (nm : String), spliceableB L k nm = true → Spliceable L nm
  | 0, _, h => by cases h
  | k + 1, nm, h => by
    rw [spliceableB, List.any_eq_true] at h
    obtain ⟨⟨n, cb, y⟩, hd, h⟩ := h
    simp only [Bool.and_eq_true, beq_iff_eq] at h
    obtain ⟨rfl, h⟩ := h
    cases y with
    | text e =>
      simp only [Bool.and_eq_true, List.all_eq_true] at h
      exact .intro hd h.1 fun nm' hn => spliceableB_sound k nm' (h.2 nm' hn)
    | rank ls => cases h

/-- `Merges`, checked. -/
def Expr.mergesB (L : List GLine) (e : Expr) : Bool := e.vp.spliced.all (spliceableB L (rulesOf L).length) && e.vp.optSpliced.isEmpty

theorem Expr.mergesB_sound {L : List GLine} {e : Expr} (h : e.mergesB L = true) : e.Merges L := by
  simp only [Expr.mergesB, Bool.and_eq_true, List.all_eq_true, List.isEmpty_iff] at h
  exact ⟨fun nm hn => spliceableB_sound _ nm (h.1 nm hn), h.2⟩

mutual
theorem body_rules_all {C : Expr → Prop} : ∀ (y : Body), y.All C → ∀ nm cb e, (nm, cb, Body.text e) ∈ y.rules → C e
  | .text _, h, nm, cb, e, hm => by simp [Body.rules] at hm
  | .rank ls, h, nm, cb, e, hm => lines_rules_all ls h nm cb e hm
theorem lines_rules_all {C : Expr → Prop} : ∀ (ls : List GLine), AllLines C ls → ∀ nm cb e, (nm, cb, Body.text e) ∈ rulesOf ls → C e
  | [], h, nm, cb, e, hm => by simp [rulesOf] at hm
  | .alt nm0 cb0 y :: ls, h, nm, cb, e, hm => by
    simp only [rulesOf, GLine.rules, List.mem_append] at hm
    rcases hm with (hm | hm) | hm
    · split at hm
      · cases hm
      · simp only [List.mem_singleton, Prod.mk.injEq] at hm
        obtain ⟨_, _, rfl⟩ := hm
        exact h.1
    · exact body_rules_all y h.1 nm cb e hm
    · exact lines_rules_all ls h.2 nm cb e hm
  | .incl nm0 cb0 y :: ls, h, nm, cb, e, hm => by
    simp only [rulesOf, GLine.rules, List.mem_append, List.mem_cons, Prod.mk.injEq] at hm
    rcases hm with (⟨_, _, rfl⟩ | hm) | hm
    · exact h.1
    · exact body_rules_all y h.1 nm cb e hm
    · exact lines_rules_all ls h.2 nm cb e hm
end

section
variable {S : Stage} (hS : ∀ h lab nm q i, S.info h (.name lab nm q) i → i.label = lab)
include hS

mutual
theorem fit_definite : ∀ {h : Bool} {cb : Option Nat} {p : VP} {n : Node}, Fit S h cb p n → ∀ {B : String → Bool},
    (∀ nm ∈ p.spliced, B nm = true) → p.optSpliced = [] → Definite B n = true
  | _, _, _, _, .str _ _, B, _, _ => rfl
  | _, _, _, _, .regex _ _, B, _, _ => rfl
  | _, _, _, _, @Fit.ref _ h cb lab nm q i hi hc hn, B, hB, ho => by
    simp only [Definite, hS _ _ _ _ _ hi, Bool.or_eq_true, bne_iff_ne]
    by_cases hl : lab = "@"
    · exact .inr (hB nm (by simp [VP.spliced, hl]))
    · exact .inl hl
  | _, _, _, _, .choice _ _ hl, B, hB, ho => fits_definite hl hB ho
  | _, _, _, _, .seq _ _ _ hl, B, hB, ho => fits_definite hl hB ho
  | _, _, _, _, @Fit.exist _ h cb lab p i n hi hc hn, B, hB, ho => by
    have hs : p.spliced = [] := ho
    exact fit_definite (B := fun _ => false) hn (by simp [hs]) (optSpliced_nil p hs)
  | _, _, _, _, .look _ _ hn, B, hB, ho => fit_definite hn hB ho
  | _, _, _, _, .not _ _ hn, B, hB, ho => fit_definite hn hB ho
  | _, _, _, _, @Fit.pattern _ h cb lab p o mn' mx' i v j mn mx hi hc hv hj h1 h2, B, hB, ho => by
    simp only [VP.optSpliced, List.append_eq_nil_iff] at ho
    simp only [VP.spliced, List.mem_append] at hB
    have hv' := fit_definite hv (fun nm h => hB nm (.inl h)) ho.1
    have hj' := fito_definite hj (fun nm h => hB nm (.inr h)) ho.2
    cases j with
    | none => exact hv'
    | some j => simp only [Definite, Bool.and_eq_true]; exact ⟨hv', hj' j rfl⟩
theorem fits_definite : ∀ {h : Bool} {ps : List VP} {l : List Node}, Fits S h ps l → ∀ {B : String → Bool},
    (∀ nm ∈ splicedIn ps, B nm = true) → optSplicedIn ps = [] → DefiniteAll B l = true
  | _, _, _, .nil, B, _, _ => rfl
  | _, _, _, .cons hn hl, B, hB, ho => by
    simp only [optSplicedIn, List.append_eq_nil_iff] at ho
    simp only [splicedIn, List.mem_append] at hB
    simp only [DefiniteAll, Bool.and_eq_true]
    exact ⟨fit_definite hn (fun nm h => hB nm (.inl h)) ho.1, fits_definite hl (fun nm h => hB nm (.inr h)) ho.2⟩
theorem fito_definite : ∀ {o : Option VP} {j : Option Node}, FitO S o j → ∀ {B : String → Bool},
    (∀ nm ∈ splicedInO o, B nm = true) → optSplicedInO o = [] → ∀ n, j = some n → Definite B n = true
  | _, _, .none, B, _, _, n, h => by cases h
  | _, _, .some hn, B, hB, ho, n, h => by cases h; exact fit_definite hn hB ho
end

end

theorem expr_definite (e : Expr) {B : String → Bool} (hB : ∀ nm ∈ e.vp.spliced, B nm = true) (ho : e.vp.optSpliced = []) :
    Definite B e.node = true :=
  fit_definite (S := stage0 fun _ => True) (fun _ _ _ _ _ h => h.1) (expr_fit e false) hB ho

/-- Merged by. -/
def MergedBy (L : List GLine) (nm' nm : String) : Prop := ∃ cb e, (nm, cb, Body.text e) ∈ rulesOf L ∧ nm' ∈ e.vp.spliced

theorem rulesOf_names (L : List GLine) : (rulesOf L).map (·.1) = (declsOf L).map (·.1) := by
  rw [rulesOf_decls, List.map_map]; rfl

theorem rules_unique {L : List GLine} (hnd : ((declsOf L).map (·.1)).Nodup) {nm : String} {cb cb' : Option Nat} {y y' : Body}
    (h : (nm, cb, y) ∈ rulesOf L) (h' : (nm, cb', y') ∈ rulesOf L) : cb = cb' ∧ y = y' := by
  rw [← rulesOf_names] at hnd
  have := List.inj_on_of_nodup_map hnd h h' rfl
  cases this
  exact ⟨rfl, rfl⟩

theorem Spliceable.acc {L : List GLine} (hnd : ((declsOf L).map (·.1)).Nodup) {nm : String} (h : Spliceable L nm) : Acc (MergedBy L) nm := by
  induction h with
  | intro hd _ _ ih =>
    refine ⟨_, ?_⟩
    rintro nm' ⟨cb', e', hd', hm⟩
    obtain ⟨_, he⟩ := rules_unique hnd hd hd'
    cases he
    exact ih nm' hm

theorem acc_irrefl {α : Type} {r : α → α → Prop} {a : α} (h : Acc r a) : ¬ r a a := by
  induction h with
  | intro a _ ih => exact fun hr => ih a hr hr

theorem follow_total {L : List GLine} (hnd : ((declsOf L).map (·.1)).Nodup) (hopt : ∀ nm cb e, (nm, cb, Body.text e) ∈ rulesOf L → e.vp.optSpliced = [])
    {A : String → Prop} {lookup : String → Option Nat} {R : List Node}
    (hR : ∀ nm cb e, (nm, cb, Body.text e) ∈ rulesOf L → ∃ id n cb', lookup nm = some id ∧ R[id]? = some n ∧ Fit (stage2 A) false cb' e.vp n)
    {nm : String} (h : Spliceable L nm) : ∀ (k : Nat) (seen : List String), seen.Nodup → (∀ v ∈ seen, v ∈ (declsOf L).map (·.1)) →
      (∀ v ∈ seen, Relation.TransGen (MergedBy L) nm v) → (declsOf L).length ≤ seen.length + k → ∃ x, followLabels lookup R k nm = .ok x := by
  have hacc := h.acc hnd
  induction h with
  | @intro nm cb e hd hh hm ih =>
    intro k seen hs hsub hreach hk
    have hnot : nm ∉ seen := fun hin => acc_irrefl hacc.transGen (hreach nm hin)
    have hin : nm ∈ (declsOf L).map (·.1) := by
      rw [← rulesOf_names]; exact List.mem_map.mpr ⟨_, hd, rfl⟩
    have hs' : (nm :: seen).Nodup := List.nodup_cons.mpr ⟨hnot, hs⟩
    have hsub' : ∀ v ∈ nm :: seen, v ∈ (declsOf L).map (·.1) := by
      intro v hv
      rcases List.mem_cons.mp hv with rfl | hv
      · exact hin
      · exact hsub v hv
    have hlen : (nm :: seen).length ≤ (declsOf L).length := by
      have := (List.subperm_of_subset hs' hsub').length_le
      simpa using this
    obtain ⟨id, n, cb', hlook, hid, hfit⟩ := hR nm cb e hd
    cases k with
    | zero => simp only [List.length_cons] at hlen; omega
    | succ k =>
      rw [followLabels, hlook]
      simp only [hid]
      refine definite_labels (A := fun x => decide (x ∈ e.vp.spliced)) n ?_
        (fit_definite (S := stage2 A) (fun _ _ _ _ _ h => h.1) hfit (by simp) (hopt nm cb e hd))
      intro nm' hnm'
      have hnm' : nm' ∈ e.vp.spliced := by simpa using hnm'
      refine ih nm' hnm' ((hm nm' hnm').acc hnd) k (nm :: seen) hs' hsub' ?_ (by simp only [List.length_cons]; omega)
      intro v hv
      have hstep : MergedBy L nm' nm := ⟨cb, e, hd, hnm'⟩
      rcases List.mem_cons.mp hv with rfl | hv
      · exact .single hstep
      · exact .head hstep (hreach v hv)

/-- The labels of mergeable rules can be computed when types are determined. -/
theorem connect_follow {L : List GLine} {i : Info} {incl alts : List Rules}
    (h3 : TreeI false L incl) (h4 : TreeA false L alts) (v3 : TreeVI (Labelled L) L incl) (v4 : TreeVA (Labelled L) L alts)
    (hq : ∀ d ∈ declsOf L, Auto d.1 = false) (hnd : ((declsOf L).map (·.1)).Nodup)
    (hopt : ∀ nm cb e, (nm, cb, Body.text e) ∈ rulesOf L → e.vp.optSpliced = []) {n : Node} {s : Conn} {rules : List Node}
    (hc : connect "" {} (.rank 0 false i incl alts) = .ok (n, s)) (hprep : prepAll s.lookup s.rules [] = .ok rules) {nm : String}
    (h : Spliceable L nm) : ∃ x, followLabels s.lookup rules rules.length nm = .ok x := by
  simp only [connect, exceptBindOk, exceptPureOk, Prod.exists, Prod.mk.injEq] at hc
  obtain ⟨l1, s1, hc1, l2, s2, hc2, _, rfl⟩ := hc
  obtain ⟨hlook, hall, hreal, hlab⟩ := connect_found h3 h4 v3 v4 hq hnd hc1 hc2
  obtain ⟨lp, hlp, p1, hlen⟩ := prepAll_passV (d0 := []) (by simpa using hlab) rfl (by intro id n hn; simp at hn) hprep
  simp only [List.nil_append] at hlp
  subst hlp
  have hidx : ∀ nm cb y, (nm, cb, y) ∈ rulesOf L → ∃ id n, s2.rules[id]? = some n ∧ n.info.name = nm ∧ s2.lookup nm = some id ∧
      ImplV (stage1 (Labelled L)) s2.rules cb y id := by
    intro nm cb y hd
    obtain ⟨id, n, hid, hname, himp⟩ := hall _ hd
    exact ⟨id, n, hid, hname, (hlook nm id (hreal nm cb y hd)).mp (by rw [List.getElem?_map, hid]; simp [hname]), himp⟩
  refine follow_total (A := Labelled L) hnd hopt ?_ h _ [] (by simp) (by simp) (by simp) ?_
  · intro nm cb e hd
    obtain ⟨id, n, hid, hname, hl, himp⟩ := hidx nm cb _ hd
    simp only [ImplV] at himp
    obtain ⟨n0, hn0, hf⟩ := himp
    obtain ⟨n', hn', pass⟩ := p1 id n0 hn0
    exact ⟨id, n', cb, hl, hn', pass.fit cb _ hf⟩
  · have hsub : (declsOf L).map (·.1) ⊆ s2.rules.map (·.info.name) := by
      intro nm hnm
      rw [← rulesOf_names] at hnm
      obtain ⟨⟨nm', cb, y⟩, hd, rfl⟩ := List.mem_map.mp hnm
      obtain ⟨id, n, hid, hname, _⟩ := hidx _ cb y hd
      exact List.mem_map.mpr ⟨n, List.mem_of_getElem? hid, hname⟩
    have := (List.subperm_of_subset hnd hsub).length_le
    simp only [List.length_map] at this
    simp only [List.length_nil, Nat.zero_add]
    omega

end Joeson.RuleText
