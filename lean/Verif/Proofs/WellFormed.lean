import Verif.Spec.WellFormed
import Verif.Proofs.Precedence2
/-!
# Well formed grammars: lemmas
-/

namespace Joeson
open RuleText

variable {V : Type} {P : PureOps V} {N : Nat} {L : List GLine} {e : String → Prop}

/-! ## What is consumed -/

/-- Can it match nothing? -/
def jobEps (e : String → Prop) : VJob V → Prop
  | .part _ p | .core _ p => p.Eps e
  | .alts l => VP.EpsAny e l
  | .items _ l _ => VP.EpsAll e l
  | .sep _ | .more _ _ _ _ _ => True
  | .rule _ b => b.Eps e
  | .lines ls => linesEps e ls

/-- The outcome leaves no more than `n`, and less if `p`. -/
def Leaves (p : Prop) (n : Nat) (r : VRes V) : Prop := ∀ v s', r = .ok (some (v, s')) → s'.length ≤ n ∧ (p → s'.length < n)

theorem Leaves.none {p : Prop} {n : Nat} : Leaves (V := V) p n (.ok none) := fun _ _ h => by cases h
theorem Leaves.error {p : Prop} {n : Nat} {x : Panic} : Leaves (V := V) p n (.error x) := fun _ _ h => by cases h

theorem Leaves.own {p : Prop} {n : Nat} {h : Bool} {q : VP} {r : VRes V} (hr : Leaves p n r) : Leaves p n (own P h q r) := by
  intro v s' he
  match r, hr, he with
  | .ok (some (v', s'')), hr, he =>
    simp only [RuleText.own, Except.ok.injEq, Option.some.injEq, Prod.mk.injEq] at he
    exact he.2 ▸ hr _ _ rfl

theorem Leaves.called {p : Prop} {n : Nat} {cb : Option Nat} {r : VRes V} (hr : Leaves p n r) : Leaves p n (called P N cb r) := by
  intro v s' he
  match r, hr, he with
  | .ok (some (v', s'')), hr, he =>
    unfold RuleText.called at he
    cases cb with
    | none =>
      simp only [Except.ok.injEq, Option.some.injEq, Prod.mk.injEq] at he
      exact he.2 ▸ hr _ _ rfl
    | some c =>
      dsimp only at he
      split at he
      · cases he
      · cases he
      · simp only [Except.ok.injEq, Option.some.injEq, Prod.mk.injEq] at he
        exact he.2 ▸ hr _ _ rfl

theorem Leaves.vstop {p : Prop} {n mn : Nat} {vs : List V} {s : Bytes} (hs : s.length ≤ n) (hp : p → s.length < n ∨ vs.length < mn) : Leaves p n (vstop P mn vs s) := by
  intro v s' he
  unfold RuleText.vstop at he
  split at he
  · cases he
  · cases he
    exact ⟨hs, fun h => (hp h).resolve_right (by assumption)⟩

theorem Leaves.weaken {p q : Prop} {n m : Nat} {r : VRes V} (hr : Leaves p n r) (hn : n ≤ m) (h : q → p ∨ n < m) : Leaves q m r := by
  intro v s' he
  obtain ⟨h1, h2⟩ := hr v s' he
  refine ⟨by omega, fun hq => ?_⟩
  rcases h hq with hp | hp
  · have := h2 hp; omega
  · omega

theorem yields_leaves (he : ∀ nm cb b, (nm, cb, b) ∈ rulesOf L → b.Eps e → e nm) {d : Nat} {j : VJob V} {s : Bytes} {r : VRes V}
    (h : Yields P N L d j s r) : Leaves (¬ jobEps e j) s.length r := by
  induction h with
  | part _ ih => exact ih.own
  | lit =>
    rename_i b s
    intro v s' h
    cases h
    refine ⟨by simp, fun hn => ?_⟩
    simp only [jobEps, VP.Eps] at hn
    have := List.length_pos_iff.mpr hn
    simp only [List.length_append]
    omega
  | litMiss => exact .none
  | re hr =>
    rename_i rr n s
    intro v s' h
    cases h
    refine ⟨by simp, fun hn => ?_⟩
    simp only [jobEps, VP.Eps, not_exists] at hn
    have hb := (rr.bounds s 0 n hr).2
    have : n ≠ 0 := by rintro rfl; exact hn _ hr
    simp only [List.length_drop]
    omega
  | reMiss => exact .none
  | name hm _ ih => exact ih.weaken (Nat.le_refl _) fun hn => .inl fun hb => hn (he _ _ _ hm hb)
  | alt _ ih => exact ih
  | altsEnd => exact .none
  | altsDone _ _ ih => exact ih.weaken (Nat.le_refl _) fun hn => .inl fun hb => hn (.inl hb)
  | altsMiss _ _ _ ih => exact ih.weaken (Nat.le_refl _) fun hn => .inl fun hb => hn (.inr hb)
  | seq _ ih => exact ih
  | itemsEnd =>
    intro v s' h
    cases h
    exact ⟨Nat.le_refl _, fun hn => absurd (by simp [jobEps, VP.EpsAll]) hn⟩
  | itemsMiss => exact .none
  | itemsPanic => exact .error
  | itemsPut _ _ _ ih1 ih2 =>
    obtain ⟨h1, h2⟩ := ih1 _ _ rfl
    refine ih2.weaken h1 fun hn => ?_
    simp only [jobEps, VP.EpsAll, not_and_or] at hn
    exact hn.symm.imp id h2
  | itemsBad => exact .error
  | optDone _ _ ih => exact ih.weaken (Nat.le_refl _) fun hn => absurd (by simp [jobEps, VP.Eps]) hn
  | optMiss =>
    intro v s' h
    cases h
    exact ⟨Nat.le_refl _, fun hn => absurd (by simp [jobEps, VP.Eps]) hn⟩
  | notHit => exact .none
  | notMiss =>
    intro v s' h
    cases h
    exact ⟨Nat.le_refl _, fun hn => absurd (by simp [jobEps, VP.Eps]) hn⟩
  | notPanic => exact .error
  | lookHit =>
    intro v s' h
    cases h
    exact ⟨Nat.le_refl _, fun hn => absurd (by simp [jobEps, VP.Eps]) hn⟩
  | lookMiss => exact .none
  | lookPanic => exact .error
  | repMiss =>
    refine Leaves.vstop (Nat.le_refl _) fun hn => .inr ?_
    simp only [jobEps, VP.Eps, not_or] at hn
    simp only [List.length_nil]
    omega
  | repPanic => exact .error
  | rep _ _ ih1 ih2 =>
    obtain ⟨h1, h2⟩ := ih1 _ _ rfl
    refine ih2.weaken h1 fun hn => .inr (h2 ?_)
    simp only [jobEps, VP.Eps, not_or] at hn
    exact hn.2
  | sepNone =>
    intro v s' h
    cases h
    exact ⟨Nat.le_refl _, fun hn => absurd (by simp [jobEps]) hn⟩
  | sepSome _ ih => exact ih.weaken (Nat.le_refl _) fun hn => absurd (by simp [jobEps]) hn
  | full => exact Leaves.vstop (Nat.le_refl _) fun hn => absurd (by simp [jobEps]) hn
  | noSep => exact Leaves.vstop (Nat.le_refl _) fun hn => absurd (by simp [jobEps]) hn
  | sepPanic => exact .error
  | noMore => exact Leaves.vstop (Nat.le_refl _) fun hn => absurd (by simp [jobEps]) hn
  | morePanic => exact .error
  | more _ _ _ _ ih1 ih2 ih3 =>
    obtain ⟨h1, _⟩ := ih1 _ _ rfl
    obtain ⟨h2, _⟩ := ih2 _ _ rfl
    exact ih3.weaken (by omega) fun hn => absurd (by simp [jobEps]) hn
  | text _ ih => exact ih.called
  | rank _ ih => exact ih.called
  | linesEnd => exact .none
  | incl _ ih => exact ih.weaken (Nat.le_refl _) fun hn => .inl fun hb => hn (.inr hb)
  | altDone _ _ ih => exact ih.weaken (Nat.le_refl _) fun hn => .inl fun hb => hn (.inl hb)
  | altMiss _ _ _ ih => exact ih.weaken (Nat.le_refl _) fun hn => .inl fun hb => hn (.inr hb)

/-! ## More rules to look up -/

section
variable {known left left' : String → Prop} (hl : ∀ n, left n → left' n)
include hl

mutual
theorem vp_wf_mono : ∀ p : VP, p.Wf e known left → p.Wf e known left'
  | .lit _ _, h => h
  | .re _ _, h => h
  | .name _ _ _, h => by unfold VP.Wf at *; exact hl _ h
  | .seq _ l, h => by unfold VP.Wf at *; exact wfSeq_mono l h
  | .alt _ l, h => by unfold VP.Wf at *; exact wfAll_mono l h
  | .opt _ p, h => by unfold VP.Wf at *; exact vp_wf_mono p h
  | .not _ p, h => by unfold VP.Wf at *; exact vp_wf_mono p h
  | .look _ p, h => by unfold VP.Wf at *; exact vp_wf_mono p h
  | .rep _ v none _ _, h => by unfold VP.Wf at *; exact ⟨vp_wf_mono v h.1, h.2⟩
  | .rep _ v (some p) _ _, h => by unfold VP.Wf at *; exact ⟨vp_wf_mono v h.1, h.2⟩
theorem wfSeq_mono : ∀ l : List VP, VP.WfSeq e known left l → VP.WfSeq e known left' l
  | [], h => h
  | p :: l, h => by unfold VP.WfSeq at *; exact ⟨vp_wf_mono p h.1, fun hp => wfSeq_mono l (h.2.1 hp), h.2.2⟩
theorem wfAll_mono : ∀ l : List VP, VP.WfAll e known left l → VP.WfAll e known left' l
  | [], h => h
  | p :: l, h => by unfold VP.WfAll at *; exact ⟨vp_wf_mono p h.1, wfAll_mono l h.2⟩
end

mutual
theorem body_wf_mono : ∀ b : Body, b.Wf e known left → b.Wf e known left'
  | .text x, h => by unfold Body.Wf at *; exact vp_wf_mono hl _ h
  | .rank ls, h => by unfold Body.Wf at *; exact lines_wf_mono ls h
theorem line_wf_mono : ∀ b : GLine, b.Wf e known left → b.Wf e known left'
  | .alt _ _ b, h => by unfold GLine.Wf at *; exact body_wf_mono b h
  | .incl _ _ _, h => h
theorem lines_wf_mono : ∀ ls : List GLine, linesWf e known left ls → linesWf e known left' ls
  | [], h => h
  | l :: ls, h => by unfold linesWf at *; exact ⟨line_wf_mono l h.1, lines_wf_mono ls h.2⟩
end

end

/-! ## There is an outcome -/

/-- There is an outcome. -/
def Has (P : PureOps V) (N : Nat) (L : List GLine) (j : VJob V) (s : Bytes) : Prop := ∃ d r, Yields P N L d j s r

/-- What the job looks up. -/
def jobWf (P : PureOps V) (e known left : String → Prop) : VJob V → Prop
  | .part _ p | .core _ p => p.Wf e known left
  | .alts l => VP.WfAll e known left l
  | .items f l acc => VP.WfSeq e known left l ∧ ∃ v, gather P f acc = .ok v
  | .sep o => ∀ p, o = some p → p.Wf e known left
  | .more v o _ _ _ => v.Wf e known left ∧ ¬ v.Eps e ∧ ∀ p, o = some p → p.Wf e known left
  | .rule _ b => b.Wf e known left
  | .lines ls => linesWf e known left ls

theorem Has.part {h : Bool} {p : VP} {s : Bytes} (hc : Has P N L (.core h p) s) : Has P N L (.part h p) s := by
  obtain ⟨d, r, hy⟩ := hc
  exact ⟨d, _, .part hy⟩

section
variable (heps : ∀ nm cb b, (nm, cb, b) ∈ rulesOf L → b.Eps e → e nm) {n : Nat}
  (ih : ∀ s : Bytes, s.length < n → ∀ j, jobWf P e (Known L) (Known L) j → Has P N L j s)
  {left : String → Prop} (hleft : ∀ nm, left nm → Known L nm)
  (hname : ∀ nm, left nm → ∀ lab q h (s : Bytes), s.length = n → Has P N L (.core h (.name lab nm q)) s)
include heps ih hleft hname

mutual
theorem has_core : ∀ (p : VP), p.Wf e (Known L) left → ∀ (h : Bool) (s : Bytes), s.length = n → Has P N L (.core h p) s
  | .lit lab b, _, h, s, _ => by
    by_cases hb : ∃ s', s = b ++ s'
    · obtain ⟨s', rfl⟩ := hb
      exact ⟨0, _, .lit⟩
    · exact ⟨0, _, .litMiss fun s' hs => hb ⟨s', hs⟩⟩
  | .re lab r, _, h, s, _ => by
    by_cases hb : ∃ n, r.find s = some (0, n)
    · obtain ⟨n, hn⟩ := hb
      exact ⟨0, _, .re hn⟩
    · exact ⟨0, _, .reMiss fun n hn => hb ⟨n, hn⟩⟩
  | .name lab nm q, hw, h, s, hs => hname nm (by unfold VP.Wf at hw; exact hw) lab q h s hs
  | .seq lab l, hw, h, s, hs => by
    unfold VP.Wf at hw
    obtain ⟨d, r, hy⟩ := has_items l hw (formOf l) [] (by cases formOf l <;> exact ⟨_, rfl⟩) s hs
    exact ⟨d, r, .seq hy⟩
  | .alt lab l, hw, h, s, hs => by
    unfold VP.Wf at hw
    obtain ⟨d, r, hy⟩ := has_alts l hw s hs
    exact ⟨d, r, .alt hy⟩
  | .opt lab p, hw, h, s, hs => by
    unfold VP.Wf at hw
    obtain ⟨d, r, hy⟩ := (has_core p hw h s hs).part
    by_cases hr : r = .ok none
    · subst hr; exact ⟨d, _, .optMiss hy⟩
    · exact ⟨d, _, .optDone hy hr⟩
  | .not lab p, hw, h, s, hs => by
    unfold VP.Wf at hw
    obtain ⟨d, r, hy⟩ := (has_core p hw false s hs).part
    match r, hy with
    | .ok none, hy => exact ⟨d, _, .notMiss hy⟩
    | .ok (some _), hy => exact ⟨d, _, .notHit hy⟩
    | .error _, hy => exact ⟨d, _, .notPanic hy⟩
  | .look lab p, hw, h, s, hs => by
    unfold VP.Wf at hw
    obtain ⟨d, r, hy⟩ := (has_core p hw false s hs).part
    match r, hy with
    | .ok none, hy => exact ⟨d, _, .lookMiss hy⟩
    | .ok (some (_, _)), hy => exact ⟨d, _, .lookHit hy⟩
    | .error _, hy => exact ⟨d, _, .lookPanic hy⟩
  | .rep lab v none mn mx, hw, h, s, hs => by
    unfold VP.Wf at hw
    obtain ⟨d, r, hy⟩ := (has_core v hw.1 false s hs).part
    match r, hy with
    | .ok none, hy => exact ⟨d, _, .repMiss hy⟩
    | .error _, hy => exact ⟨d, _, .repPanic hy⟩
    | .ok (some (x, s')), hy =>
      have hlt := (yields_leaves heps hy _ _ rfl).2 hw.2
      obtain ⟨d', r', hy'⟩ := ih s' (by omega) (.more v none mn mx [x]) ⟨vp_wf_mono hleft v hw.1, hw.2, by simp⟩
      exact ⟨max d d', _, .rep (yields_upTo hy (by omega)) (yields_upTo hy' (by omega))⟩
  | .rep lab v (some p) mn mx, hw, h, s, hs => by
    unfold VP.Wf at hw
    obtain ⟨d, r, hy⟩ := (has_core v hw.1 false s hs).part
    match r, hy with
    | .ok none, hy => exact ⟨d, _, .repMiss hy⟩
    | .error _, hy => exact ⟨d, _, .repPanic hy⟩
    | .ok (some (x, s')), hy =>
      have hlt := (yields_leaves heps hy _ _ rfl).2 hw.2.1
      obtain ⟨d', r', hy'⟩ := ih s' (by omega) (.more v (some p) mn mx [x]) ⟨vp_wf_mono hleft v hw.1, hw.2.1, by rintro q ⟨⟩; exact hw.2.2⟩
      exact ⟨max d d', _, .rep (yields_upTo hy (by omega)) (yields_upTo hy' (by omega))⟩
theorem has_items : ∀ (l : List VP), VP.WfSeq e (Known L) left l → ∀ (f : Form) (acc : List (VP × V)), (∃ v, gather P f acc = .ok v) → ∀ (s : Bytes), s.length = n → Has P N L (.items f l acc) s
  | [], _, f, acc, ⟨v, hg⟩, s, _ => ⟨0, _, .itemsEnd hg⟩
  | p :: l, hw, f, acc, _, s, hs => by
    unfold VP.WfSeq at hw
    obtain ⟨d, r, hy⟩ := (has_core p hw.1 true s hs).part
    match r, hy with
    | .ok none, hy => exact ⟨d, _, .itemsMiss hy⟩
    | .error _, hy => exact ⟨d, _, .itemsPanic hy⟩
    | .ok (some (v, s')), hy =>
      cases hg : gather P f (acc ++ [(p, v)]) with
      | error x => exact ⟨d, _, .itemsBad hy hg⟩
      | ok w =>
        have hlt := yields_leaves heps hy _ _ rfl
        have : Has P N L (.items f l (acc ++ [(p, v)])) s' := by
          by_cases hp : s'.length = n
          · exact has_items l (hw.2.1 (Classical.byContradiction fun hn => by have := hlt.2 hn; omega)) f _ ⟨w, hg⟩ s' hp
          · exact ih s' (by omega) _ ⟨hw.2.2, w, hg⟩
        obtain ⟨d', r', hy'⟩ := this
        exact ⟨max d d', _, .itemsPut (yields_upTo hy (by omega)) hg (yields_upTo hy' (by omega))⟩
theorem has_alts : ∀ (l : List VP), VP.WfAll e (Known L) left l → ∀ (s : Bytes), s.length = n → Has P N L (.alts l) s
  | [], _, _, _ => ⟨0, _, .altsEnd⟩
  | p :: l, hw, s, hs => by
    unfold VP.WfAll at hw
    obtain ⟨d, r, hy⟩ := (has_core p hw.1 false s hs).part
    by_cases hr : r = .ok none
    · subst hr
      obtain ⟨d', r', hy'⟩ := has_alts l hw.2 s hs
      exact ⟨max d d', _, .altsMiss (yields_upTo hy (by omega)) (yields_upTo hy' (by omega))⟩
    · exact ⟨d, _, .altsDone hy hr⟩
end

mutual
theorem has_body : ∀ (b : Body), b.Wf e (Known L) left → ∀ (cb : Option Nat) (s : Bytes), s.length = n → Has P N L (.rule cb b) s
  | .text x, hw, cb, s, hs => by
    unfold Body.Wf at hw
    obtain ⟨d, r, hy⟩ := (has_core heps ih hleft hname x.vp hw false s hs).part
    exact ⟨d + 1, _, .text hy⟩
  | .rank ls, hw, cb, s, hs => by
    unfold Body.Wf at hw
    obtain ⟨d, r, hy⟩ := has_lines ls hw s hs
    exact ⟨d + 1, _, .rank hy⟩
theorem has_line : ∀ (l : GLine), l.Wf e (Known L) left → ∀ (ls : List GLine) (s : Bytes), s.length = n → Has P N L (.lines ls) s → Has P N L (.lines (l :: ls)) s
  | .incl _ _ _, _, ls, s, hs, ⟨d, r, hy⟩ => ⟨d, r, .incl hy⟩
  | .alt nm cb b, hw, ls, s, hs, ⟨d', r', hy'⟩ => by
    unfold GLine.Wf at hw
    obtain ⟨d, r, hy⟩ := has_body b hw cb s hs
    by_cases hr : r = .ok none
    · subst hr
      exact ⟨max d d', _, .altMiss (yields_upTo hy (by omega)) (yields_upTo hy' (by omega))⟩
    · exact ⟨d, _, .altDone hy hr⟩
theorem has_lines : ∀ (ls : List GLine), linesWf e (Known L) left ls → ∀ (s : Bytes), s.length = n → Has P N L (.lines ls) s
  | [], _, _, _ => ⟨0, _, .linesEnd⟩
  | l :: ls, hw, s, hs => by
    unfold linesWf at hw
    exact has_line l hw.1 ls s hs (has_lines ls hw.2 s hs)
end

/-- Every job that is not inside a repetition. -/
theorem has_job (hknown : ∀ nm, Known L nm → left nm) (j : VJob V) (hw : jobWf P e (Known L) (Known L) j) (s : Bytes) (hs : s.length = n) : Has P N L j s := by
  have hsep : ∀ o : Option VP, (∀ p, o = some p → p.Wf e (Known L) (Known L)) → Has P N L (.sep o) s := by
    intro o ho
    cases o with
    | none => exact ⟨0, _, .sepNone⟩
    | some p =>
      obtain ⟨d, r, hy⟩ := (has_core heps ih hleft hname p (vp_wf_mono hknown p (ho p rfl)) false s hs).part
      exact ⟨d, r, .sepSome hy⟩
  cases j with
  | part h p => exact (has_core heps ih hleft hname p (vp_wf_mono hknown p hw) h s hs).part
  | core h p => exact has_core heps ih hleft hname p (vp_wf_mono hknown p hw) h s hs
  | alts l => exact has_alts heps ih hleft hname l (wfAll_mono hknown l hw) s hs
  | items f l acc => exact has_items heps ih hleft hname l (wfSeq_mono hknown l hw.1) f acc hw.2 s hs
  | sep o => exact hsep o hw
  | rule cb b => exact has_body heps ih hleft hname b (body_wf_mono hknown b hw) cb s hs
  | lines ls => exact has_lines heps ih hleft hname ls (lines_wf_mono hknown ls hw) s hs
  | more v o mn mx vs =>
    obtain ⟨hv, hne, ho⟩ := hw
    by_cases hroom : Room mx vs.length
    · obtain ⟨d, r, hy⟩ := hsep o ho
      match r, hy with
      | .ok none, hy => exact ⟨d, _, .noSep hroom hy⟩
      | .error _, hy => exact ⟨d, _, .sepPanic hroom hy⟩
      | .ok (some (w, s')), hy =>
        have hle := (yields_leaves heps hy _ _ rfl).1
        have hp : Has P N L (.part false v) s' := by
          by_cases hq : s'.length = n
          · exact (has_core heps ih hleft hname v (vp_wf_mono hknown v hv) false s' hq).part
          · exact ih s' (by omega) _ hv
        obtain ⟨d', r', hy'⟩ := hp
        match r', hy' with
        | .ok none, hy' => exact ⟨max d d', _, .noMore hroom (yields_upTo hy (by omega)) (yields_upTo hy' (by omega))⟩
        | .error _, hy' => exact ⟨max d d', _, .morePanic hroom (yields_upTo hy (by omega)) (yields_upTo hy' (by omega))⟩
        | .ok (some (x, s'')), hy' =>
          have hlt := (yields_leaves heps hy' _ _ rfl).2 hne
          obtain ⟨d'', r'', hy''⟩ := ih s'' (by omega) (.more v o mn mx (vs ++ [x])) ⟨hv, hne, ho⟩
          exact ⟨max d (max d' d''), _, .more hroom (yields_upTo hy (by omega)) (yields_upTo hy' (by omega)) (yields_upTo hy'' (by omega))⟩
    · exact ⟨0, _, .full hroom⟩

end

theorem rank_bound (rank : String → Nat) : ∀ l : List (String × Option Nat × Body), ∃ K, ∀ nm cb b, (nm, cb, b) ∈ l → rank nm < K
  | [] => ⟨0, by simp⟩
  | (nm, cb, b) :: l => by
    obtain ⟨K, hK⟩ := rank_bound rank l
    refine ⟨max K (rank nm + 1), fun nm' cb' b' h => ?_⟩
    rcases List.mem_cons.mp h with h | h
    · cases h; omega
    · have := hK _ _ _ h; omega

theorem wf_has {rank : String → Nat} (hw : WellFormed L e rank) (P : PureOps V) (N : Nat) :
    ∀ (n : Nat) (s : Bytes), s.length = n → ∀ j, jobWf P e (Known L) (Known L) j → Has P N L j s := by
  intro n
  induction n using Nat.strongRecOn with
  | _ n ih =>
    have ih' : ∀ s : Bytes, s.length < n → ∀ j, jobWf P e (Known L) (Known L) j → Has P N L j s := fun s hs j hj => ih _ hs s rfl j hj
    have hnames : ∀ k, ∀ nm, Known L nm ∧ rank nm < k → ∀ lab q h (s : Bytes), s.length = n → Has P N L (.core h (.name lab nm q)) s := by
      intro k
      induction k with
      | zero => intro nm h; omega
      | succ k ihk =>
        intro nm ⟨⟨cb, b, hm⟩, hr⟩ lab q h s hs
        have hb := body_wf_mono (left' := fun n => Known L n ∧ rank n < k) (fun n hn => ⟨hn.1, by have := hn.2; omega⟩) b (hw.rules nm cb b hm)
        obtain ⟨d, r, hy⟩ := has_body hw.eps ih' (fun _ h => h.1) ihk b hb cb s hs
        exact ⟨d, r, .name hm hy⟩
    obtain ⟨K, hK⟩ := rank_bound rank (rulesOf L)
    intro s hs j hj
    exact has_job hw.eps ih' (fun _ h => h.1) (hnames K) (fun nm h => ⟨h, by obtain ⟨cb, b, hm⟩ := h; exact hK _ _ _ hm⟩) j hj s hs

/-! ## How deep -/

/-- The job needs at most `k` levels. -/
def jobWithin (ht : String → Nat) (k : Nat) : VJob V → Prop
  | .part _ p | .core _ p => p.Within ht k
  | .alts l => VP.WithinAll ht k l
  | .items _ l _ => VP.WithinAll ht k l
  | .sep o => ∀ p, o = some p → p.Within ht k
  | .more v o _ _ _ => v.Within ht k ∧ ∀ p, o = some p → p.Within ht k
  | .rule _ b => b.Within ht k
  | .lines ls => linesWithin ht k ls

theorem rep_within {ht : String → Nat} {k : Nat} {lab : String} {v : VP} {o : Option VP} {mn : Nat} {mx : Option Nat} (h : (VP.rep lab v o mn mx).Within ht k) :
    v.Within ht k ∧ ∀ p, o = some p → p.Within ht k := by
  cases o with
  | none => unfold VP.Within at h; exact ⟨h, by simp⟩
  | some p => unfold VP.Within at h; exact ⟨h.1, by rintro q ⟨⟩; exact h.2⟩

theorem yields_within {ht : String → Nat} (hf : ∀ nm cb b, (nm, cb, b) ∈ rulesOf L → b.Within ht (ht nm)) {d : Nat} {j : VJob V} {s : Bytes} {r : VRes V}
    (h : Yields P N L d j s r) : ∀ k, jobWithin ht k j → Yields P N L k j s r := by
  induction h with
  | part _ ih => exact fun k hk => .part (ih k hk)
  | lit => exact fun k _ => .lit
  | litMiss h => exact fun k _ => .litMiss h
  | re h => exact fun k _ => .re h
  | reMiss h => exact fun k _ => .reMiss h
  | name hm _ ih =>
    intro k hk
    simp only [jobWithin, VP.Within] at hk
    exact .name hm (yields_upTo (ih _ (hf _ _ _ hm)) hk)
  | alt _ ih => intro k hk; simp only [jobWithin, VP.Within] at hk; exact .alt (ih k hk)
  | altsEnd => exact fun k _ => .altsEnd
  | altsDone _ h ih => intro k hk; simp only [jobWithin, VP.WithinAll] at hk; exact .altsDone (ih k hk.1) h
  | altsMiss _ _ ih1 ih2 => intro k hk; simp only [jobWithin, VP.WithinAll] at hk; exact .altsMiss (ih1 k hk.1) (ih2 k hk.2)
  | seq _ ih => intro k hk; simp only [jobWithin, VP.Within] at hk; exact .seq (ih k hk)
  | itemsEnd h => exact fun k _ => .itemsEnd h
  | itemsMiss _ ih => intro k hk; simp only [jobWithin, VP.WithinAll] at hk; exact .itemsMiss (ih k hk.1)
  | itemsPanic _ ih => intro k hk; simp only [jobWithin, VP.WithinAll] at hk; exact .itemsPanic (ih k hk.1)
  | itemsPut _ h _ ih1 ih2 => intro k hk; simp only [jobWithin, VP.WithinAll] at hk; exact .itemsPut (ih1 k hk.1) h (ih2 k hk.2)
  | itemsBad _ h ih => intro k hk; simp only [jobWithin, VP.WithinAll] at hk; exact .itemsBad (ih k hk.1) h
  | optDone _ h ih => intro k hk; simp only [jobWithin, VP.Within] at hk; exact .optDone (ih k hk) h
  | optMiss _ ih => intro k hk; simp only [jobWithin, VP.Within] at hk; exact .optMiss (ih k hk)
  | notHit _ ih => intro k hk; simp only [jobWithin, VP.Within] at hk; exact .notHit (ih k hk)
  | notMiss _ ih => intro k hk; simp only [jobWithin, VP.Within] at hk; exact .notMiss (ih k hk)
  | notPanic _ ih => intro k hk; simp only [jobWithin, VP.Within] at hk; exact .notPanic (ih k hk)
  | lookHit _ ih => intro k hk; simp only [jobWithin, VP.Within] at hk; exact .lookHit (ih k hk)
  | lookMiss _ ih => intro k hk; simp only [jobWithin, VP.Within] at hk; exact .lookMiss (ih k hk)
  | lookPanic _ ih => intro k hk; simp only [jobWithin, VP.Within] at hk; exact .lookPanic (ih k hk)
  | repMiss _ ih => exact fun k hk => .repMiss (ih k (rep_within hk).1)
  | repPanic _ ih => exact fun k hk => .repPanic (ih k (rep_within hk).1)
  | rep _ _ ih1 ih2 => exact fun k hk => .rep (ih1 k (rep_within hk).1) (ih2 k (rep_within hk))
  | sepNone => exact fun k _ => .sepNone
  | sepSome _ ih => exact fun k hk => .sepSome (ih k (hk _ rfl))
  | full h => exact fun k _ => .full h
  | noSep h _ ih => exact fun k hk => .noSep h (ih k hk.2)
  | sepPanic h _ ih => exact fun k hk => .sepPanic h (ih k hk.2)
  | noMore h _ _ ih1 ih2 => exact fun k hk => .noMore h (ih1 k hk.2) (ih2 k hk.1)
  | morePanic h _ _ ih1 ih2 => exact fun k hk => .morePanic h (ih1 k hk.2) (ih2 k hk.1)
  | more h _ _ _ ih1 ih2 ih3 => exact fun k hk => .more h (ih1 k hk.2) (ih2 k hk.1) (ih3 k hk)
  | text _ ih =>
    intro k hk
    simp only [jobWithin, Body.Within] at hk
    obtain ⟨k, rfl, hk⟩ := hk
    exact .text (ih k hk)
  | rank _ ih =>
    intro k hk
    simp only [jobWithin, Body.Within] at hk
    obtain ⟨k, rfl, hk⟩ := hk
    exact .rank (ih k hk)
  | linesEnd => exact fun k _ => .linesEnd
  | incl _ ih => intro k hk; simp only [jobWithin, linesWithin] at hk; exact .incl (ih k hk.2)
  | altDone _ h ih => intro k hk; simp only [jobWithin, linesWithin, GLine.Within] at hk; exact .altDone (ih k hk.1) h
  | altMiss _ _ ih1 ih2 => intro k hk; simp only [jobWithin, linesWithin, GLine.Within] at hk; exact .altMiss (ih1 k hk.1) (ih2 k hk.2)

end Joeson
