import Verif.Spec.WellFormedLeft
import Verif.Proofs.WellFormed
import Verif.Proofs.LeftText
import Verif.Proofs.Invert
/-!
# Well formed grammars with left recursion: lemmas
-/

namespace Joeson
open RuleText

variable {V : Type} {P : PureOps V} {N : Nat} {L : List GLine} {e : String → Prop}

/-! ## Deeper -/

theorem yieldsL_up {c : Around V} {d : Nat} {j : LJob V} {s : Bytes} {r : VRes V} (h : YieldsL P N L c d j s r) (k : Nat) : YieldsL P N L c (d + k) j s r := by
  induction h with
  | part _ ih => exact .part ih
  | lit => exact .lit
  | litMiss h => exact .litMiss h
  | re h => exact .re h
  | reMiss h => exact .reMiss h
  | again h => rw [Nat.add_right_comm]; exact .again h
  | name h1 h2 h3 _ ih => exact .name h1 h2 h3 ih
  | alt _ ih => exact .alt ih
  | altsEnd => exact .altsEnd
  | altsDone _ h ih => exact .altsDone ih h
  | altsMiss _ _ ih1 ih2 => exact .altsMiss ih1 ih2
  | seq _ ih => exact .seq ih
  | itemsEnd h => exact .itemsEnd h
  | itemsMiss _ ih => exact .itemsMiss ih
  | itemsPanic _ ih => exact .itemsPanic ih
  | itemsPut _ h _ ih1 ih2 => exact .itemsPut ih1 h ih2
  | itemsBad _ h ih => exact .itemsBad ih h
  | optDone _ h ih => exact .optDone ih h
  | optMiss _ ih => exact .optMiss ih
  | notHit _ ih => exact .notHit ih
  | notMiss _ ih => exact .notMiss ih
  | notPanic _ ih => exact .notPanic ih
  | lookHit _ ih => exact .lookHit ih
  | lookMiss _ ih => exact .lookMiss ih
  | lookPanic _ ih => exact .lookPanic ih
  | repMiss _ ih => exact .repMiss ih
  | repPanic _ ih => exact .repPanic ih
  | rep _ _ ih1 ih2 => exact .rep ih1 ih2
  | sepNone => exact .sepNone
  | sepSome _ ih => exact .sepSome ih
  | full h => exact .full h
  | noSep h _ ih => exact .noSep h ih
  | sepPanic h _ ih => exact .sepPanic h ih
  | noMore h _ _ ih1 ih2 => exact .noMore h ih1 ih2
  | morePanic h _ _ ih1 ih2 => exact .morePanic h ih1 ih2
  | more h _ _ _ ih1 ih2 ih3 => exact .more h ih1 ih2 ih3
  | inside h _ ih => exact .inside h ih
  | grown x h1 h2 h3 h4 h5 _ ih => exact .grown x h1 h2 h3 h4 h5 ih
  | grownPanic x h1 h2 h3 h4 _ _ ih1 ih2 => exact .grownPanic x h1 h2 h3 h4 ih1 ih2
  | text _ ih => rw [Nat.add_right_comm]; exact .text ih
  | rank _ ih => rw [Nat.add_right_comm]; exact .rank ih
  | linesEnd => exact .linesEnd
  | incl _ ih => exact .incl ih
  | altDone _ h ih => exact .altDone ih h
  | altMiss _ _ ih1 ih2 => exact .altMiss ih1 ih2

theorem yieldsL_upTo {c : Around V} {d d' : Nat} {j : LJob V} {s : Bytes} {r : VRes V} (h : YieldsL P N L c d j s r) (hd : d ≤ d') : YieldsL P N L c d' j s r := by
  obtain ⟨k, rfl⟩ := Nat.exists_eq_add_of_le hd
  exact yieldsL_up h k

/-! ## Outcomes are determined -/

theorem yieldsL_det (hL : OneRule L) {c : Around V} {d : Nat} {j : LJob V} {s : Bytes} {r : VRes V} (h : YieldsL P N L c d j s r) :
    ∀ {d' r'}, YieldsL P N L c d' j s r' → r = r' := by
  induction h with
  | part _ ih => intro d' r' h'; cases h' with | part h => rw [ih h]
  | @lit c d h lab b s => intro d' r' h'; generalize hs : b ++ s = t at h'; cases h' with
    | lit => rw [List.append_cancel_left hs]
    | litMiss hn => exact absurd hs.symm (hn _)
  | litMiss hn => intro d' r' h'; cases h' with
    | lit => exact absurd rfl (hn _)
    | litMiss _ => rfl
  | re hr => intro d' r' h'; cases h' with
    | re hr' => cases hr.symm.trans hr'; rfl
    | reMiss hn => exact absurd hr (hn _)
  | reMiss hn => intro d' r' h'; cases h' with
    | re hr => exact absurd hr (hn _)
    | reMiss _ => rfl
  | again hc => intro d' r' h'; cases h' with
    | again hc' => cases hc.symm.trans hc'; rfl
    | name hn _ _ _ => exact absurd hc (hn _)
  | name hn _ hm _ ih => intro d' r' h'; cases h' with
    | again hc => exact absurd hc (hn _)
    | name _ _ hm' h =>
      obtain ⟨rfl, rfl⟩ := hL _ _ _ _ _ hm hm'
      exact ih h
  | alt _ ih => intro d' r' h'; cases h' with | alt h => exact ih h
  | altsEnd => intro d' r' h'; cases h'; rfl
  | altsDone _ hr ih => intro d' r' h'; cases h' with
    | altsDone h _ => exact ih h
    | altsMiss h _ => exact absurd (ih h) hr
  | altsMiss _ _ ih1 ih2 => intro d' r' h'; cases h' with
    | altsDone h hr => exact absurd (ih1 h).symm hr
    | altsMiss _ h => exact ih2 h
  | seq _ ih => intro d' r' h'; cases h' with | seq h => exact ih h
  | itemsEnd hg => intro d' r' h'; cases h' with | itemsEnd hg' => cases hg.symm.trans hg'; rfl
  | itemsMiss _ ih => intro d' r' h'; cases h' with
    | itemsMiss _ => rfl
    | itemsPanic h => cases ih h
    | itemsPut h _ _ => cases ih h
    | itemsBad h _ => cases ih h
  | itemsPanic _ ih => intro d' r' h'; cases h' with
    | itemsMiss h => cases ih h
    | itemsPanic h => cases ih h; rfl
    | itemsPut h _ _ => cases ih h
    | itemsBad h _ => cases ih h
  | itemsPut _ hg _ ih1 ih2 => intro d' r' h'; cases h' with
    | itemsMiss h => cases ih1 h
    | itemsPanic h => cases ih1 h
    | itemsPut h _ h2 => cases ih1 h; exact ih2 h2
    | itemsBad h hg' => cases ih1 h; cases hg.symm.trans hg'
  | itemsBad _ hg ih => intro d' r' h'; cases h' with
    | itemsMiss h => cases ih h
    | itemsPanic h => cases ih h
    | itemsPut h hg' h2 => cases ih h; cases hg.symm.trans hg'
    | itemsBad h hg' => cases ih h; cases hg.symm.trans hg'; rfl
  | optDone _ hr ih => intro d' r' h'; cases h' with
    | optDone h _ => exact ih h
    | optMiss h => exact absurd (ih h) hr
  | optMiss _ ih => intro d' r' h'; cases h' with
    | optDone h hr => exact absurd (ih h).symm hr
    | optMiss h => rfl
  | notHit _ ih => intro d' r' h'; cases h' with
    | notHit _ => rfl
    | notMiss h => cases ih h
    | notPanic h => cases ih h
  | notMiss _ ih => intro d' r' h'; cases h' with
    | notHit h => cases ih h
    | notMiss h => rfl
    | notPanic h => cases ih h
  | notPanic _ ih => intro d' r' h'; cases h' with
    | notHit h => cases ih h
    | notMiss h => cases ih h
    | notPanic h => cases ih h; rfl
  | lookHit _ ih => intro d' r' h'; cases h' with
    | lookHit h => cases ih h; rfl
    | lookMiss h => cases ih h
    | lookPanic h => cases ih h
  | lookMiss _ ih => intro d' r' h'; cases h' with
    | lookHit h => cases ih h
    | lookMiss h => rfl
    | lookPanic h => cases ih h
  | lookPanic _ ih => intro d' r' h'; cases h' with
    | lookHit h => cases ih h
    | lookMiss h => cases ih h
    | lookPanic h => cases ih h; rfl
  | repMiss _ ih => intro d' r' h'; cases h' with
    | repMiss h => rfl
    | repPanic h => cases ih h
    | rep h _ => cases ih h
  | repPanic _ ih => intro d' r' h'; cases h' with
    | repMiss h => cases ih h
    | repPanic h => cases ih h; rfl
    | rep h _ => cases ih h
  | rep _ _ ih1 ih2 => intro d' r' h'; cases h' with
    | repMiss h => cases ih1 h
    | repPanic h => cases ih1 h
    | rep h h2 => cases ih1 h; exact ih2 h2
  | sepNone => intro d' r' h'; cases h'; rfl
  | sepSome _ ih => intro d' r' h'; cases h' with | sepSome h => exact ih h
  | full hn => intro d' r' h'; cases h' with
    | full _ => rfl
    | noSep h _ => exact absurd h hn
    | sepPanic h _ => exact absurd h hn
    | noMore h _ _ => exact absurd h hn
    | morePanic h _ _ => exact absurd h hn
    | more h _ _ _ => exact absurd h hn
  | noSep hr _ ih => intro d' r' h'; cases h' with
    | full h => exact absurd hr h
    | noSep _ h => rfl
    | sepPanic _ h => cases ih h
    | noMore _ h _ => cases ih h
    | morePanic _ h _ => cases ih h
    | more _ h _ _ => cases ih h
  | sepPanic hr _ ih => intro d' r' h'; cases h' with
    | full h => exact absurd hr h
    | noSep _ h => cases ih h
    | sepPanic _ h => cases ih h; rfl
    | noMore _ h _ => cases ih h
    | morePanic _ h _ => cases ih h
    | more _ h _ _ => cases ih h
  | noMore hr _ _ ih1 ih2 => intro d' r' h'; cases h' with
    | full h => exact absurd hr h
    | noSep _ h => cases ih1 h
    | sepPanic _ h => cases ih1 h
    | noMore _ h _ => rfl
    | morePanic _ h h2 => cases ih1 h; cases ih2 h2
    | more _ h h2 _ => cases ih1 h; cases ih2 h2
  | morePanic hr _ _ ih1 ih2 => intro d' r' h'; cases h' with
    | full h => exact absurd hr h
    | noSep _ h => cases ih1 h
    | sepPanic _ h => cases ih1 h
    | noMore _ h h2 => cases ih1 h; cases ih2 h2
    | morePanic _ h h2 => cases ih1 h; cases ih2 h2; rfl
    | more _ h h2 _ => cases ih1 h; cases ih2 h2
  | more hr _ _ _ ih1 ih2 ih3 => intro d' r' h'; cases h' with
    | full h => exact absurd hr h
    | noSep _ h => cases ih1 h
    | sepPanic _ h => cases ih1 h
    | noMore _ h h2 => cases ih1 h; cases ih2 h2
    | morePanic _ h h2 => cases ih1 h; cases ih2 h2
    | more _ h h2 h3 => cases ih1 h; cases ih2 h2; exact ih3 h3
  | inside hn _ ih => intro d' r' h'; cases h' with
    | inside _ h => exact ih h
    | grown _ h1 h2 => exact absurd hn (by simp [h1, h2])
    | grownPanic _ h1 h2 => exact absurd hn (by simp [h1, h2])
  | @grown c d nm cb b s n x h1 h2 h3 h4 h5 _ ih => intro d' r' h'; cases h' with
    | inside hn _ => exact absurd hn (by simp [h1, h2])
    | @grown _ _ _ _ _ _ n' x' _ _ h3' h4' h5' hy =>
      have hx : ∀ i, i ≤ n + 1 → i ≤ n' + 1 → x i = x' i := by
        intro i
        induction i with
        | zero => intro _ _; rw [h3, h3']
        | succ i ihi =>
          intro hi hi'
          have hyi := hy i (by omega)
          rw [← ihi (by omega) (by omega)] at hyi
          exact Except.ok.inj (ih i (by omega) hyi)
      have hn : n = n' := by
        rcases Nat.lt_trichotomy n n' with hlt | heq | hlt
        · refine absurd ?_ h5
          rw [hx n (by omega) (by omega), hx (n + 1) (by omega) (by omega)]
          exact h4' n hlt
        · exact heq
        · refine absurd ?_ h5'
          rw [← hx n' (by omega) (by omega), ← hx (n' + 1) (by omega) (by omega)]
          exact h4 n' hlt
      subst hn
      rw [hx n (by omega) (by omega)]
    | @grownPanic _ _ _ _ _ _ n' x0 x' _ _ h3' h4' hy hp =>
      have hx : ∀ i, i ≤ n + 1 → i ≤ n' → x i = x' i := by
        intro i
        induction i with
        | zero => intro _ _; rw [h3, h3']
        | succ i ihi =>
          intro hi hi'
          have hyi := hy i (by omega)
          rw [← ihi (by omega) (by omega)] at hyi
          exact Except.ok.inj (ih i (by omega) hyi)
      rcases Nat.lt_or_ge n n' with hlt | hge
      · refine absurd ?_ h5
        rw [hx n (by omega) (by omega), hx (n + 1) (by omega) (by omega)]
        exact h4' n hlt
      · rw [← hx n' (by omega) (by omega)] at hp
        cases ih n' hge hp
  | @grownPanic c d nm cb b s n err x h1 h2 h3 h4 _ _ ih ihp => intro d' r' h'; cases h' with
    | inside hn _ => exact absurd hn (by simp [h1, h2])
    | @grown _ _ _ _ _ _ n' x' _ _ h3' h4' h5' hy =>
      have hx : ∀ i, i ≤ n → i ≤ n' + 1 → x i = x' i := by
        intro i
        induction i with
        | zero => intro _ _; rw [h3, h3']
        | succ i ihi =>
          intro hi hi'
          have hyi := hy i (by omega)
          rw [← ihi (by omega) (by omega)] at hyi
          exact Except.ok.inj (ih i (by omega) hyi)
      rcases Nat.lt_or_ge n' n with hlt | hge
      · refine absurd ?_ h5'
        rw [← hx n' (by omega) (by omega), ← hx (n' + 1) (by omega) (by omega)]
        exact h4 n' hlt
      · have hyi := hy n hge
        rw [← hx n (by omega) (by omega)] at hyi
        cases ihp hyi
    | @grownPanic _ _ _ _ _ _ n' x0 x' _ _ h3' h4' hy hp =>
      have hx : ∀ i, i ≤ n → i ≤ n' → x i = x' i := by
        intro i
        induction i with
        | zero => intro _ _; rw [h3, h3']
        | succ i ihi =>
          intro hi hi'
          have hyi := hy i (by omega)
          rw [← ihi (by omega) (by omega)] at hyi
          exact Except.ok.inj (ih i (by omega) hyi)
      rcases Nat.lt_trichotomy n n' with hlt | heq | hlt
      · have hyi := hy n hlt
        rw [← hx n (by omega) (by omega)] at hyi
        cases ihp hyi
      · subst heq
        rw [← hx n (by omega) (by omega)] at hp
        exact ihp hp
      · rw [← hx n' (by omega) (by omega)] at hp
        cases ih n' hlt hp
  | text _ ih => intro d' r' h'; cases h' with | text h => rw [ih h]
  | rank _ ih => intro d' r' h'; cases h' with | rank h => rw [ih h]
  | linesEnd => intro d' r' h'; cases h'; rfl
  | incl _ ih => intro d' r' h'; cases h' with | incl h => exact ih h
  | altDone _ hr ih => intro d' r' h'; cases h' with
    | altDone h _ => exact ih h
    | altMiss h _ => exact absurd (ih h) hr
  | altMiss _ _ ih1 ih2 => intro d' r' h'; cases h' with
    | altDone h hr => exact absurd (ih1 h).symm hr
    | altMiss _ h => exact ih2 h

/-! ## What is consumed -/

/-- Can it match nothing? -/
def ljobEps (e : String → Prop) : LJob V → Prop
  | .part _ p | .core _ p => p.Eps e
  | .alts l => VP.EpsAny e l
  | .items _ l _ => VP.EpsAll e l
  | .sep _ | .more _ _ _ _ _ => True
  | .rule _ _ b | .body _ b => b.Eps e
  | .lines ls => linesEps e ls

/-- The rules of the job are rules of the grammar. -/
def LJobIn (L : List GLine) : LJob V → Prop
  | .rule nm cb b => (nm = "" ∨ (nm, cb, b) ∈ rulesOf L) ∧ ∀ x ∈ b.rules, x ∈ rulesOf L
  | .body _ b => ∀ x ∈ b.rules, x ∈ rulesOf L
  | .lines ls => ∀ x ∈ rulesOf ls, x ∈ rulesOf L
  | _ => True

/-- The outcome leaves a part of `s`, and less than `s` if `p`. -/
def LeavesL (p : Prop) (s : Bytes) (r : VRes V) : Prop := ∀ v s', r = .ok (some (v, s')) → s' <:+ s ∧ (p → s'.length < s.length)

/-- The value of left recursive calls leaves a part of where the rule began, and less unless the rule can match nothing. -/
def CtxOk (e : String → Prop) (c : Around V) : Prop := ∀ nm s x, c = some (nm, s, x) → LeavesL (¬ e nm) s (.ok x)

theorem LeavesL.none {p : Prop} {s : Bytes} : LeavesL (V := V) p s (.ok none) := fun _ _ h => by cases h
theorem LeavesL.error {p : Prop} {s : Bytes} {x : Panic} : LeavesL (V := V) p s (.error x) := fun _ _ h => by cases h
theorem LeavesL.all {p : Prop} {s : Bytes} {v : V} (h : ¬ p) : LeavesL p s (.ok (some (v, s))) := by
  intro v' s' he
  cases he
  exact ⟨List.suffix_refl _, fun hp => absurd hp h⟩

theorem LeavesL.own {p : Prop} {s : Bytes} {h : Bool} {q : VP} {r : VRes V} (hr : LeavesL p s r) : LeavesL p s (own P h q r) := by
  intro v s' he
  match r, hr, he with
  | .ok (some (v', s'')), hr, he =>
    simp only [RuleText.own, Except.ok.injEq, Option.some.injEq, Prod.mk.injEq] at he
    exact he.2 ▸ hr _ _ rfl

theorem LeavesL.called {p : Prop} {s : Bytes} {cb : Option Nat} {r : VRes V} (hr : LeavesL p s r) : LeavesL p s (called P N cb r) := by
  intro v s' he
  match r, hr, he with
  | .ok (some (v', s'')), hr, he =>
    unfold RuleText.called at he
    cases cb with
    | none =>
      simp only [Except.ok.injEq, Option.some.injEq, Prod.mk.injEq] at he
      exact he.2 ▸ hr _ _ rfl
    | some c =>
      dsimp only at he
      split at he
      · cases he
      · cases he
      · simp only [Except.ok.injEq, Option.some.injEq, Prod.mk.injEq] at he
        exact he.2 ▸ hr _ _ rfl

theorem LeavesL.vstop {p : Prop} {mn : Nat} {vs : List V} {s t : Bytes} (hs : s <:+ t) (hp : p → s.length < t.length ∨ vs.length < mn) : LeavesL p t (vstop P mn vs s) := by
  intro v s' he
  unfold RuleText.vstop at he
  split at he
  · cases he
  · cases he
    exact ⟨hs, fun h => (hp h).resolve_right (by assumption)⟩

theorem LeavesL.weaken {p q : Prop} {s t : Bytes} {r : VRes V} (hr : LeavesL p s r) (hn : s <:+ t) (h : q → p ∨ s.length < t.length) : LeavesL q t r := by
  intro v s' he
  obtain ⟨h1, h2⟩ := hr v s' he
  refine ⟨h1.trans hn, fun hq => ?_⟩
  have := hn.length_le
  have := h1.length_le
  rcases h hq with hp | hp
  · have := h2 hp; omega
  · omega

theorem LeavesL.same {p q : Prop} {s : Bytes} {r : VRes V} (hr : LeavesL p s r) (h : q → p) : LeavesL q s r :=
  hr.weaken (List.suffix_refl _) fun hq => .inl (h hq)

theorem rule_rules {nm : String} {cb : Option Nat} {b : Body} {ls : List GLine} (h : LJobIn (V := V) L (.lines (.alt nm cb b :: ls))) : LJobIn (V := V) L (.rule nm cb b) ∧ LJobIn (V := V) L (.lines ls) := by
  simp only [LJobIn, rulesOf, GLine.rules, List.mem_append] at h ⊢
  refine ⟨⟨?_, fun x hx => h x (.inl (.inr hx))⟩, fun x hx => h x (.inr hx)⟩
  by_cases hn : nm = ""
  · exact .inl hn
  · exact .inr (h _ (.inl (.inl (by simp [hn]))))

theorem yieldsL_leaves (he : ∀ nm cb b, (nm, cb, b) ∈ rulesOf L → b.Eps e → e nm) {c : Around V} {d : Nat} {j : LJob V} {s : Bytes} {r : VRes V}
    (h : YieldsL P N L c d j s r) : CtxOk e c → LJobIn L j → LeavesL (¬ ljobEps e j) s r := by
  induction h with
  | part _ ih => exact fun hc _ => (ih hc trivial).own
  | @lit c d h lab b s =>
    intro _ _ v s' h
    cases h
    refine ⟨List.suffix_append _ _, fun hn => ?_⟩
    simp only [ljobEps, VP.Eps] at hn
    have := List.length_pos_iff.mpr hn
    simp only [List.length_append]
    omega
  | litMiss => exact fun _ _ => .none
  | @re c d h lab rr n s hr =>
    intro _ _ v s' h
    cases h
    refine ⟨List.drop_suffix _ _, fun hn => ?_⟩
    simp only [ljobEps, VP.Eps, not_exists] at hn
    have hb := (rr.bounds s 0 n hr).2
    have : n ≠ 0 := by rintro rfl; exact hn _ hr
    simp only [List.length_drop]
    omega
  | reMiss => exact fun _ _ => .none
  | again hc0 => exact fun hc _ => hc _ _ _ hc0
  | name _ _ hm _ ih => exact fun hc _ => (ih hc ⟨.inr hm, fun x hx => rules_trans hm hx⟩).same fun hn hb => hn (he _ _ _ hm hb)
  | alt _ ih => exact fun hc _ => ih hc trivial
  | altsEnd => exact fun _ _ => .none
  | altsDone _ _ ih => exact fun hc _ => (ih hc trivial).same fun hn hb => hn (.inl hb)
  | altsMiss _ _ _ ih => exact fun hc _ => (ih hc trivial).same fun hn hb => hn (.inr hb)
  | seq _ ih => exact fun hc _ => ih hc trivial
  | itemsEnd => exact fun _ _ => .all (by simp [ljobEps, VP.EpsAll])
  | itemsMiss => exact fun _ _ => .none
  | itemsPanic => exact fun _ _ => .error
  | itemsPut _ _ _ ih1 ih2 =>
    intro hc _
    obtain ⟨h1, h2⟩ := ih1 hc trivial _ _ rfl
    refine (ih2 hc trivial).weaken h1 fun hn => ?_
    simp only [ljobEps, VP.EpsAll, not_and_or] at hn
    exact hn.symm.imp id h2
  | itemsBad => exact fun _ _ => .error
  | optDone _ _ ih => exact fun hc _ => (ih hc trivial).same fun hn => absurd (by simp [ljobEps, VP.Eps]) hn
  | optMiss => exact fun _ _ => .all (by simp [ljobEps, VP.Eps])
  | notHit => exact fun _ _ => .none
  | notMiss => exact fun _ _ => .all (by simp [ljobEps, VP.Eps])
  | notPanic => exact fun _ _ => .error
  | lookHit => exact fun _ _ => .all (by simp [ljobEps, VP.Eps])
  | lookMiss => exact fun _ _ => .none
  | lookPanic => exact fun _ _ => .error
  | repMiss =>
    intro _ _
    refine LeavesL.vstop (List.suffix_refl _) fun hn => .inr ?_
    simp only [ljobEps, VP.Eps, not_or] at hn
    simp only [List.length_nil]
    omega
  | repPanic => exact fun _ _ => .error
  | rep _ _ ih1 ih2 =>
    intro hc _
    obtain ⟨h1, h2⟩ := ih1 hc trivial _ _ rfl
    refine (ih2 hc trivial).weaken h1 fun hn => .inr (h2 ?_)
    simp only [ljobEps, VP.Eps, not_or] at hn
    exact hn.2
  | sepNone => exact fun _ _ => .all (by simp [ljobEps])
  | sepSome _ ih => exact fun hc _ => (ih hc trivial).same fun hn => absurd (by simp [ljobEps]) hn
  | full => exact fun _ _ => LeavesL.vstop (List.suffix_refl _) fun hn => absurd (by simp [ljobEps]) hn
  | noSep => exact fun _ _ => LeavesL.vstop (List.suffix_refl _) fun hn => absurd (by simp [ljobEps]) hn
  | sepPanic => exact fun _ _ => .error
  | noMore => exact fun _ _ => LeavesL.vstop (List.suffix_refl _) fun hn => absurd (by simp [ljobEps]) hn
  | morePanic => exact fun _ _ => .error
  | more _ _ _ _ ih1 ih2 ih3 =>
    intro hc _
    obtain ⟨h1, _⟩ := ih1 hc trivial _ _ rfl
    obtain ⟨h2, _⟩ := ih2 hc trivial _ _ rfl
    exact (ih3 hc trivial).weaken (h2.trans h1) fun hn => absurd (by simp [ljobEps]) hn
  | inside _ _ ih => exact fun hc hj => ih hc hj.2
  | @grown c d nm cb b s n x h1 h2 h3 h4 h5 _ ih =>
    intro hc hj
    have hmem := hj.1.resolve_left h1
    have hx : ∀ i, i ≤ n → LeavesL (¬ b.Eps e) s (.ok (x i)) := by
      intro i
      induction i with
      | zero => intro _; rw [h3]; exact .none
      | succ i ihi =>
        intro hi
        refine ih i (by omega) ?_ hj.2
        intro nm' s' x' hh
        cases hh
        exact (ihi (by omega)).same fun hn hb => hn (he _ _ _ hmem hb)
    exact hx n (Nat.le_refl _)
  | grownPanic => exact fun _ _ => .error
  | text _ ih => exact fun hc _ => (ih hc trivial).called
  | rank _ ih => exact fun hc hj => (ih hc hj).called
  | linesEnd => exact fun _ _ => .none
  | incl _ ih =>
    intro hc hj
    refine (ih hc ?_).same fun hn hb => hn (.inr hb)
    simp only [LJobIn, rulesOf, List.mem_append] at hj ⊢
    exact fun x hx => hj x (.inr hx)
  | altDone _ _ ih => exact fun hc hj => (ih hc (rule_rules hj).1).same fun hn hb => hn (.inl hb)
  | altMiss _ _ _ ih => exact fun hc hj => (ih hc (rule_rules hj).2).same fun hn hb => hn (.inr hb)

/-! ## There is an outcome -/

/-- There is an outcome. -/
def HasL (P : PureOps V) (N : Nat) (L : List GLine) (c : Around V) (j : LJob V) (s : Bytes) : Prop := ∃ d r, YieldsL P N L c d j s r

theorem HasL.part {c : Around V} {h : Bool} {p : VP} {s : Bytes} (hc : HasL P N L c (.core h p) s) : HasL P N L c (.part h p) s := by
  obtain ⟨d, r, hy⟩ := hc
  exact ⟨d, _, .part hy⟩

/-- What the job looks up; only expressions. -/
def ljobWf (P : PureOps V) (e known : String → Prop) : LJob V → Prop
  | .part _ p | .core _ p => p.Wf e known known
  | .alts l => VP.WfAll e known known l
  | .items f l acc => VP.WfSeq e known known l ∧ ∃ v, gather P f acc = .ok v
  | .sep o => ∀ p, o = some p → p.Wf e known known
  | .more v o _ _ _ => v.Wf e known known ∧ ¬ v.Eps e ∧ ∀ p, o = some p → p.Wf e known known
  | .rule _ _ _ | .body _ _ | .lines _ => False

/-- The rule around began before. -/
def Passive (c : Around V) (s : Bytes) : Prop := ∀ nm s0 x, c = some (nm, s0, x) → s.length < s0.length

section
variable (heps : ∀ nm cb b, (nm, cb, b) ∈ rulesOf L → b.Eps e → e nm) {s : Bytes} {c : Around V} (hc : CtxOk e c)
  (ih : ∀ s' : Bytes, s'.length < s.length → ∀ j, ljobWf P e (CallKnown L) j → HasL P N L c j s')
  {left : String → Prop} (hleft : ∀ nm, left nm → CallKnown L nm)
  (hname : ∀ nm, left nm → ∀ lab q h, HasL P N L c (.core h (.name lab nm q)) s)
include heps hc ih hleft hname

mutual
theorem hasL_core : ∀ (p : VP), p.Wf e (CallKnown L) left → ∀ (h : Bool), HasL P N L c (.core h p) s
  | .lit lab b, _, h => by
    by_cases hb : ∃ s', s = b ++ s'
    · obtain ⟨s', rfl⟩ := hb
      exact ⟨0, _, .lit⟩
    · exact ⟨0, _, .litMiss fun s' hs => hb ⟨s', hs⟩⟩
  | .re lab r, _, h => by
    by_cases hb : ∃ n, r.find s = some (0, n)
    · obtain ⟨n, hn⟩ := hb
      exact ⟨0, _, .re hn⟩
    · exact ⟨0, _, .reMiss fun n hn => hb ⟨n, hn⟩⟩
  | .name lab nm q, hw, h => hname nm (by unfold VP.Wf at hw; exact hw) lab q h
  | .seq lab l, hw, h => by
    unfold VP.Wf at hw
    obtain ⟨d, r, hy⟩ := hasL_items l hw (formOf l) [] (by cases formOf l <;> exact ⟨_, rfl⟩)
    exact ⟨d, r, .seq hy⟩
  | .alt lab l, hw, h => by
    unfold VP.Wf at hw
    obtain ⟨d, r, hy⟩ := hasL_alts l hw
    exact ⟨d, r, .alt hy⟩
  | .opt lab p, hw, h => by
    unfold VP.Wf at hw
    obtain ⟨d, r, hy⟩ := (hasL_core p hw h).part
    by_cases hr : r = .ok none
    · subst hr; exact ⟨d, _, .optMiss hy⟩
    · exact ⟨d, _, .optDone hy hr⟩
  | .not lab p, hw, h => by
    unfold VP.Wf at hw
    obtain ⟨d, r, hy⟩ := (hasL_core p hw false).part
    match r, hy with
    | .ok none, hy => exact ⟨d, _, .notMiss hy⟩
    | .ok (some _), hy => exact ⟨d, _, .notHit hy⟩
    | .error _, hy => exact ⟨d, _, .notPanic hy⟩
  | .look lab p, hw, h => by
    unfold VP.Wf at hw
    obtain ⟨d, r, hy⟩ := (hasL_core p hw false).part
    match r, hy with
    | .ok none, hy => exact ⟨d, _, .lookMiss hy⟩
    | .ok (some (_, _)), hy => exact ⟨d, _, .lookHit hy⟩
    | .error _, hy => exact ⟨d, _, .lookPanic hy⟩
  | .rep lab v none mn mx, hw, h => by
    unfold VP.Wf at hw
    obtain ⟨d, r, hy⟩ := (hasL_core v hw.1 false).part
    match r, hy with
    | .ok none, hy => exact ⟨d, _, .repMiss hy⟩
    | .error _, hy => exact ⟨d, _, .repPanic hy⟩
    | .ok (some (x, s')), hy =>
      have hlt := (yieldsL_leaves heps hy hc trivial _ _ rfl).2 hw.2
      obtain ⟨d', r', hy'⟩ := ih s' hlt (.more v none mn mx [x]) ⟨vp_wf_mono hleft v hw.1, hw.2, by simp⟩
      exact ⟨max d d', _, .rep (yieldsL_upTo hy (by omega)) (yieldsL_upTo hy' (by omega))⟩
  | .rep lab v (some p) mn mx, hw, h => by
    unfold VP.Wf at hw
    obtain ⟨d, r, hy⟩ := (hasL_core v hw.1 false).part
    match r, hy with
    | .ok none, hy => exact ⟨d, _, .repMiss hy⟩
    | .error _, hy => exact ⟨d, _, .repPanic hy⟩
    | .ok (some (x, s')), hy =>
      have hlt := (yieldsL_leaves heps hy hc trivial _ _ rfl).2 hw.2.1
      obtain ⟨d', r', hy'⟩ := ih s' hlt (.more v (some p) mn mx [x]) ⟨vp_wf_mono hleft v hw.1, hw.2.1, by rintro q ⟨⟩; exact hw.2.2⟩
      exact ⟨max d d', _, .rep (yieldsL_upTo hy (by omega)) (yieldsL_upTo hy' (by omega))⟩
theorem hasL_items : ∀ (l : List VP), VP.WfSeq e (CallKnown L) left l → ∀ (f : Form) (acc : List (VP × V)), (∃ v, gather P f acc = .ok v) → HasL P N L c (.items f l acc) s
  | [], _, f, acc, ⟨v, hg⟩ => ⟨0, _, .itemsEnd hg⟩
  | p :: l, hw, f, acc, _ => by
    unfold VP.WfSeq at hw
    obtain ⟨d, r, hy⟩ := (hasL_core p hw.1 true).part
    match r, hy with
    | .ok none, hy => exact ⟨d, _, .itemsMiss hy⟩
    | .error _, hy => exact ⟨d, _, .itemsPanic hy⟩
    | .ok (some (v, s')), hy =>
      cases hg : gather P f (acc ++ [(p, v)]) with
      | error x => exact ⟨d, _, .itemsBad hy hg⟩
      | ok w =>
        have hlt := yieldsL_leaves heps hy hc trivial _ _ rfl
        have hle := hlt.1.length_le
        have : HasL P N L c (.items f l (acc ++ [(p, v)])) s' := by
          by_cases hp : s'.length = s.length
          · have hs : s' = s := hlt.1.eq_of_length hp
            rw [hs]
            exact hasL_items l (hw.2.1 (Classical.byContradiction fun hn => by have := hlt.2 hn; omega)) f _ ⟨w, hg⟩
          · exact ih s' (by omega) _ ⟨hw.2.2, w, hg⟩
        obtain ⟨d', r', hy'⟩ := this
        exact ⟨max d d', _, .itemsPut (yieldsL_upTo hy (by omega)) hg (yieldsL_upTo hy' (by omega))⟩
theorem hasL_alts : ∀ (l : List VP), VP.WfAll e (CallKnown L) left l → HasL P N L c (.alts l) s
  | [], _ => ⟨0, _, .altsEnd⟩
  | p :: l, hw => by
    unfold VP.WfAll at hw
    obtain ⟨d, r, hy⟩ := (hasL_core p hw.1 false).part
    by_cases hr : r = .ok none
    · subst hr
      obtain ⟨d', r', hy'⟩ := hasL_alts l hw.2
      exact ⟨max d d', _, .altsMiss (yieldsL_upTo hy (by omega)) (yieldsL_upTo hy' (by omega))⟩
    · exact ⟨d, _, .altsDone hy hr⟩
end

/-- Every expression. -/
theorem hasL_job (hknown : ∀ nm, CallKnown L nm → left nm) (j : LJob V) (hw : ljobWf P e (CallKnown L) j) : HasL P N L c j s := by
  have hsep : ∀ o : Option VP, (∀ p, o = some p → p.Wf e (CallKnown L) (CallKnown L)) → HasL P N L c (.sep o) s := by
    intro o ho
    cases o with
    | none => exact ⟨0, _, .sepNone⟩
    | some p =>
      obtain ⟨d, r, hy⟩ := (hasL_core heps hc ih hleft hname p (vp_wf_mono hknown p (ho p rfl)) false).part
      exact ⟨d, r, .sepSome hy⟩
  cases j with
  | part h p => exact (hasL_core heps hc ih hleft hname p (vp_wf_mono hknown p hw) h).part
  | core h p => exact hasL_core heps hc ih hleft hname p (vp_wf_mono hknown p hw) h
  | alts l => exact hasL_alts heps hc ih hleft hname l (wfAll_mono hknown l hw)
  | items f l acc => exact hasL_items heps hc ih hleft hname l (wfSeq_mono hknown l hw.1) f acc hw.2
  | sep o => exact hsep o hw
  | rule nm cb b => exact absurd hw id
  | body cb b => exact absurd hw id
  | lines ls => exact absurd hw id
  | more v o mn mx vs =>
    obtain ⟨hv, hne, ho⟩ := hw
    by_cases hroom : Room mx vs.length
    · obtain ⟨d, r, hy⟩ := hsep o ho
      match r, hy with
      | .ok none, hy => exact ⟨d, _, .noSep hroom hy⟩
      | .error _, hy => exact ⟨d, _, .sepPanic hroom hy⟩
      | .ok (some (w, s')), hy =>
        have hle := (yieldsL_leaves heps hy hc trivial _ _ rfl).1
        have hle' := hle.length_le
        have hp : HasL P N L c (.part false v) s' := by
          by_cases hq : s'.length = s.length
          · rw [hle.eq_of_length hq]
            exact (hasL_core heps hc ih hleft hname v (vp_wf_mono hknown v hv) false).part
          · exact ih s' (by omega) _ hv
        obtain ⟨d', r', hy'⟩ := hp
        match r', hy' with
        | .ok none, hy' => exact ⟨max d d', _, .noMore hroom (yieldsL_upTo hy (by omega)) (yieldsL_upTo hy' (by omega))⟩
        | .error _, hy' => exact ⟨max d d', _, .morePanic hroom (yieldsL_upTo hy (by omega)) (yieldsL_upTo hy' (by omega))⟩
        | .ok (some (x, s'')), hy' =>
          have hlt := (yieldsL_leaves heps hy' hc trivial _ _ rfl).2 hne
          obtain ⟨d'', r'', hy''⟩ := ih s'' (by omega) (.more v o mn mx (vs ++ [x])) ⟨hv, hne, ho⟩
          exact ⟨max d (max d' d''), _, .more hroom (yieldsL_upTo hy (by omega)) (yieldsL_upTo hy' (by omega)) (yieldsL_upTo hy'' (by omega))⟩
    · exact ⟨0, _, .full hroom⟩

end

/-! ## Growing -/

/-- How much is left at most, one more before the first match. -/
def leftOver (s : Bytes) : Option (V × Bytes) → Nat
  | none => s.length + 1
  | some (_, s') => s'.length

theorem grows {nm : String} {cb : Option Nat} {b : Body} {s : Bytes} {p : Prop} (hok : ∀ d x r, LeavesL p s (.ok x) → YieldsL P N L (some (nm, s, x)) d (.body cb b) s r → LeavesL p s r)
    (hb : ∀ x, LeavesL p s (.ok x) → HasL P N L (some (nm, s, x)) (.body cb b) s) : ∀ (k : Nat) (x0 : Option (V × Bytes)), leftOver s x0 ≤ k → LeavesL p s (.ok x0) →
    ∃ (d n : Nat) (y : Nat → Option (V × Bytes)), y 0 = x0 ∧ (∀ i < n, Exceeds (y i) (y (i + 1))) ∧ (∀ i < n, YieldsL P N L (some (nm, s, y i)) d (.body cb b) s (.ok (y (i + 1)))) ∧
      ((¬ Exceeds (y n) (y (n + 1)) ∧ YieldsL P N L (some (nm, s, y n)) d (.body cb b) s (.ok (y (n + 1)))) ∨ ∃ err, YieldsL P N L (some (nm, s, y n)) d (.body cb b) s (.error err)) := by
  intro k
  induction k with
  | zero =>
    intro x0 hk hx0
    obtain ⟨d, r, hy⟩ := hb x0 hx0
    match r, hy with
    | .error err, hy => exact ⟨d, 0, fun _ => x0, rfl, by simp, by simp, .inr ⟨err, hy⟩⟩
    | .ok x1, hy =>
      refine ⟨d, 0, fun i => Nat.casesOn i x0 fun _ => x1, rfl, by simp, by simp, .inl ⟨?_, hy⟩⟩
      intro hex
      match x0, x1, hk, hex with
      | some (_, s0), some (_, s1), hk, hex => simp only [Exceeds, leftOver] at hk hex; omega
      | none, some (_, s1), hk, hex => simp only [leftOver] at hk; omega
  | succ k ih =>
    intro x0 hk hx0
    obtain ⟨d, r, hy⟩ := hb x0 hx0
    match r, hy with
    | .error err, hy => exact ⟨d, 0, fun _ => x0, rfl, by simp, by simp, .inr ⟨err, hy⟩⟩
    | .ok x1, hy =>
      by_cases hex : Exceeds x0 x1
      · have hx1 := hok _ _ _ hx0 hy
        have hlt : leftOver s x1 ≤ k := by
          match x0, x1, hk, hex, hx1 with
          | some (_, s0), some (_, s1), hk, hex, _ => simp only [Exceeds, leftOver] at hk hex ⊢; omega
          | none, some (_, s1), hk, hex, hx1 => have := (hx1 _ _ rfl).1.length_le; simp only [leftOver] at hk ⊢; omega
        obtain ⟨d', n, y, y0, y1, y2, y3⟩ := ih x1 hlt hx1
        refine ⟨max d d', n + 1, fun i => Nat.casesOn i x0 y, rfl, ?_, ?_, ?_⟩
        · intro i hi
          cases i with
          | zero => show Exceeds x0 (y 0); rw [y0]; exact hex
          | succ i => exact y1 i (by omega)
        · intro i hi
          cases i with
          | zero => show YieldsL P N L (some (nm, s, x0)) _ (.body cb b) s (.ok (y 0)); rw [y0]; exact yieldsL_upTo hy (by omega)
          | succ i => exact yieldsL_upTo (y2 i (by omega)) (by omega)
        · rcases y3 with ⟨h1, h2⟩ | ⟨err, h2⟩
          · exact .inl ⟨h1, yieldsL_upTo h2 (by omega)⟩
          · exact .inr ⟨err, yieldsL_upTo h2 (by omega)⟩
      · exact ⟨d, 0, fun i => Nat.casesOn i x0 fun _ => x1, rfl, by simp, by simp, .inl ⟨hex, hy⟩⟩

/-- A rule that can be called has an outcome if its body has one whatever its left recursive calls give. -/
theorem hasL_rule (heps : ∀ nm cb b, (nm, cb, b) ∈ rulesOf L → b.Eps e → e nm) {nm : String} {cb : Option Nat} {b : Body} {s : Bytes} (hn : Callable L nm)
    (hm : (nm, cb, b) ∈ rulesOf L) (hb : ∀ x, CtxOk e (some (nm, s, x)) → HasL P N L (some (nm, s, x)) (.body cb b) s) (c : Around V) : HasL P N L c (.rule nm cb b) s := by
  have hctx : ∀ x, LeavesL (¬ e nm) s (.ok x) → CtxOk (V := V) e (some (nm, s, x)) := by
    intro x hx nm' s' x' hh
    cases hh
    exact hx
  obtain ⟨d, n, y, y0, y1, y2, y3⟩ := grows (P := P) (N := N) (L := L) (cb := cb) (b := b) (p := ¬ e nm)
    (fun d x r hx hy => (yieldsL_leaves heps hy (hctx x hx) fun z hz => rules_trans hm hz).same fun h1 h2 => h1 (heps _ _ _ hm h2))
    (fun x hx => hb x (hctx x hx)) _ none (Nat.le_refl _) .none
  rcases y3 with ⟨h1, h2⟩ | ⟨err, h2⟩
  · refine ⟨d, _, .grown y hn.1 hn.2 y0 y1 h1 fun i hi => ?_⟩
    rcases Nat.lt_or_ge i n with hlt | hge
    · exact y2 i hlt
    · obtain rfl : i = n := by omega
      exact h2
  · exact ⟨d, _, .grownPanic y hn.1 hn.2 y0 y1 y2 h2⟩

section
variable (heps : ∀ nm cb b, (nm, cb, b) ∈ rulesOf L → b.Eps e → e nm) {s : Bytes}
  (ih : ∀ s' : Bytes, s'.length < s.length → ∀ c, CtxOk e c → Passive c s' → ∀ j, ljobWf P e (CallKnown L) j → HasL P N L c j s')
  {low : String → Prop} (hlow : ∀ nm, low nm → CallKnown L nm)
  (hname : ∀ nm, low nm → ∀ c, CtxOk e c → (∀ x, c ≠ some (nm, s, x)) → ∀ lab q h, HasL P N L c (.core h (.name lab nm q)) s)
include heps ih hlow hname

mutual
theorem hasL_body : ∀ (b : Body) (self : String → Prop) (c : Around V), (∀ nm s0 x, c = some (nm, s0, x) → s0 = s) → CtxOk e c → (∀ nm, self nm → CallKnown L nm ∧ ∃ x, c = some (nm, s, x)) →
    (∀ x ∈ b.rules, x ∈ rulesOf L) → b.WfL L e (CallKnown L) low self → ∀ cb, HasL P N L c (.body cb b) s
  | .text x, self, c, hs, hc, hself, _, hw, cb => by
    unfold Body.WfL at hw
    have ih' : ∀ s' : Bytes, s'.length < s.length → ∀ j, ljobWf P e (CallKnown L) j → HasL P N L c j s' := by
      intro s' hs' j hj
      refine ih s' hs' c hc ?_ j hj
      intro nm s0 x hx
      rw [hs _ _ _ hx]
      exact hs'
    have hleft : ∀ nm, low nm ∨ self nm → CallKnown L nm := fun nm h => h.elim (hlow nm) fun h => (hself nm h).1
    have hn : ∀ nm, low nm ∨ self nm → ∀ lab q h, HasL P N L c (.core h (.name lab nm q)) s := by
      intro nm h lab q h'
      by_cases hx : ∃ x, c = some (nm, s, x)
      · obtain ⟨x, hx⟩ := hx
        exact ⟨1, _, .again hx⟩
      · rcases h with h | h
        · exact hname nm h c hc (fun x hh => hx ⟨x, hh⟩) lab q h'
        · exact absurd (hself nm h).2 hx
    obtain ⟨d, r, hy⟩ := (hasL_core heps hc ih' hleft hn x.vp hw false).part
    exact ⟨d + 1, _, .text hy⟩
  | .rank ls, self, c, hs, hc, hself, hr, hw, cb => by
    unfold Body.WfL at hw
    obtain ⟨d, r, hy⟩ := hasL_lines ls self c hs hc hself hr hw
    exact ⟨d + 1, _, .rank hy⟩
theorem hasL_line : ∀ (l : GLine) (self : String → Prop) (c : Around V), (∀ nm s0 x, c = some (nm, s0, x) → s0 = s) → CtxOk e c → (∀ nm, self nm → CallKnown L nm ∧ ∃ x, c = some (nm, s, x)) →
    (∀ x ∈ l.rules, x ∈ rulesOf L) → l.WfL L e (CallKnown L) low self → ∀ ls, HasL P N L c (.lines ls) s → HasL P N L c (.lines (l :: ls)) s
  | .incl _ _ _, _, _, _, _, _, _, _, ls, ⟨d, r, hy⟩ => ⟨d, r, .incl hy⟩
  | .alt nm cb b, self, c, hs, hc, hself, hr, hw, ls, ⟨d', r', hy'⟩ => by
    unfold GLine.WfL at hw
    simp only [GLine.rules, List.mem_append] at hr
    have : HasL P N L c (.rule nm cb b) s := by
      by_cases hn : Callable L nm
      · have hm : (nm, cb, b) ∈ rulesOf L := hr _ (.inl (by simp [hn.1]))
        refine hasL_rule heps hn hm (fun x hx => ?_) c
        refine hasL_body b (· = nm) (some (nm, s, x)) (by rintro _ _ _ ⟨⟩; rfl) hx ?_ (fun z hz => hr z (.inr hz)) (hw.1 hn) cb
        rintro _ rfl
        exact ⟨⟨hn, cb, b, hm⟩, x, rfl⟩
      · obtain ⟨d, r, hy⟩ := hasL_body b self c hs hc hself (fun z hz => hr z (.inr hz)) (hw.2 hn) cb
        refine ⟨d, r, .inside ?_ hy⟩
        by_cases h1 : nm = ""
        · exact .inl h1
        · exact .inr fun h2 => hn ⟨h1, h2⟩
    obtain ⟨d, r, hy⟩ := this
    by_cases hr : r = .ok none
    · subst hr
      exact ⟨max d d', _, .altMiss (yieldsL_upTo hy (by omega)) (yieldsL_upTo hy' (by omega))⟩
    · exact ⟨d, _, .altDone hy hr⟩
theorem hasL_lines : ∀ (ls : List GLine) (self : String → Prop) (c : Around V), (∀ nm s0 x, c = some (nm, s0, x) → s0 = s) → CtxOk e c → (∀ nm, self nm → CallKnown L nm ∧ ∃ x, c = some (nm, s, x)) →
    (∀ x ∈ rulesOf ls, x ∈ rulesOf L) → linesWfL L e (CallKnown L) low self ls → HasL P N L c (.lines ls) s
  | [], _, _, _, _, _, _, _ => ⟨0, _, .linesEnd⟩
  | l :: ls, self, c, hs, hc, hself, hr, hw => by
    unfold linesWfL at hw
    simp only [rulesOf, List.mem_append] at hr
    exact hasL_line l self c hs hc hself (fun z hz => hr z (.inl hz)) hw.1 ls (hasL_lines ls self c hs hc hself (fun z hz => hr z (.inr hz)) hw.2)
end

end

section
variable {rank : String → Nat} (hw : WellFormedL L e rank)
include hw

theorem hasL_names (P : PureOps V) (N : Nat) {s : Bytes}
    (ih : ∀ s' : Bytes, s'.length < s.length → ∀ c, CtxOk e c → Passive c s' → ∀ j, ljobWf P e (CallKnown L) j → HasL P N L c j s') :
    ∀ k, ∀ nm, CallKnown L nm ∧ rank nm < k → ∀ c, CtxOk e c → (∀ x, c ≠ some (nm, s, x)) → ∀ lab q h, HasL P N L c (.core h (.name lab nm q)) s := by
  intro k
  induction k with
  | zero => intro nm h; omega
  | succ k ihk =>
    intro nm ⟨⟨hn, cb, b, hm⟩, hr⟩ c hc hne lab q h
    have hb : ∀ x, CtxOk e (some (nm, s, x)) → HasL P N L (some (nm, s, x)) (.body cb b) s := by
      intro x hx
      refine hasL_body hw.eps ih (low := fun n => CallKnown L n ∧ rank n < rank nm) (fun _ h => h.1) (fun n hn' => ihk n ⟨hn'.1, by have := hn'.2; omega⟩) b (· = nm) _
        (by rintro _ _ _ ⟨⟩; rfl) hx ?_ (fun z hz => rules_trans hm hz) (hw.rules nm cb b hm hn) cb
      rintro _ rfl
      exact ⟨⟨hn, cb, b, hm⟩, x, rfl⟩
    obtain ⟨d, r, hy⟩ := hasL_rule hw.eps hn hm hb c
    exact ⟨d, r, .name hne hn.2 hm hy⟩

theorem callKnown_bound : ∃ K, ∀ nm, CallKnown L nm → CallKnown L nm ∧ rank nm < K := by
  obtain ⟨K, hK⟩ := rank_bound rank (rulesOf L)
  exact ⟨K, fun nm h => ⟨h, by obtain ⟨_, cb, b, hm⟩ := h; exact hK _ _ _ hm⟩⟩

/-- Expressions, at a place after that where the rule around began. -/
theorem wfL_has (P : PureOps V) (N : Nat) : ∀ (n : Nat) (s : Bytes), s.length = n → ∀ c, CtxOk e c → Passive c s → ∀ j, ljobWf P e (CallKnown L) j → HasL P N L c j s := by
  intro n
  induction n using Nat.strongRecOn with
  | _ n ih =>
    intro s hs c hc hp j hj
    subst hs
    have ih' : ∀ s' : Bytes, s'.length < s.length → ∀ c, CtxOk e c → Passive c s' → ∀ j, ljobWf P e (CallKnown L) j → HasL P N L c j s' :=
      fun s' hs' c hc hp j hj => ih _ hs' s' rfl c hc hp j hj
    obtain ⟨K, hK⟩ := callKnown_bound hw
    refine hasL_job hw.eps hc (fun s' hs' j hj => ih' s' hs' c hc ?_ j hj) (left := CallKnown L) (fun _ h => h) ?_ (fun _ h => h) j hj
    · intro nm s0 x hx
      have := hp nm s0 x hx
      omega
    · intro nm hnm
      refine hasL_names hw P N ih' K nm (hK nm hnm) c hc ?_
      intro x hx
      have := hp nm s x hx
      omega

/-- The grammar. -/
theorem wfL_top (P : PureOps V) (N : Nat) (s : Bytes) : HasL P N L none (.lines L) s := by
  have ih : ∀ s' : Bytes, s'.length < s.length → ∀ c, CtxOk e c → Passive c s' → ∀ j, ljobWf P e (CallKnown L) j → HasL P N L c j s' :=
    fun s' _ c hc hp j hj => wfL_has hw P N _ s' rfl c hc hp j hj
  obtain ⟨K, hK⟩ := callKnown_bound hw
  refine hasL_lines hw.eps ih (low := CallKnown L) (fun _ h => h) (fun nm hnm => hasL_names hw P N ih K nm (hK nm hnm)) L (fun _ => False) none ?_ ?_ ?_ (fun _ h => h) hw.top
  · rintro _ _ _ ⟨⟩
  · rintro _ _ _ ⟨⟩
  · intro _ h; exact h.elim

end

end Joeson
