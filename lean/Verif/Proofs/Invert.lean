import Verif.Proofs.WellFormed
import Verif.Proofs.Deriv
import Mathlib.Data.List.Nodup
/-!
# Outcomes are determined; what is known from an outcome
-/

namespace Joeson
open RuleText

variable {V : Type} {P : PureOps V} {N : Nat} {L : List GLine} {d : Nat}

/-- Each name has one rule. -/
def OneRule (L : List GLine) : Prop := ∀ nm cb b cb' b', (nm, cb, b) ∈ rulesOf L → (nm, cb', b') ∈ rulesOf L → cb = cb' ∧ b = b'

theorem yields_det (hL : OneRule L) {j : VJob V} {s : Bytes} {r : VRes V} (h : Yields P N L d j s r) : ∀ {d' r'}, Yields P N L d' j s r' → r = r' := by
  induction h with
  | part _ ih => intro d' r' h'; cases h' with | part h => rw [ih h]
  | @lit d h lab b s => intro d' r' h'; generalize hs : b ++ s = t at h'; cases h' with
    | lit => rw [List.append_cancel_left hs]
    | litMiss hn => exact absurd hs.symm (hn _)
  | litMiss hn => intro d' r' h'; cases h' with
    | lit => exact absurd rfl (hn _)
    | litMiss _ => rfl
  | re hr => intro d' r' h'; cases h' with
    | re hr' => cases hr.symm.trans hr'; rfl
    | reMiss hn => exact absurd hr (hn _)
  | reMiss hn => intro d' r' h'; cases h' with
    | re hr => exact absurd hr (hn _)
    | reMiss _ => rfl
  | name hm _ ih => intro d' r' h'; cases h' with
    | name hm' h =>
      obtain ⟨rfl, rfl⟩ := hL _ _ _ _ _ hm hm'
      exact ih h
  | alt _ ih => intro d' r' h'; cases h' with | alt h => exact ih h
  | altsEnd => intro d' r' h'; cases h'; rfl
  | altsDone _ hr ih => intro d' r' h'; cases h' with
    | altsDone h _ => exact ih h
    | altsMiss h _ => exact absurd (ih h) hr
  | altsMiss _ _ ih1 ih2 => intro d' r' h'; cases h' with
    | altsDone h hr => exact absurd (ih1 h).symm hr
    | altsMiss _ h => exact ih2 h
  | seq _ ih => intro d' r' h'; cases h' with | seq h => exact ih h
  | itemsEnd hg => intro d' r' h'; cases h' with | itemsEnd hg' => cases hg.symm.trans hg'; rfl
  | itemsMiss _ ih => intro d' r' h'; cases h' with
    | itemsMiss _ => rfl
    | itemsPanic h => cases ih h
    | itemsPut h _ _ => cases ih h
    | itemsBad h _ => cases ih h
  | itemsPanic _ ih => intro d' r' h'; cases h' with
    | itemsMiss h => cases ih h
    | itemsPanic h => cases ih h; rfl
    | itemsPut h _ _ => cases ih h
    | itemsBad h _ => cases ih h
  | itemsPut _ hg _ ih1 ih2 => intro d' r' h'; cases h' with
    | itemsMiss h => cases ih1 h
    | itemsPanic h => cases ih1 h
    | itemsPut h _ h2 => cases ih1 h; exact ih2 h2
    | itemsBad h hg' => cases ih1 h; cases hg.symm.trans hg'
  | itemsBad _ hg ih => intro d' r' h'; cases h' with
    | itemsMiss h => cases ih h
    | itemsPanic h => cases ih h
    | itemsPut h hg' h2 => cases ih h; cases hg.symm.trans hg'
    | itemsBad h hg' => cases ih h; cases hg.symm.trans hg'; rfl
  | optDone _ hr ih => intro d' r' h'; cases h' with
    | optDone h _ => exact ih h
    | optMiss h => exact absurd (ih h) hr
  | optMiss _ ih => intro d' r' h'; cases h' with
    | optDone h hr => exact absurd (ih h).symm hr
    | optMiss h => rfl
  | notHit _ ih => intro d' r' h'; cases h' with
    | notHit _ => rfl
    | notMiss h => cases ih h
    | notPanic h => cases ih h
  | notMiss _ ih => intro d' r' h'; cases h' with
    | notHit h => cases ih h
    | notMiss h => rfl
    | notPanic h => cases ih h
  | notPanic _ ih => intro d' r' h'; cases h' with
    | notHit h => cases ih h
    | notMiss h => cases ih h
    | notPanic h => cases ih h; rfl
  | lookHit _ ih => intro d' r' h'; cases h' with
    | lookHit h => cases ih h; rfl
    | lookMiss h => cases ih h
    | lookPanic h => cases ih h
  | lookMiss _ ih => intro d' r' h'; cases h' with
    | lookHit h => cases ih h
    | lookMiss h => rfl
    | lookPanic h => cases ih h
  | lookPanic _ ih => intro d' r' h'; cases h' with
    | lookHit h => cases ih h
    | lookMiss h => cases ih h
    | lookPanic h => cases ih h; rfl
  | repMiss _ ih => intro d' r' h'; cases h' with
    | repMiss h => rfl
    | repPanic h => cases ih h
    | rep h _ => cases ih h
  | repPanic _ ih => intro d' r' h'; cases h' with
    | repMiss h => cases ih h
    | repPanic h => cases ih h; rfl
    | rep h _ => cases ih h
  | rep _ _ ih1 ih2 => intro d' r' h'; cases h' with
    | repMiss h => cases ih1 h
    | repPanic h => cases ih1 h
    | rep h h2 => cases ih1 h; exact ih2 h2
  | sepNone => intro d' r' h'; cases h'; rfl
  | sepSome _ ih => intro d' r' h'; cases h' with | sepSome h => exact ih h
  | full hn => intro d' r' h'; cases h' with
    | full _ => rfl
    | noSep h _ => exact absurd h hn
    | sepPanic h _ => exact absurd h hn
    | noMore h _ _ => exact absurd h hn
    | morePanic h _ _ => exact absurd h hn
    | more h _ _ _ => exact absurd h hn
  | noSep hr _ ih => intro d' r' h'; cases h' with
    | full h => exact absurd hr h
    | noSep _ h => rfl
    | sepPanic _ h => cases ih h
    | noMore _ h _ => cases ih h
    | morePanic _ h _ => cases ih h
    | more _ h _ _ => cases ih h
  | sepPanic hr _ ih => intro d' r' h'; cases h' with
    | full h => exact absurd hr h
    | noSep _ h => cases ih h
    | sepPanic _ h => cases ih h; rfl
    | noMore _ h _ => cases ih h
    | morePanic _ h _ => cases ih h
    | more _ h _ _ => cases ih h
  | noMore hr _ _ ih1 ih2 => intro d' r' h'; cases h' with
    | full h => exact absurd hr h
    | noSep _ h => cases ih1 h
    | sepPanic _ h => cases ih1 h
    | noMore _ h _ => rfl
    | morePanic _ h h2 => cases ih1 h; cases ih2 h2
    | more _ h h2 _ => cases ih1 h; cases ih2 h2
  | morePanic hr _ _ ih1 ih2 => intro d' r' h'; cases h' with
    | full h => exact absurd hr h
    | noSep _ h => cases ih1 h
    | sepPanic _ h => cases ih1 h
    | noMore _ h h2 => cases ih1 h; cases ih2 h2
    | morePanic _ h h2 => cases ih1 h; cases ih2 h2; rfl
    | more _ h h2 _ => cases ih1 h; cases ih2 h2
  | more hr _ _ _ ih1 ih2 ih3 => intro d' r' h'; cases h' with
    | full h => exact absurd hr h
    | noSep _ h => cases ih1 h
    | sepPanic _ h => cases ih1 h
    | noMore _ h h2 => cases ih1 h; cases ih2 h2
    | morePanic _ h h2 => cases ih1 h; cases ih2 h2
    | more _ h h2 h3 => cases ih1 h; cases ih2 h2; exact ih3 h3
  | text _ ih => intro d' r' h'; cases h' with | text h => rw [ih h]
  | rank _ ih => intro d' r' h'; cases h' with | rank h => rw [ih h]
  | linesEnd => intro d' r' h'; cases h'; rfl
  | incl _ ih => intro d' r' h'; cases h' with | incl h => exact ih h
  | altDone _ hr ih => intro d' r' h'; cases h' with
    | altDone h _ => exact ih h
    | altMiss h _ => exact absurd (ih h) hr
  | altMiss _ _ ih1 ih2 => intro d' r' h'; cases h' with
    | altDone h hr => exact absurd (ih1 h).symm hr
    | altMiss _ h => exact ih2 h

theorem oneRule_of (h : ((rulesOf L).map (·.1)).Nodup) : OneRule L := by
  intro nm cb b cb' b' h1 h2
  have := List.inj_on_of_nodup_map h h1 h2 rfl
  cases this
  exact ⟨rfl, rfl⟩

theorem inv_bare {h : Bool} {p : VP} {s : Bytes} {r : VRes V} (hp : h = true ∨ p.outLab = "") (hy : Yields P N L d (.part h p) s r) : Yields P N L d (.core h p) s r := by
  cases hy with
  | @part _ _ _ _ r0 hy =>
    have : own P h p r0 = r0 := by
      match r0 with
      | .error e => rfl
      | .ok none => rfl
      | .ok (some (v, s')) => rcases hp with rfl | hp <;> simp [own, *]
    rwa [this]

theorem inv_plit {h : Bool} {lab : String} {b s s' : Bytes} {v : V} (hl : h = true ∨ lab = "") (hy : Yields P N L d (.part h (.lit lab b)) s (.ok (some (v, s')))) :
    s = b ++ s' ∧ v = P.str b := by
  have := inv_bare hl hy
  generalize hr : Except.ok (some (v, s')) = r at this
  cases this with
  | lit => cases hr; exact ⟨rfl, rfl⟩
  | litMiss => cases hr

theorem inv_pcls {C : UInt8 → Prop} {re : Regex} (hre : FindsOne C re) {h : Bool} {lab : String} {s s' : Bytes} {v : V} (hl : h = true ∨ lab = "")
    (hy : Yields P N L d (.part h (.re lab re)) s (.ok (some (v, s')))) : ∃ c, C c ∧ s = c :: s' ∧ v = P.str [c] := by
  have := inv_bare hl hy
  generalize hr : Except.ok (some (v, s')) = r at this
  cases this with
  | re h =>
    obtain ⟨c, t, rfl, hc⟩ := hre.2 _ _ h
    cases (hre.1 c t hc).symm.trans h
    cases hr
    exact ⟨c, hc, rfl, rfl⟩
  | reMiss => cases hr

/-- As many as there are. -/
theorem greedy (C : UInt8 → Prop) : ∀ s : Bytes, ∃ w s', s = w ++ s' ∧ (∀ c ∈ w, C c) ∧ NoneOf C s'
  | [] => ⟨[], [], rfl, by simp, NoneOf.nil⟩
  | c :: s => by
    by_cases hc : C c
    · obtain ⟨w, s', rfl, h1, h2⟩ := greedy C s
      exact ⟨c :: w, s', rfl, by simpa using ⟨hc, h1⟩, h2⟩
    · exact ⟨[], c :: s, rfl, by simp, fun c' s' h => by cases h; exact hc⟩

theorem inv_repCls (hL : OneRule L) {C : UInt8 → Prop} {re : Regex} (hre : FindsOne C re) {h : Bool} {lab : String} (hl : h = true ∨ lab = "") {s : Bytes} {r : VRes V}
    (hy : Yields P N L d (.part h (.rep lab (.re "" re) none 0 none)) s r) :
    ∃ w s', s = w ++ s' ∧ (∀ c ∈ w, C c) ∧ NoneOf C s' ∧ r = .ok (some (P.arr (w.map fun b => P.str [b]), s')) := by
  obtain ⟨w, s', rfl, h1, h2⟩ := greedy C s
  exact ⟨w, s', rfl, h1, h2, yields_det hL hy (Yields.repCls (d := 0) hre hl h1 h2)⟩

theorem inv_call (hL : OneRule L) {h : Bool} {lab nm : String} {q : Bool} {cb : Option Nat} {b : Body} (hl : h = true ∨ lab = "") (hm : (nm, cb, b) ∈ rulesOf L) {s : Bytes} {r : VRes V}
    (hy : Yields P N L d (.part h (.name lab nm q)) s r) : Yields P N L d (.rule cb b) s r := by
  have := inv_bare hl hy
  cases this with
  | name hm' h =>
    obtain ⟨rfl, rfl⟩ := hL _ _ _ _ _ hm hm'
    exact h

theorem inv_text {cb : Option Nat} {e : Expr} {p : VP} (hp : e.vp = p) {s : Bytes} {r : VRes V} (hy : Yields P N L d (.rule cb (.text e)) s r) :
    ∃ d' r0, Yields P N L d' (.part false p) s r0 ∧ r = called P N cb r0 := by
  cases hy with
  | text h => exact ⟨_, _, hp ▸ h, rfl⟩

theorem inv_rank {cb : Option Nat} {ls : List GLine} {s : Bytes} {r : VRes V} (hy : Yields P N L d (.rule cb (.rank ls)) s r) :
    ∃ d' r0, Yields P N L d' (.lines ls) s r0 ∧ r = called P N cb r0 := by
  cases hy with
  | rank h => exact ⟨_, _, h, rfl⟩

/-- The value given to a callback. -/
theorem inv_called {cb : Option Nat} {r0 : VRes V} {v : V} {s' : Bytes} (h : .ok (some (v, s')) = called P N cb r0) :
    ∃ v0, r0 = .ok (some (v0, s')) ∧ (match cb with | none => v = v0 | some c => P.cb c v0 (N - s'.length) = .ok (some v)) := by
  match r0, h with
  | .ok (some (v0, s0)), h =>
    unfold called at h
    cases cb with
    | none => cases h; exact ⟨_, rfl, rfl⟩
    | some c =>
      dsimp only at h
      split at h
      · cases h
      · cases h
      · cases h
        exact ⟨_, rfl, by assumption⟩

theorem inv_called_none {r0 : VRes V} {v : V} {s' : Bytes} (h : .ok (some (v, s')) = called P N none r0) : r0 = .ok (some (v, s')) := by
  obtain ⟨v0, h1, h2⟩ := inv_called h
  rw [h1, show v = v0 from h2]

theorem inv_called_some {c : Nat} {r0 : VRes V} {v : V} {s' : Bytes} (h : .ok (some (v, s')) = called P N (some c) r0) :
    ∃ v0, r0 = .ok (some (v0, s')) ∧ P.cb c v0 (N - s'.length) = .ok (some v) := inv_called h

theorem inv_seq {h : Bool} {lab : String} {l : List VP} {s : Bytes} {r : VRes V} (hl : h = true ∨ lab = "") (hy : Yields P N L d (.part h (.seq lab l)) s r) :
    Yields P N L d (.items (formOf l) l []) s r := by
  have := inv_bare hl hy
  cases this with
  | seq h => exact h

theorem inv_item {f : Form} {p : VP} {l : List VP} {acc : List (VP × V)} {s s' : Bytes} {v : V} (hy : Yields P N L d (.items f (p :: l) acc) s (.ok (some (v, s')))) :
    ∃ w s1, Yields P N L d (.part true p) s (.ok (some (w, s1))) ∧ Yields P N L d (.items f l (acc ++ [(p, w)])) s1 (.ok (some (v, s'))) := by
  cases hy with
  | itemsPut h _ h2 => exact ⟨_, _, h, h2⟩

theorem inv_itemsEnd {f : Form} {acc : List (VP × V)} {s s' : Bytes} {v : V} (hy : Yields P N L d (.items f [] acc) s (.ok (some (v, s')))) : s = s' ∧ gather P f acc = .ok v := by
  cases hy with
  | itemsEnd h => exact ⟨rfl, h⟩

theorem inv_line {nm : String} {cb : Option Nat} {b : Body} {ls : List GLine} {s : Bytes} {r : VRes V} (hy : Yields P N L d (.lines (.alt nm cb b :: ls)) s r) :
    Yields P N L d (.rule cb b) s r ∨ (Yields P N L d (.rule cb b) s (.ok none) ∧ Yields P N L d (.lines ls) s r) := by
  cases hy with
  | altDone h _ => exact .inl h
  | altMiss h h2 => exact .inr ⟨h, h2⟩

theorem inv_incl {nm : String} {cb : Option Nat} {b : Body} {ls : List GLine} {s : Bytes} {r : VRes V} (hy : Yields P N L d (.lines (.incl nm cb b :: ls)) s r) :
    Yields P N L d (.lines ls) s r := by
  cases hy with
  | incl h => exact h

theorem inv_linesEnd {s : Bytes} {r : VRes V} (hy : Yields P N L d (.lines []) s r) : r = .ok none := by
  cases hy; rfl

/-- The first of a repetition of which there must be one. -/
theorem inv_rep {h : Bool} {lab : String} {p : VP} {o : Option VP} {mn : Nat} {mx : Option Nat} {s s' : Bytes} {v : V} (hl : h = true ∨ lab = "") (hm : mn ≠ 0)
    (hy : Yields P N L d (.part h (.rep lab p o mn mx)) s (.ok (some (v, s')))) :
    ∃ w s1, Yields P N L d (.part false p) s (.ok (some (w, s1))) ∧ Yields P N L d (.more p o mn mx [w]) s1 (.ok (some (v, s'))) := by
  have := inv_bare hl hy
  generalize hr : Except.ok (some (v, s')) = r at this
  cases this with
  | repMiss => simp [vstop, Nat.pos_of_ne_zero hm] at hr
  | repPanic => cases hr
  | rep h1 h2 => subst hr; exact ⟨_, _, h1, h2⟩

/-- The next of a repetition that has too few. -/
theorem inv_more {p : VP} {o : Option VP} {mn : Nat} {mx : Option Nat} {vs : List V} {s s' : Bytes} {v : V} (hm : vs.length < mn)
    (hy : Yields P N L d (.more p o mn mx vs) s (.ok (some (v, s')))) :
    ∃ x s1 w s2, Yields P N L d (.sep o) s (.ok (some (x, s1))) ∧ Yields P N L d (.part false p) s1 (.ok (some (w, s2))) ∧
      Yields P N L d (.more p o mn mx (vs ++ [w])) s2 (.ok (some (v, s'))) := by
  generalize hr : Except.ok (some (v, s')) = r at hy
  cases hy with
  | more _ h1 h2 h3 => subst hr; exact ⟨_, _, _, _, h1, h2, h3⟩
  | sepPanic => cases hr
  | morePanic => cases hr
  | full => simp [vstop, hm] at hr
  | noSep => simp [vstop, hm] at hr
  | noMore => simp [vstop, hm] at hr

/-- A repetition that has enough. -/
theorem inv_full {p : VP} {o : Option VP} {mn mx : Nat} {vs : List V} {s s' : Bytes} {v : V} (hm : max mx 2 ≤ vs.length)
    (hy : Yields P N L d (.more p o mn (some mx) vs) s (.ok (some (v, s')))) : s = s' ∧ v = P.arr vs := by
  have hn : ¬ Room (some mx) vs.length := fun h => by have := h mx rfl; omega
  generalize hr : Except.ok (some (v, s')) = r at hy
  cases hy with
  | more h => exact absurd h hn
  | sepPanic => cases hr
  | morePanic => cases hr
  | full => 
    unfold vstop at hr
    split at hr
    · cases hr
    · cases hr; exact ⟨rfl, rfl⟩
  | noSep h => exact absurd h hn
  | noMore h => exact absurd h hn

/-! ## Panics -/

theorem inv_called_error {cb : Option Nat} {r0 : VRes V} {x : Panic} (h : .error x = called P N cb r0) :
    r0 = .error x ∨ ∃ c v0 s', cb = some c ∧ r0 = .ok (some (v0, s')) ∧ P.cb c v0 (N - s'.length) = .error x := by
  match r0, h with
  | .error y, h => cases h; exact .inl rfl
  | .ok (some (v0, s0)), h =>
    unfold called at h
    cases cb with
    | none => cases h
    | some c =>
      dsimp only at h
      split at h
      · cases h
        exact .inr ⟨c, v0, s0, rfl, rfl, by assumption⟩
      · cases h
      · cases h

theorem inv_plit_error {h : Bool} {lab : String} {b s : Bytes} {x : Panic} (hl : h = true ∨ lab = "") (hy : Yields P N L d (.part h (.lit lab b)) s (.error x)) : False := by
  have := inv_bare hl hy
  generalize hr : Except.error x = r at this
  cases this <;> cases hr

theorem inv_item_error {f : Form} (hf : f ≠ .object) {p : VP} {l : List VP} {acc : List (VP × V)} {s : Bytes} {x : Panic} (hy : Yields P N L d (.items f (p :: l) acc) s (.error x)) :
    Yields P N L d (.part true p) s (.error x) ∨
      ∃ w s1, Yields P N L d (.part true p) s (.ok (some (w, s1))) ∧ Yields P N L d (.items f l (acc ++ [(p, w)])) s1 (.error x) := by
  cases hy with
  | itemsPanic h => exact .inl h
  | itemsPut h _ h2 => exact .inr ⟨_, _, h, h2⟩
  | itemsBad _ hg =>
    cases f with
    | single => cases hg
    | array => cases hg
    | object => exact absurd rfl hf

theorem inv_items_error_end {f : Form} {acc : List (VP × V)} {s : Bytes} {x : Panic} (hy : Yields P N L d (.items f [] acc) s (.error x)) : False := by
  cases hy

theorem inv_rep_error {h : Bool} {lab : String} {p : VP} {o : Option VP} {mn : Nat} {mx : Option Nat} {s : Bytes} {x : Panic} (hl : h = true ∨ lab = "")
    (hy : Yields P N L d (.part h (.rep lab p o mn mx)) s (.error x)) : Yields P N L d (.part false p) s (.error x) ∨
    ∃ w s1, Yields P N L d (.part false p) s (.ok (some (w, s1))) ∧ Yields P N L d (.more p o mn mx [w]) s1 (.error x) := by
  have := inv_bare hl hy
  generalize hr : Except.error x = r at this
  cases this with
  | repMiss => unfold vstop at hr; split at hr <;> cases hr
  | repPanic h => cases hr; exact .inl h
  | rep h1 h2 => subst hr; exact .inr ⟨_, _, h1, h2⟩

theorem inv_more_error {p : VP} {o : Option VP} {mn : Nat} {mx : Option Nat} {vs : List V} {s : Bytes} {x : Panic}
    (hy : Yields P N L d (.more p o mn mx vs) s (.error x)) : Room mx vs.length ∧ (Yields P N L d (.sep o) s (.error x) ∨
    ∃ y s1, Yields P N L d (.sep o) s (.ok (some (y, s1))) ∧ (Yields P N L d (.part false p) s1 (.error x) ∨
      ∃ w s2, Yields P N L d (.part false p) s1 (.ok (some (w, s2))) ∧ Yields P N L d (.more p o mn mx (vs ++ [w])) s2 (.error x))) := by
  generalize hr : Except.error x = r at hy
  cases hy with
  | more h h1 h2 h3 => subst hr; exact ⟨h, .inr ⟨_, _, h1, .inr ⟨_, _, h2, h3⟩⟩⟩
  | sepPanic h h1 => cases hr; exact ⟨h, .inl h1⟩
  | morePanic h h1 h2 => cases hr; exact ⟨h, .inr ⟨_, _, h1, .inl h2⟩⟩
  | full => unfold vstop at hr; split at hr <;> cases hr
  | noSep => unfold vstop at hr; split at hr <;> cases hr
  | noMore => unfold vstop at hr; split at hr <;> cases hr

/-- With labels the values may not fit together. -/
theorem inv_item_error' {f : Form} {p : VP} {l : List VP} {acc : List (VP × V)} {s : Bytes} {x : Panic} (hy : Yields P N L d (.items f (p :: l) acc) s (.error x)) :
    Yields P N L d (.part true p) s (.error x) ∨
      ∃ w s1, Yields P N L d (.part true p) s (.ok (some (w, s1))) ∧ (Yields P N L d (.items f l (acc ++ [(p, w)])) s1 (.error x) ∨ gather P f (acc ++ [(p, w)]) = .error x) := by
  cases hy with
  | itemsPanic h => exact .inl h
  | itemsPut h _ h2 => exact .inr ⟨_, _, h, .inl h2⟩
  | itemsBad h hg => exact .inr ⟨_, _, h, .inr hg⟩

theorem inv_re_error {h : Bool} {lab : String} {re : Regex} {s : Bytes} {x : Panic} (hl : h = true ∨ lab = "") (hy : Yields P N L d (.part h (.re lab re)) s (.error x)) : False := by
  have := inv_bare hl hy
  generalize hr : Except.error x = r at this
  cases this <;> cases hr

/-! ## Alternatives -/

theorem inv_alt {h : Bool} {lab : String} {l : List VP} {s : Bytes} {r : VRes V} (hl : h = true ∨ lab = "") (hy : Yields P N L d (.part h (.alt lab l)) s r) : Yields P N L d (.alts l) s r := by
  have := inv_bare hl hy
  cases this with
  | alt h => exact h

theorem inv_alts {p : VP} {l : List VP} {s : Bytes} {r : VRes V} (hy : Yields P N L d (.alts (p :: l)) s r) :
    (Yields P N L d (.part false p) s r ∧ r ≠ .ok none) ∨ (Yields P N L d (.part false p) s (.ok none) ∧ Yields P N L d (.alts l) s r) := by
  cases hy with
  | altsDone h h2 => exact .inl ⟨h, h2⟩
  | altsMiss h h2 => exact .inr ⟨h, h2⟩

theorem inv_altsEnd {s : Bytes} {r : VRes V} (hy : Yields P N L d (.alts []) s r) : r = .ok none := by
  cases hy; rfl

end Joeson
