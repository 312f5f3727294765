import Mathlib.Data.Finset.Card
import Verif.Spec.NoLeftRec
import Verif.Proofs.Means
import Verif.Proofs.Streams
/-!
# Without left recursion every text has a meaning
-/

namespace Joeson
variable {V : Type}

/-! ## A rank on rules -/

/-- A rank that decreases along calls at the same position. -/
structure Ranked (g : Grammar) (nn : Nat → Prop) (R : Nat) (rk : Nat → Nat) : Prop where
  sound : ∀ id n, nn id → g.rules[id]? = some n → Consumes g nn n
  guarded : ∀ n ∈ g.rules, n.Guarded g nn
  lt : ∀ id, id < g.numRules → rk id < R
  desc : ∀ id n id', g.rules[id]? = some n → First g nn n id' → rk id' < rk id

theorem first_lt {g : Grammar} {nn : Nat → Prop} {n : Node} {id : Nat} (hl : ∀ nm id, g.lookup nm = some id → id < g.numRules)
    (h : First g nn n id) (hb : n.Below g.numRules) : id < g.numRules := by
  induction h with
  | rule => cases hb; assumption
  | ref h => exact hl _ _ h
  | choice hc _ ih => cases hb with | choice h => exact ih (h _ hc)
  | seq _ _ ih => cases hb with | seq h => exact ih (h _ (by simp))
  | exist _ ih => cases hb; exact ih ‹_›
  | look _ ih => cases hb; exact ih ‹_›
  | not _ ih => cases hb; exact ih ‹_›
  | patValue _ ih => cases hb; exact ih ‹_›
  | patJoin _ _ ih => cases hb with | pattern _ h => exact ih (h _ rfl)

open Classical in
/-- The number of rules reached. -/
noncomputable def reachCount (g : Grammar) (nn : Nat → Prop) (id : Nat) : Nat :=
  ((Finset.range g.numRules).filter fun j => Reaches g nn id j).card

theorem ranked_of_noLeftRec {g : Grammar} (hg : g.Built) (h : g.NoLeftRec) :
    ∃ nn rk, Ranked g nn g.numRules rk := by
  classical
  obtain ⟨nn, h1, h2, h3⟩ := h
  refine ⟨nn, reachCount g nn, h1, h2, ?_, ?_⟩
  · intro id hid
    have : (Finset.range g.numRules).filter (fun j => Reaches g nn id j) ⊂ Finset.range g.numRules := by
      refine Finset.ssubset_iff_subset_ne.mpr ⟨Finset.filter_subset _ _, fun e => ?_⟩
      have : id ∈ (Finset.range g.numRules).filter (fun j => Reaches g nn id j) := by
        rw [e]; exact Finset.mem_range.mpr hid
      exact h3 id (Finset.mem_filter.mp this).2
    have := Finset.card_lt_card this
    rw [Finset.card_range] at this
    unfold reachCount
    convert this
  · intro id n id' hn hf
    have hr : Reaches g nn id id' := .one hn hf
    have hlt : id' < g.numRules := first_lt hg.lookup hf (hg.rules n (List.mem_of_getElem? hn))
    have : (Finset.range g.numRules).filter (fun j => Reaches g nn id' j) ⊂
        (Finset.range g.numRules).filter (fun j => Reaches g nn id j) := by
      refine Finset.ssubset_iff_subset_ne.mpr ⟨?_, fun e => ?_⟩
      · intro x hx
        have hx := Finset.mem_filter.mp hx
        exact Finset.mem_filter.mpr ⟨hx.1, hr.trans hx.2⟩
      · have : id' ∈ (Finset.range g.numRules).filter (fun j => Reaches g nn id j) :=
          Finset.mem_filter.mpr ⟨Finset.mem_range.mpr hlt, hr⟩
        rw [← e] at this
        exact h3 id' (Finset.mem_filter.mp this).2
    have := Finset.card_lt_card this
    unfold reachCount
    convert this

/-! ## Totality -/

/-- The outcome ends between `p` and the end, after `p` if `c`. -/
def Ends (E : PegEnv V) (c : Prop) (p : Nat) (r : Res V) : Prop :=
  ∀ v e, r = .ok (some (v, e)) → p ≤ e ∧ e ≤ E.st.len ∧ (c → p < e)

/-- `n` has a meaning at `p`. -/
def Total (E : PegEnv V) (nn : Nat → Prop) (d : Nat) (n : Node) (p : Nat) : Prop :=
  ∀ q, ∃ r, Means E d q (.node n) p r ∧ Ends E (Consumes E.g nn n) p r

/-- `n` without label and callback has a meaning at `p`. -/
def TotalIn (E : PegEnv V) (nn : Nat → Prop) (d : Nat) (n : Node) (p : Nat) : Prop :=
  ∀ q, ∃ r, Means E d q (.inner n) p r ∧ Ends E (Consumes E.g nn n) p r

theorem Means.mono_node {E : PegEnv V} {d d' q : Nat} {n : Node} {p : Nat} {r : Res V} (hd : d ≤ d')
    (h : Means E d q (.node n) p r) : Means E d' q (.node n) p r := by
  obtain ⟨k, hk⟩ := (means_iff _ _ _ _ _ _).mp h
  have := Out.le_eq (peg_mono E k k d d' (Nat.le_refl _) hd n q p) (by rw [hk]; exact r.out_ne_oof)
  exact (means_iff _ _ _ _ _ _).mpr ⟨k, by rw [this, hk]⟩

theorem Total.mono {E : PegEnv V} {nn : Nat → Prop} {d d' : Nat} {n : Node} {p : Nat} (h : Total E nn d n p) (hd : d ≤ d') :
    Total E nn d' n p := fun q => by
  obtain ⟨r, h1, h2⟩ := h q
  exact ⟨r, h1.mono_node hd, h2⟩

theorem Ends.imp {E : PegEnv V} {c c' : Prop} {p : Nat} {r : Res V} (h : Ends E c p r) (hc : c' → c) : Ends E c' p r :=
  fun v e he => let ⟨h1, h2, h3⟩ := h v e he; ⟨h1, h2, fun x => h3 (hc x)⟩

theorem Ends.finish {E : PegEnv V} {c : Prop} {p q : Nat} {r : Res V} {i : Info} (h : Ends E c p r) :
    Ends E c p (r.finish E i q) := by
  intro v e he
  rcases r with x | _ | ⟨w, e'⟩
  · cases he
  · cases he
  · simp only [Res.finish] at he
    split at he
    · cases he
    · cases he
    · cases he; exact h w e rfl

theorem Ends.error {E : PegEnv V} {c : Prop} {p : Nat} {x : Panic} : Ends E c p (.error x) := fun _ _ h => by cases h
theorem Ends.miss {E : PegEnv V} {c : Prop} {p : Nat} : Ends E c p (.ok none) := fun _ _ h => by cases h

theorem TotalIn.total {E : PegEnv V} {nn : Nat → Prop} {d : Nat} {n : Node} {p : Nat} (hn : n.isRule = false)
    (h : TotalIn E nn d n p) : Total E nn d n p := fun q => by
  obtain ⟨r, h1, h2⟩ := h q
  cases hw : n.wraps with
  | false => exact ⟨r, .plain hn hw h1, h2⟩
  | true => exact ⟨_, .wrapped hn hw h1, h2.finish⟩

theorem TotalIn.both {E : PegEnv V} {nn : Nat → Prop} {d : Nat} {n : Node} {p : Nat} (hn : n.isRule = false)
    (h : TotalIn E nn d n p) : Total E nn d n p ∧ (n.isRule = false → TotalIn E nn d n p) := ⟨h.total hn, fun _ => h⟩

theorem alts_total {E : PegEnv V} {nn : Nat → Prop} {d p : Nat} (l : List Node) (h : ∀ c ∈ l, Total E nn d c p) (q : Nat) :
    ∃ r, Means E d q (.alts l) p r ∧ Ends E (∀ c ∈ l, Consumes E.g nn c) p r := by
  induction l with
  | nil => exact ⟨_, .altsEnd, .miss⟩
  | cons c cs ih =>
    obtain ⟨r, h1, h2⟩ := h c (by simp) q
    rcases r with x | _ | x
    · exact ⟨_, .altsPanic h1, .error⟩
    · obtain ⟨r, h3, h4⟩ := ih fun c hc => h c (by simp [hc])
      exact ⟨r, .altsMiss h1 h3, h4.imp fun hc c' hc' => hc c' (by simp [hc'])⟩
    · exact ⟨_, .altsHit h1, h2.imp fun hc => hc c (by simp)⟩

/-- A sequence: the elements have a meaning at `p` as long as nothing has been consumed, and further on. -/
theorem items_total {E : PegEnv V} {nn : Nat → Prop} {d p : Nat} {repr : SeqRepr} (q : Nat) :
    ∀ (l : List Node) (p' : Nat) (acc : SeqVal V), p ≤ p' → p' ≤ E.st.len →
      (∀ c ∈ l, ∀ p2, p < p2 → p2 ≤ E.st.len → Total E nn d c p2) →
      (p' = p → ∀ pre c post, l = pre ++ c :: post → (∀ x ∈ pre, ¬ Consumes E.g nn x) → Total E nn d c p) →
      ∃ r, Means E d q (.items repr l acc) p' r ∧ Ends E (∃ c ∈ l, Consumes E.g nn c) p' r := by
  intro l
  induction l with
  | nil =>
    intro p' acc _ hl _ _
    exact ⟨_, .itemsEnd, fun v e he => by cases he; exact ⟨Nat.le_refl _, hl, by simp⟩⟩
  | cons c cs ih =>
    intro p' acc hp hl hlater hnow
    have hc : Total E nn d c p' := by
      rcases Nat.eq_or_lt_of_le hp with e | e
      · rw [← e]
        exact hnow e.symm [] c cs rfl (by simp)
      · exact hlater c (by simp) p' e hl
    obtain ⟨r, h1, h2⟩ := hc q
    rcases r with x | _ | ⟨v, e⟩
    · exact ⟨_, .itemsPanic h1, .error⟩
    · exact ⟨_, .itemsMiss h1, .miss⟩
    · obtain ⟨he1, he2, he3⟩ := h2 v e rfl
      cases hput : seqPut E.P repr (E.g.info c) acc v with
      | error x => exact ⟨_, .itemsPutPanic h1 hput, .error⟩
      | ok acc' =>
        obtain ⟨r, h3, h4⟩ := ih e acc' (by omega) he2 (fun c hc => hlater c (by simp [hc])) (by
          intro hee pre c' post hcs hpre
          have : p' = p := by omega
          refine hnow this (c :: pre) c' post (by simp [hcs]) ?_
          intro x hx
          rcases List.mem_cons.mp hx with rfl | hx
          · intro hcon; have := he3 hcon; omega
          · exact hpre x hx)
        refine ⟨r, .itemsPut h1 hput h3, ?_⟩
        intro v' e' hr
        obtain ⟨i1, i2, i3⟩ := h4 v' e' hr
        refine ⟨by omega, i2, ?_⟩
        rintro ⟨c', hc', hcon⟩
        rcases List.mem_cons.mp hc' with rfl | hc'
        · have := he3 hcon; omega
        · have := i3 ⟨c', hc', hcon⟩; omega

theorem Ends.stop {E : PegEnv V} {c : Prop} {mn : Int} {vs : List V} {p p' : Nat} (hp : p ≤ p') (hl : p' ≤ E.st.len)
    (hc : c → p < p') : Ends E c p (Res.stop E mn vs p') := by
  intro v e he
  unfold Res.stop at he
  split at he
  · cases he
  · cases he; exact ⟨hp, hl, hc⟩

/-- The turns of a repetition. -/
theorem more_total {E : PegEnv V} {nn : Nat → Prop} {d : Nat} {value : Node} {join : Option Node} {mn mx : Int} (q : Nat)
    (hg : Consumes E.g nn value ∨ ∃ c, join = some c ∧ Consumes E.g nn c) :
    ∀ (m p : Nat) (vs : List V), E.st.len - p ≤ m → p ≤ E.st.len →
      (∀ p2, p ≤ p2 → p2 ≤ E.st.len → Total E nn d value p2) →
      (∀ j, join = some j → ∀ p2, p ≤ p2 → p2 ≤ E.st.len → Total E nn d j p2) →
      ∃ r, Means E d q (.more value join mn mx vs) p r ∧ ∀ v e, r = .ok (some (v, e)) → p ≤ e ∧ e ≤ E.st.len := by
  intro m
  induction m with
  | zero =>
    intro p vs hm hl hv hj
    have hlp : p = E.st.len := by omega
    have hs : ∃ r, Means E d q (.sep join) p r ∧ Ends E (∃ c, join = some c ∧ Consumes E.g nn c) p r := by
      cases join with
      | none => exact ⟨_, .sepNone, fun v e h => by cases h; exact ⟨Nat.le_refl _, hl, by simp⟩⟩
      | some j =>
        obtain ⟨r, h1, h2⟩ := hj j rfl p (Nat.le_refl _) hl q
        exact ⟨r, .sepSome h1, h2.imp fun ⟨c, hc, hcon⟩ => by cases hc; exact hcon⟩
    obtain ⟨r, h1, h2⟩ := hs
    rcases r with x | _ | ⟨w, p'⟩
    · exact ⟨_, .sepPanic h1, fun _ _ h => by cases h⟩
    · refine ⟨_, .sepMiss h1, fun v e he => ?_⟩
      have := (Ends.stop (c := False) (Nat.le_refl p) hl (by simp)) v e he
      exact ⟨this.1, this.2.1⟩
    · obtain ⟨s1, s2, s3⟩ := h2 w p' rfl
      obtain ⟨r, h3, h4⟩ := hv p' s1 s2 q
      rcases r with x | _ | ⟨v, e⟩
      · exact ⟨_, .morePanic h1 h3, fun _ _ h => by cases h⟩
      · refine ⟨_, .moreMiss h1 h3, fun v e he => ?_⟩
        have := (Ends.stop (c := False) (Nat.le_refl p) hl (by simp)) v e he
        exact ⟨this.1, this.2.1⟩
      · obtain ⟨t1, t2, t3⟩ := h4 v e rfl
        rcases hg with hg | hg
        · have := t3 hg; omega
        · have := s3 hg; omega
  | succ m ih =>
    intro p vs hm hl hv hj
    have hs : ∃ r, Means E d q (.sep join) p r ∧ Ends E (∃ c, join = some c ∧ Consumes E.g nn c) p r := by
      cases join with
      | none => exact ⟨_, .sepNone, fun v e h => by cases h; exact ⟨Nat.le_refl _, hl, by simp⟩⟩
      | some j =>
        obtain ⟨r, h1, h2⟩ := hj j rfl p (Nat.le_refl _) hl q
        exact ⟨r, .sepSome h1, h2.imp fun ⟨c, hc, hcon⟩ => by cases hc; exact hcon⟩
    obtain ⟨r, h1, h2⟩ := hs
    rcases r with x | _ | ⟨w, p'⟩
    · exact ⟨_, .sepPanic h1, fun _ _ h => by cases h⟩
    · refine ⟨_, .sepMiss h1, fun v e he => ?_⟩
      have := (Ends.stop (c := False) (Nat.le_refl p) hl (by simp)) v e he
      exact ⟨this.1, this.2.1⟩
    · obtain ⟨s1, s2, s3⟩ := h2 w p' rfl
      obtain ⟨r, h3, h4⟩ := hv p' s1 s2 q
      rcases r with x | _ | ⟨v, e⟩
      · exact ⟨_, .morePanic h1 h3, fun _ _ h => by cases h⟩
      · refine ⟨_, .moreMiss h1 h3, fun v e he => ?_⟩
        have := (Ends.stop (c := False) (Nat.le_refl p) hl (by simp)) v e he
        exact ⟨this.1, this.2.1⟩
      · obtain ⟨t1, t2, t3⟩ := h4 v e rfl
        by_cases hmx : 0 ≤ mx ∧ mx ≤ (vs.length : Int) + 1
        · refine ⟨_, .moreFull h1 h3 hmx, fun v' e' he => ?_⟩
          have := (Ends.stop (c := False) (p := p) (p' := e) (by omega) t2 (by simp)) v' e' he
          exact ⟨this.1, this.2.1⟩
        · have hpe : p < e := by
            rcases hg with hg | hg
            · have := t3 hg; omega
            · have := s3 hg; omega
          obtain ⟨r, h5, h6⟩ := ih e (vs ++ [v]) (by omega) t2 (fun p2 hp2 => hv p2 (by omega))
            (fun j hj' p2 hp2 => hj j hj' p2 (by omega))
          exact ⟨r, .moreNext h1 h3 hmx h5, fun v' e' he => ⟨by have := (h6 v' e' he).1; omega, (h6 v' e' he).2⟩⟩

/-- One position: nodes whose first rules rank below `ρ`, given all nodes at later positions. -/
theorem node_total {E : PegEnv V} {nn : Nat → Prop} {R : Nat} {rk : Nat → Nat} (hst : E.st.Valid) (hb : E.g.Built)
    (hr : Ranked E.g nn R rk) (p : Nat) (hp : p ≤ E.st.len)
    (later : ∀ n, n.Below E.g.numRules → n.Guarded E.g nn → ∀ p2, p < p2 → p2 ≤ E.st.len →
      Total E nn ((E.st.len - p) * R) n p2) :
    ∀ ρ m n, sizeOf n < m → n.Below E.g.numRules → n.Guarded E.g nn → (∀ id, First E.g nn n id → rk id < ρ) →
      Total E nn ((E.st.len - p) * R + ρ) n p ∧ (n.isRule = false → TotalIn E nn ((E.st.len - p) * R + ρ) n p) := by
  intro ρ
  induction ρ using Nat.strongRecOn with
  | _ ρ ihρ =>
  have later' : ∀ n, n.Below E.g.numRules → n.Guarded E.g nn → ∀ p2, p < p2 → p2 ≤ E.st.len →
      Total E nn ((E.st.len - p) * R + ρ) n p2 := fun n h1 h2 p2 h3 h4 => (later n h1 h2 p2 h3 h4).mono (by omega)
  have hrule : ∀ id, rk id < ρ → Total E nn ((E.st.len - p) * R + ρ) (.rule id) p := by
    intro id hid q
    cases hbody : E.g.rules[id]? with
    | none => exact ⟨_, .noRule hbody, .error⟩
    | some body =>
      have hmem := List.mem_of_getElem? hbody
      have hnr : body.isRule = false := by
        cases hbd : body with
        | rule i => exact absurd hbd (hb.noAlias body hmem i)
        | _ => rfl
      -- the body without label and callback
      have hin : ∃ r, Means E ((E.st.len - p) * R + rk id) p (.inner body) p r ∧ Ends E (Consumes E.g nn body) p r := by
        exact (ihρ (rk id) hid (sizeOf body + 1) body (Nat.lt_succ_self _) (hb.rules body hmem)
          (hr.guarded body hmem) (fun id' hf => hr.desc id body id' hbody hf)).2 hnr p
      obtain ⟨r, h1, h2⟩ := hin
      refine ⟨_, Means.mono_node (d := (E.st.len - p) * R + rk id + 1) (by omega) (.rule hbody h1), ?_⟩
      refine h2.finish.imp fun hc => ?_
      cases hc with
      | rule h => exact hr.sound id body h hbody
  intro m
  induction m with
  | zero => intro n h; omega
  | succ m ihm =>
    intro n hsz hbel hgd hfirst
    cases n with
    | rule id => exact ⟨hrule id (hfirst id .rule), fun h => by cases h⟩
    | str i b =>
      apply TotalIn.both rfl
      intro q
      obtain ⟨t, e, h1, h2, h3, h4, h5⟩ := hst.string p b hp
      refine ⟨_, .str h1, ?_⟩
      intro v e' he
      cases t with
      | none => cases he
      | some t =>
        cases he
        refine ⟨h2, h3, fun hc => ?_⟩
        cases hc with
        | str hb' =>
          have := h5 rfl
          have : b.length ≠ 0 := fun h => hb' (List.eq_nil_of_length_eq_zero h)
          omega
    | regex i re =>
      apply TotalIn.both rfl
      intro q
      obtain ⟨t, e, h1, h2, h3, h4, h5⟩ := hst.regexp p re hp
      refine ⟨_, .regex h1, ?_⟩
      intro v e' he
      cases t with
      | none => cases he
      | some t =>
        cases he
        refine ⟨h2, h3, fun hc => ?_⟩
        cases hc with
        | regex hre =>
          obtain ⟨h6, bs, h7⟩ := h5 t rfl
          rcases t with _ | ⟨x, t⟩
          · exact absurd h7 (hre bs)
          · simp at h6; omega
    | ref i nm =>
      apply TotalIn.both rfl
      intro q
      cases hl : E.g.lookup nm with
      | none => exact ⟨_, .undefinedRef hl, .error⟩
      | some id =>
        obtain ⟨r, h1, h2⟩ := hrule id (hfirst id (.ref hl)) q
        refine ⟨r, .ref hl h1, h2.imp fun hc => ?_⟩
        cases hc with
        | ref h h' => rw [hl] at h; cases h; exact .rule h'
    | choice i l =>
      apply TotalIn.both rfl
      intro q
      cases hbel with | choice hbel =>
      cases hgd with | choice hgd =>
      obtain ⟨r, h1, h2⟩ := alts_total (E := E) (nn := nn) (p := p) l (fun c hc => ihm c (by
        have := List.sizeOf_lt_of_mem hc
        simp at hsz; omega) (hbel c hc) (hgd c hc) (fun id hf => hfirst id (.choice hc hf)) |>.1) q
      refine ⟨r, .choice h1, h2.imp fun hc => ?_⟩
      cases hc with
      | choice h => exact h
    | seq i repr l =>
      apply TotalIn.both rfl
      intro q
      cases hbel with | seq hbel =>
      cases hgd with | seq hgd =>
      obtain ⟨r, h1, h2⟩ := items_total (E := E) (nn := nn) (d := (E.st.len - p) * R + ρ) (p := p) (repr := repr) q l p
        .nothing (Nat.le_refl _) hp (fun c hc p2 h3 h4 => later' c (hbel c hc) (hgd c hc) p2 h3 h4) (by
          rintro - pre c post rfl hpre
          have hc : c ∈ pre ++ c :: post := by simp
          exact ihm c (by
            have := List.sizeOf_lt_of_mem hc
            simp at hsz this; omega) (hbel c hc) (hgd c hc) (fun id hf => hfirst id (.seq hpre hf)) |>.1)
      refine ⟨r, .seq h1, h2.imp fun hc => ?_⟩
      cases hc with
      | seq h h' => exact ⟨_, h, h'⟩
    | exist i it =>
      apply TotalIn.both rfl
      intro q
      cases hbel with | exist hbel =>
      cases hgd with | exist hgd =>
      obtain ⟨r, h1, h2⟩ := (ihm it (by simp at hsz; omega) hbel hgd (fun id hf => hfirst id (.exist hf))).1 q
      rcases r with x | _ | ⟨v, e⟩
      · exact ⟨_, .existPanic h1, .error⟩
      · exact ⟨_, .existMiss h1, fun v e he => by cases he; exact ⟨Nat.le_refl _, hp, fun hc => by cases hc⟩⟩
      · exact ⟨_, .existHit h1, h2.imp fun hc => by cases hc⟩
    | look i it =>
      apply TotalIn.both rfl
      intro q
      cases hbel with | look hbel =>
      cases hgd with | look hgd =>
      obtain ⟨r, h1, h2⟩ := (ihm it (by simp at hsz; omega) hbel hgd (fun id hf => hfirst id (.look hf))).1 q
      rcases r with x | _ | ⟨v, e⟩
      · exact ⟨_, .lookPanic h1, .error⟩
      · exact ⟨_, .lookMiss h1, .miss⟩
      · exact ⟨_, .lookHit h1, fun v e he => by cases he; exact ⟨Nat.le_refl _, hp, fun hc => by cases hc⟩⟩
    | not i it =>
      apply TotalIn.both rfl
      intro q
      cases hbel with | not hbel =>
      cases hgd with | not hgd =>
      obtain ⟨r, h1, h2⟩ := (ihm it (by simp at hsz; omega) hbel hgd (fun id hf => hfirst id (.not hf))).1 q
      rcases r with x | _ | ⟨v, e⟩
      · exact ⟨_, .notPanic h1, .error⟩
      · exact ⟨_, .notMiss h1, fun v e he => by cases he; exact ⟨Nat.le_refl _, hp, fun hc => by cases hc⟩⟩
      · exact ⟨_, .notHit h1, .miss⟩
    | pattern i value join mn mx =>
      apply TotalIn.both rfl
      intro q
      cases hbel with | pattern hbv hbj =>
      cases hgd with | pattern hcon hgv hgj =>
      have hv := (ihm value (by simp at hsz; omega) hbv hgv (fun id hf => hfirst id (.patValue hf))).1
      obtain ⟨r, h1, h2⟩ := hv q
      rcases r with x | _ | ⟨v, e⟩
      · exact ⟨_, .patPanic h1, .error⟩
      · refine ⟨_, .patMiss h1, ?_⟩
        intro v e he
        unfold Res.stop at he
        split at he
        · cases he
        · rename_i hn
          cases he
          refine ⟨Nat.le_refl _, hp, fun hc => ?_⟩
          cases hc with
          | pattern h _ => simp only [List.length_nil] at hn; omega
      · obtain ⟨t1, t2, t3⟩ := h2 v e rfl
        obtain ⟨r, h5, h6⟩ := more_total (E := E) (nn := nn) (d := (E.st.len - p) * R + ρ) (value := value) (join := join)
          (mn := mn) (mx := mx) q hcon (E.st.len - e) e [v] (Nat.le_refl _) t2
          (fun p2 hp2 hl2 => by
            rcases Nat.eq_or_lt_of_le (Nat.le_trans t1 hp2) with h | h
            · rw [← h]; exact hv
            · exact later' value hbv hgv p2 h hl2)
          (fun j hj p2 hp2 hl2 => by
            rcases Nat.eq_or_lt_of_le (Nat.le_trans t1 hp2) with h | h
            · have hnc : ¬ Consumes E.g nn value := fun hc => by have := t3 hc; omega
              rw [← h]
              subst hj
              exact (ihm j (by simp at hsz; omega) (hbj j rfl) (hgj j rfl) (fun id hf => hfirst id (.patJoin hnc hf))).1
            · exact later' j (hbj j hj) (hgj j hj) p2 h hl2)
        refine ⟨r, .patMore h1 h5, fun v' e' he => ?_⟩
        have h7 := h6 v' e' he
        refine ⟨by omega, h7.2, fun hc => ?_⟩
        cases hc with
        | pattern _ hcv => have := t3 hcv; omega

/-- All positions. -/
theorem total {E : PegEnv V} {nn : Nat → Prop} {R : Nat} {rk : Nat → Nat} (hst : E.st.Valid) (hb : E.g.Built)
    (hr : Ranked E.g nn R rk) : ∀ m p, E.st.len - p ≤ m → p ≤ E.st.len → ∀ n, n.Below E.g.numRules → n.Guarded E.g nn →
      Total E nn ((E.st.len - p) * R + R) n p := by
  intro m
  induction m with
  | zero =>
    intro p hm hp n h1 h2
    refine (node_total hst hb hr p hp (fun n h1 h2 p2 h3 h4 => by omega) R (sizeOf n + 1) n (Nat.lt_succ_self _) h1 h2 ?_).1
    exact fun id hf => hr.lt id (first_lt hb.lookup hf h1)
  | succ m ih =>
    intro p hm hp n h1 h2
    refine (node_total hst hb hr p hp (fun n h1 h2 p2 h3 h4 => ?_) R (sizeOf n + 1) n (Nat.lt_succ_self _) h1 h2 ?_).1
    · refine (ih p2 (by omega) h4 n h1 h2).mono ?_
      have : E.st.len - p = (E.st.len - p - 1) + 1 := by omega
      rw [this, Nat.add_mul, Nat.one_mul]
      exact Nat.add_le_add_right (Nat.mul_le_mul_right _ (by omega)) _
    · exact fun id hf => hr.lt id (first_lt hb.lookup hf h1)

end Joeson
