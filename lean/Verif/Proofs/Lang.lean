import Verif.Spec.Lang
import Verif.Spec.Means
import Verif.Props.RuneStream
import Verif.Proofs.Streams
/-!
# Parsers that match what a parsing expression does
-/

namespace Joeson.RuleText

mutual
/-- A parser that matches what the expression does. If `b`, it has no labels. -/
inductive Like (b : Bool) : Node → Pat → Prop
  | str {i t} : (b = true → i.label = "") → Like b (.str i t) (.lit t)
  | regex {i re} : (b = true → i.label = "") → Like b (.regex i re) (.re re)
  | ref {i nm} : (b = true → i.label = "") → Like b (.ref i nm) (.name nm)
  | choice {i l ps} : (b = true → i.label = "") → Likes b l ps → Like b (.choice i l) (.alt ps)
  | seq {i r l ps} : (b = true → i.label = "") → (b = true → r ≠ .object) → Likes b l ps → Like b (.seq i r l) (.seq ps)
  | exist {i n p} : (b = true → i.label = "") → Like b n p → Like b (.exist i n) (.opt p)
  | look {i n p} : (b = true → i.label = "") → Like b n p → Like b (.look i n) (.look p)
  | not {i n p} : (b = true → i.label = "") → Like b n p → Like b (.not i n) (.not p)
  | pattern {i v j mn mx p o mn' mx'} : (b = true → i.label = "") → Like b v p → LikeO b j o →
      (∀ k : Nat, mn > (k : Int) ↔ k < mn') → (∀ k : Nat, 2 ≤ k → (¬ (0 ≤ mx ∧ mx ≤ (k : Int)) ↔ Room mx' k)) →
      Like b (.pattern i v j mn mx) (.rep p o mn' mx')
/-- One by one. -/
inductive Likes (b : Bool) : List Node → List Pat → Prop
  | nil : Likes b [] []
  | cons {n p l ps} : Like b n p → Likes b l ps → Likes b (n :: l) (p :: ps)
/-- If there is one. -/
inductive LikeO (b : Bool) : Option Node → Option Pat → Prop
  | none : LikeO b none none
  | some {n p} : Like b n p → LikeO b (some n) (some p)
end

theorem Like.notRule {b : Bool} {n : Node} {p : Pat} (h : Like b n p) : n.isRule = false := by
  cases h <;> rfl

mutual
/-- Rule `id` is an implementation of a rule. `R` are the rules. -/
def Impl (b : Bool) (R : List Node) : Body → Nat → Prop
  | .text e, id => ∃ n, R[id]? = some n ∧ Like b n e.pat
  | .rank ls, id => ∃ i l, R[id]? = some (.choice i l) ∧ ImplAlts b R ls l
/-- The alternatives are the numbers of their implementations. -/
def ImplAlts (b : Bool) (R : List Node) : List GLine → List Node → Prop
  | [], l => l = []
  | .alt _ _ x :: ls, l => ∃ id l', l = .rule id :: l' ∧ Impl b R x id ∧ ImplAlts b R ls l'
  | .incl _ _ _ :: ls, l => ImplAlts b R ls l
end

/-- A panic while collecting labelled values in a map. -/
def LabelPanic {V : Type} (P : PureOps V) (e : Panic) : Prop :=
  (∃ x y, P.merge x y = .error e) ∨ ∃ x k y, P.mapSet x k y = .error e

/-- The outcome agrees. -/
def Agrees {V : Type} (P : PureOps V) (b : Bool) (text : Bytes) (r : Res V) (x : Option Bytes) : Prop :=
  match r with
  | .error e => b = false ∧ LabelPanic P e
  | .ok none => x = none
  | .ok (some (_, e)) => e ≤ text.length ∧ x = some (text.drop e)

section
variable {V : Type} {P : PureOps V} {b : Bool} {text : Bytes} {g : Grammar}

/-- Callbacks accept everything. -/
def TotalCb (P : PureOps V) : Prop := ∀ c v p, ∃ v', P.cb c v p = .ok (some v')

theorem Agrees.finish (ht : TotalCb P) {st : Stream} {i : Info} {q : Nat} {r : Res V} {x : Option Bytes} (h : Agrees P b text r x) :
    Agrees P b text (r.finish ⟨P, st, g⟩ i q) x := by
  match r with
  | .error e => exact h
  | .ok none => exact h
  | .ok (some (v, e)) =>
    simp only [Res.finish, PureOps.run]
    cases hcb : i.cb with
    | none => exact h
    | some c =>
      obtain ⟨v', hv⟩ := ht c (if i.ownLabel then P.newMap i.label v else v) e
      simp only [hv]
      exact h

/-- What is to be shown of a task. -/
def Does (P : PureOps V) (g : Grammar) (b : Bool) (text : Bytes) (d : Nat) (t : Task V) (p : Nat) (x : Option Bytes) : Prop :=
  ∀ q, ∃ r, Means ⟨P, Stream.ofText text, g⟩ d q t p r ∧ Agrees P b text r x

theorem Does.node (ht : TotalCb P) {d : Nat} {n : Node} {p : Nat} {x : Option Bytes} (hn : n.isRule = false)
    (h : Does P g b text d (.inner n) p x) : Does P g b text d (.node n) p x := by
  intro q
  obtain ⟨r, hm, ha⟩ := h q
  cases hw : n.wraps with
  | false => exact ⟨r, .plain hn hw hm, ha⟩
  | true => exact ⟨_, .wrapped hn hw hm, ha.finish ht⟩

/-- What is to be shown of a job at the position where `s` is left. -/
def JobDoes (P : PureOps V) (g : Grammar) (b : Bool) (text : Bytes) (d : Nat) (p : Nat) (x : Option Bytes) : Job → Prop
  | .pat e => ∀ n, Like b n e → Does P g b text d (.inner n) p x
  | .alts l => ∀ ns, Likes b ns l → Does P g b text d (.alts ns) p x
  | .seq l => ∀ ns, Likes b ns l → ∀ repr, (b = true → repr ≠ .object) → ∀ acc, Does P g b text d (.items repr ns acc) p x
  | .sep o => ∀ j, LikeO b j o → Does P g b text d (.sep j) p x
  | .more v o mn mx n => ∀ nv j mn' mx' vs, Like b nv v → LikeO b j o → (∀ k : Nat, mn' > (k : Int) ↔ k < mn) →
      (∀ k : Nat, 2 ≤ k → (¬ (0 ≤ mx' ∧ mx' ≤ (k : Int)) ↔ Room mx k)) → vs.length = n → 1 ≤ n → Room mx n →
      Does P g b text d (.more nv j mn' mx' vs) p x
  | .body y => ∀ id, Impl b g.rules y id → Does P g b text d (.node (.rule id)) p x
  | .lines ls => ∀ ns, ImplAlts b g.rules ls ns → Does P g b text d (.alts ns) p x

theorem str_hit {p : Nat} (hp : p ≤ text.length) {t s : Bytes} (h : text.drop p = t ++ s) :
    (Stream.ofText text).matchString p t = .ok (some t, p + t.length) := by
  have := (C03_matchString (runeAt text p) (runeAt_valid _ hp) t).1 _ h
  show (do let (r, c) ← (runeAt text p).matchString t; return (r, c.pos)) = _
  rw [this]; rfl

theorem str_miss {p : Nat} (hp : p ≤ text.length) {t : Bytes} (h : ∀ s, text.drop p ≠ t ++ s) :
    (Stream.ofText text).matchString p t = .ok (none, p) := by
  have := (C03_matchString (runeAt text p) (runeAt_valid _ hp) t).2 h
  show (do let (r, c) ← (runeAt text p).matchString t; return (r, c.pos)) = _
  rw [this]; rfl

theorem re_hit {p : Nat} (hp : p ≤ text.length) {re : Regex} {n : Nat} (h : re.find (text.drop p) = some (0, n)) :
    (Stream.ofText text).matchRegexp p re = .ok (some ((text.drop p).take n), p + n) ∧ p + n ≤ text.length := by
  have := (C05_matchRegexp (runeAt text p) (runeAt_valid _ hp) re).1 _ h
  refine ⟨?_, this.2⟩
  show (do let (r, c) ← (runeAt text p).matchRegexp re; return (r, c.pos)) = _
  rw [this.1]; rfl

theorem re_miss {p : Nat} (hp : p ≤ text.length) {re : Regex} (h : ∀ n, re.find (text.drop p) ≠ some (0, n)) :
    (Stream.ofText text).matchRegexp p re = .ok (none, p) := by
  have := (C05_matchRegexp (runeAt text p) (runeAt_valid _ hp) re).2 h
  show (do let (r, c) ← (runeAt text p).matchRegexp re; return (r, c.pos)) = _
  rw [this]; rfl

theorem stop_agrees {st : Stream} {mn : Int} {mn' : Nat} (hmn : ∀ k : Nat, mn > (k : Int) ↔ k < mn') {vs : List V} {p : Nat} (hp : p ≤ text.length) :
    Agrees P b text (Res.stop ⟨P, st, g⟩ mn vs p) (stop mn' vs.length (text.drop p)) := by
  unfold Res.stop stop
  by_cases h : mn > (vs.length : Int)
  · rw [if_pos h, if_pos ((hmn _).mp h)]; rfl
  · rw [if_neg h, if_neg (fun h' => h ((hmn _).mpr h'))]; exact ⟨hp, rfl⟩

/-- Putting a value can only panic for labels. -/
theorem seqPut_cases (P : PureOps V) {repr : SeqRepr} (i : Info) (acc : SeqVal V) (v : V) (hr : b = true → repr ≠ .object) :
    (∃ acc', seqPut P repr i acc v = .ok acc') ∨ ∃ e, seqPut P repr i acc v = .error e ∧ b = false ∧ LabelPanic P e := by
  cases repr with
  | single => exact .inl ⟨_, rfl⟩
  | array => exact .inl ⟨_, rfl⟩
  | object =>
    have hb : b = false := by
      cases hb : b with
      | false => rfl
      | true => exact absurd rfl (hr hb)
    unfold seqPut
    dsimp only
    split
    · exact .inl ⟨_, rfl⟩
    · split
      · exact .inl ⟨_, rfl⟩
      · split
        · rename_i r _ _
          cases h : P.merge v r with
          | ok x => exact .inl ⟨_, rfl⟩
          | error e => exact .inr ⟨e, rfl, hb, .inl ⟨_, _, h⟩⟩
        · split
          · rename_i r _ _ _
            cases h : P.merge r v with
            | ok x => exact .inl ⟨_, rfl⟩
            | error e => exact .inr ⟨e, rfl, hb, .inl ⟨_, _, h⟩⟩
          · rename_i r _ _ _
            cases h : P.mapSet r i.label v with
            | ok x => exact .inl ⟨_, rfl⟩
            | error e => exact .inr ⟨e, rfl, hb, .inr ⟨_, _, _, h⟩⟩

variable (ht : TotalCb P) {L : List GLine} (hL : ∀ nm y, (nm, y) ∈ declsOf L → ∃ id, g.lookup nm = some id ∧ Impl b g.rules y id)
include ht hL

/-- The engine's meaning agrees with the language. -/
theorem parses_does {d : Nat} {j : Job} {s : Bytes} {x : Option Bytes} (h : Parses L d j s x) :
    ∀ p, p ≤ text.length → text.drop p = s → JobDoes P g b text d p x j := by
  induction h with
  | @lit d t s =>
    intro p hp hs n hn
    cases hn
    refine fun q => ⟨_, .str (str_hit hp hs), ?_⟩
    have hlen : p + t.length ≤ text.length := by
      have := congrArg List.length hs
      simp only [List.length_drop, List.length_append] at this
      omega
    refine ⟨hlen, ?_⟩
    rw [← List.drop_drop, hs, List.drop_left]
  | litMiss h0 =>
    intro p hp hs n hn
    cases hn
    exact fun q => ⟨_, .str (str_miss hp (by rw [hs]; exact h0)), rfl⟩
  | @re d r n s h0 =>
    intro p hp hs n hn
    cases hn
    have := re_hit hp (by rw [hs]; exact h0)
    refine fun q => ⟨_, .regex this.1, this.2, ?_⟩
    rw [← List.drop_drop, hs]
  | reMiss h0 =>
    intro p hp hs n hn
    cases hn
    exact fun q => ⟨_, .regex (re_miss hp (by rw [hs]; exact h0)), rfl⟩
  | name hd _ ih =>
    intro p hp hs n hn
    cases hn
    obtain ⟨id, hlk, himp⟩ := hL _ _ hd
    refine fun q => ?_
    obtain ⟨r, hm, ha⟩ := ih p hp hs id himp q
    exact ⟨r, .ref hlk hm, ha⟩
  | alt _ ih =>
    intro p hp hs n hn
    cases hn with
    | choice _ hl =>
      refine fun q => ?_
      obtain ⟨r, hm, ha⟩ := ih p hp hs _ hl q
      exact ⟨r, .choice hm, ha⟩
  | altsEnd =>
    intro p hp hs ns hns
    cases hns
    exact fun q => ⟨_, .altsEnd, rfl⟩
  | altsHit _ ih =>
    intro p hp hs ns hns
    cases hns with
    | cons hn hl =>
      intro q
      obtain ⟨r, hm, ha⟩ := Does.node ht hn.notRule (ih p hp hs _ hn) q
      match r, hm, ha with
      | .error e, hm, ha => exact ⟨_, .altsPanic hm, ha⟩
      | .ok none, hm, ha => exact absurd ha (by simp [Agrees])
      | .ok (some y), hm, ha => exact ⟨_, .altsHit hm, ha⟩
  | altsMiss _ _ ih1 ih2 =>
    intro p hp hs ns hns
    cases hns with
    | cons hn hl =>
      intro q
      obtain ⟨r, hm, ha⟩ := Does.node ht hn.notRule (ih1 p hp hs _ hn) q
      match r, hm, ha with
      | .error e, hm, ha => exact ⟨_, .altsPanic hm, ha⟩
      | .ok (some (v, e)), hm, ha => exact absurd ha.2 (by simp)
      | .ok none, hm, ha =>
        obtain ⟨r', hm', ha'⟩ := ih2 p hp hs _ hl q
        exact ⟨_, .altsMiss hm hm', ha'⟩
  | seq _ ih =>
    intro p hp hs n hn
    cases hn with
    | seq _ hr hl =>
      refine fun q => ?_
      obtain ⟨r, hm, ha⟩ := ih p hp hs _ hl _ hr .nothing q
      exact ⟨r, .seq hm, ha⟩
  | seqEnd =>
    intro p hp hs ns hns
    cases hns
    exact fun repr hr acc q => ⟨_, .itemsEnd, hp, by rw [hs]⟩
  | seqMiss _ ih =>
    intro p hp hs ns hns
    cases hns with
    | cons hn hl =>
      intro repr hr acc q
      obtain ⟨r, hm, ha⟩ := Does.node ht hn.notRule (ih p hp hs _ hn) q
      match r, hm, ha with
      | .error e, hm, ha => exact ⟨_, .itemsPanic hm, ha⟩
      | .ok (some (v, e)), hm, ha => exact absurd ha.2 (by simp)
      | .ok none, hm, ha => exact ⟨_, .itemsMiss hm, ha⟩
  | seqNext _ _ ih1 ih2 =>
    intro p hp hs ns hns
    cases hns with
    | @cons c _ _ _ hn hl =>
      intro repr hr acc q
      obtain ⟨r, hm, ha⟩ := Does.node ht hn.notRule (ih1 p hp hs _ hn) q
      match r, hm, ha with
      | .error e, hm, ha => exact ⟨_, .itemsPanic hm, ha⟩
      | .ok none, hm, ha => exact absurd ha (by simp [Agrees])
      | .ok (some (v, e)), hm, ha =>
        rcases seqPut_cases P (g.info c) acc v hr with ⟨acc', h1⟩ | ⟨e', h1, h2⟩
        · obtain ⟨r', hm', ha'⟩ := ih2 e ha.1 (Option.some.inj ha.2).symm _ hl repr hr acc' q
          exact ⟨_, .itemsPut hm h1 hm', ha'⟩
        · exact ⟨_, .itemsPutPanic hm h1, h2⟩
  | opt _ ih =>
    intro p hp hs n hn
    cases hn with
    | exist _ hn =>
      refine fun q => ?_
      obtain ⟨r, hm, ha⟩ := Does.node ht hn.notRule (ih p hp hs _ hn) q
      match r, hm, ha with
      | .error e, hm, ha => exact ⟨_, .existPanic hm, ha⟩
      | .ok none, hm, ha => exact absurd ha (by simp [Agrees])
      | .ok (some y), hm, ha => exact ⟨_, .existHit hm, ha⟩
  | optMiss _ ih =>
    intro p hp hs n hn
    cases hn with
    | exist _ hn =>
      refine fun q => ?_
      obtain ⟨r, hm, ha⟩ := Does.node ht hn.notRule (ih p hp hs _ hn) q
      match r, hm, ha with
      | .error e, hm, ha => exact ⟨_, .existPanic hm, ha⟩
      | .ok (some (v, e)), hm, ha => exact absurd ha.2 (by simp)
      | .ok none, hm, ha => exact ⟨_, .existMiss hm, hp, by rw [hs]⟩
  | not _ ih =>
    intro p hp hs n hn
    cases hn with
    | not _ hn =>
      refine fun q => ?_
      obtain ⟨r, hm, ha⟩ := Does.node ht hn.notRule (ih p hp hs _ hn) q
      match r, hm, ha with
      | .error e, hm, ha => exact ⟨_, .notPanic hm, ha⟩
      | .ok none, hm, ha => exact absurd ha (by simp [Agrees])
      | .ok (some y), hm, ha => exact ⟨_, .notHit hm, rfl⟩
  | notMiss _ ih =>
    intro p hp hs n hn
    cases hn with
    | not _ hn =>
      refine fun q => ?_
      obtain ⟨r, hm, ha⟩ := Does.node ht hn.notRule (ih p hp hs _ hn) q
      match r, hm, ha with
      | .error e, hm, ha => exact ⟨_, .notPanic hm, ha⟩
      | .ok (some (v, e)), hm, ha => exact absurd ha.2 (by simp)
      | .ok none, hm, ha => exact ⟨_, .notMiss hm, hp, by rw [hs]⟩
  | look _ ih =>
    intro p hp hs n hn
    cases hn with
    | look _ hn =>
      refine fun q => ?_
      obtain ⟨r, hm, ha⟩ := Does.node ht hn.notRule (ih p hp hs _ hn) q
      match r, hm, ha with
      | .error e, hm, ha => exact ⟨_, .lookPanic hm, ha⟩
      | .ok none, hm, ha => exact absurd ha (by simp [Agrees])
      | .ok (some (v, e)), hm, ha => exact ⟨_, .lookHit hm, hp, by rw [hs]⟩
  | lookMiss _ ih =>
    intro p hp hs n hn
    cases hn with
    | look _ hn =>
      refine fun q => ?_
      obtain ⟨r, hm, ha⟩ := Does.node ht hn.notRule (ih p hp hs _ hn) q
      match r, hm, ha with
      | .error e, hm, ha => exact ⟨_, .lookPanic hm, ha⟩
      | .ok (some (v, e)), hm, ha => exact absurd ha.2 (by simp)
      | .ok none, hm, ha => exact ⟨_, .lookMiss hm, rfl⟩
  | rep0 _ ih =>
    intro p hp hs n hn
    cases hn with
    | pattern _ hv hj hmn hmx =>
      refine fun q => ?_
      obtain ⟨r, hm, ha⟩ := Does.node ht hv.notRule (ih p hp hs _ hv) q
      match r, hm, ha with
      | .error e, hm, ha => exact ⟨_, .patPanic hm, ha⟩
      | .ok (some (v, e)), hm, ha => exact absurd ha.2 (by simp)
      | .ok none, hm, ha =>
        refine ⟨_, .patMiss hm, ?_⟩
        rw [← hs]
        exact stop_agrees (vs := []) hmn hp
  | rep _ _ ih1 ih2 =>
    intro p hp hs n hn
    cases hn with
    | pattern _ hv hj hmn hmx =>
      refine fun q => ?_
      obtain ⟨r, hm, ha⟩ := Does.node ht hv.notRule (ih1 p hp hs _ hv) q
      match r, hm, ha with
      | .error e, hm, ha => exact ⟨_, .patPanic hm, ha⟩
      | .ok none, hm, ha => exact absurd ha (by simp [Agrees])
      | .ok (some (v, e)), hm, ha =>
        obtain ⟨r', hm', ha'⟩ := ih2 e ha.1 (Option.some.inj ha.2).symm _ _ _ _ [v] hv hj hmn hmx rfl (Nat.le_refl 1)
          (fun m hm => by omega) q
        exact ⟨_, .patMore hm hm', ha'⟩
  | sepNone =>
    intro p hp hs j hj
    cases hj
    exact fun q => ⟨_, .sepNone, hp, by rw [hs]⟩
  | sepSome _ ih =>
    intro p hp hs j hj
    cases hj with
    | some hn =>
      intro q
      obtain ⟨r, hm, ha⟩ := Does.node ht hn.notRule (ih p hp hs _ hn) q
      exact ⟨_, .sepSome hm, ha⟩
  | full h0 =>
    intro p hp hs nv j mn' mx' vs hv hj hmn hmx hlen hn hroom
    exact absurd hroom h0
  | noSep _ _ ih =>
    intro p hp hs nv j mn' mx' vs hv hj hmn hmx hlen hn hroom q
    obtain ⟨r, hm, ha⟩ := ih p hp hs _ hj q
    match r, hm, ha with
    | .error e, hm, ha => exact ⟨_, .sepPanic hm, ha⟩
    | .ok (some (v, e)), hm, ha => exact absurd ha.2 (by simp)
    | .ok none, hm, ha =>
      refine ⟨_, .sepMiss hm, ?_⟩
      rw [← hs, ← hlen]
      exact stop_agrees hmn hp
  | noMore _ _ _ ih1 ih2 =>
    intro p hp hs nv j mn' mx' vs hv hj hmn hmx hlen hn hroom q
    obtain ⟨r, hm, ha⟩ := ih1 p hp hs _ hj q
    match r, hm, ha with
    | .error e, hm, ha => exact ⟨_, .sepPanic hm, ha⟩
    | .ok none, hm, ha => exact absurd ha (by simp [Agrees])
    | .ok (some (w, e)), hm, ha =>
      obtain ⟨r', hm', ha'⟩ := Does.node ht hv.notRule (ih2 e ha.1 (Option.some.inj ha.2).symm _ hv) q
      match r', hm', ha' with
      | .error e, hm', ha' => exact ⟨_, .morePanic hm hm', ha'⟩
      | .ok (some (v, e)), hm', ha' => exact absurd ha'.2 (by simp)
      | .ok none, hm', ha' =>
        refine ⟨_, .moreMiss hm hm', ?_⟩
        rw [← hs, ← hlen]
        exact stop_agrees hmn hp
  | @more d v sep mn mx n s s' s'' x' _ _ _ hrest ih1 ih2 ih3 =>
    intro p hp hs nv j mn' mx' vs hv hj hmn hmx hlen hn hroom q
    obtain ⟨r, hm, ha⟩ := ih1 p hp hs _ hj q
    match r, hm, ha with
    | .error e, hm, ha => exact ⟨_, .sepPanic hm, ha⟩
    | .ok none, hm, ha => exact absurd ha (by simp [Agrees])
    | .ok (some (w, e)), hm, ha =>
      obtain ⟨r', hm', ha'⟩ := Does.node ht hv.notRule (ih2 e ha.1 (Option.some.inj ha.2).symm _ hv) q
      match r', hm', ha' with
      | .error e, hm', ha' => exact ⟨_, .morePanic hm hm', ha'⟩
      | .ok none, hm', ha' => exact absurd ha' (by simp [Agrees])
      | .ok (some (w', e')), hm', ha' =>
        have hs'' : text.drop e' = s'' := (Option.some.inj ha'.2).symm
        have hl1 : (vs ++ [w']).length = n + 1 := by simp [hlen]
        by_cases hfull : 0 ≤ mx' ∧ mx' ≤ (vs.length : Int) + 1
        · refine ⟨_, .moreFull hm hm' hfull, ?_⟩
          have hnr : ¬ Room mx (n + 1) := fun h => (hmx (n + 1) (by omega)).mpr h (by rw [← hlen]; exact_mod_cast hfull)
          have hst : x' = stop mn (n + 1) s'' := by
            cases hrest with
            | full => rfl
            | noSep h _ => exact absurd h hnr
            | noMore h _ _ => exact absurd h hnr
            | more h _ _ _ => exact absurd h hnr
          rw [hst, ← hs'', ← hl1]
          exact stop_agrees hmn ha'.1
        · have hr : Room mx (n + 1) := (hmx (n + 1) (by omega)).mp (by rw [← hlen]; exact_mod_cast hfull)
          obtain ⟨r3, hm3, ha3⟩ := ih3 e' ha'.1 hs'' nv j mn' mx' (vs ++ [w']) hv hj hmn hmx hl1 (by omega) hr q
          exact ⟨_, .moreNext hm hm' hfull hm3, ha3⟩
  | text _ ih =>
    intro p hp hs id himp q
    unfold Impl at himp
    obtain ⟨n, hr, hn⟩ := himp
    obtain ⟨r, hm, ha⟩ := ih p hp hs n hn p
    exact ⟨_, .rule hr hm, ha.finish ht⟩
  | rank _ ih =>
    intro p hp hs id himp q
    unfold Impl at himp
    obtain ⟨i, l, hr, hl⟩ := himp
    obtain ⟨r, hm, ha⟩ := ih p hp hs l hl p
    exact ⟨_, .rule hr (.choice hm), ha.finish ht⟩
  | linesEnd =>
    intro p hp hs ns hns
    simp only [ImplAlts] at hns
    subst hns
    exact fun q => ⟨_, .altsEnd, rfl⟩
  | incl _ ih =>
    intro p hp hs ns hns
    simp only [ImplAlts] at hns
    exact ih p hp hs ns hns
  | altHit _ ih =>
    intro p hp hs ns hns
    simp only [ImplAlts] at hns
    obtain ⟨id, l', rfl, h1, h2⟩ := hns
    intro q
    obtain ⟨r, hm, ha⟩ := ih p hp hs id h1 q
    match r, hm, ha with
    | .error e, hm, ha => exact ⟨_, .altsPanic hm, ha⟩
    | .ok none, hm, ha => exact absurd ha (by simp [Agrees])
    | .ok (some y), hm, ha => exact ⟨_, .altsHit hm, ha⟩
  | altMiss _ _ ih1 ih2 =>
    intro p hp hs ns hns
    simp only [ImplAlts] at hns
    obtain ⟨id, l', rfl, h1, h2⟩ := hns
    intro q
    obtain ⟨r, hm, ha⟩ := ih1 p hp hs id h1 q
    match r, hm, ha with
    | .error e, hm, ha => exact ⟨_, .altsPanic hm, ha⟩
    | .ok (some (v, e)), hm, ha => exact absurd ha.2 (by simp)
    | .ok none, hm, ha =>
      obtain ⟨r', hm', ha'⟩ := ih2 p hp hs _ h2 q
      exact ⟨_, .altsMiss hm hm', ha'⟩

end
end Joeson.RuleText
