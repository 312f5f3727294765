import Mathlib.Tactic.Choose
import Verif.Proofs.Values3
import Verif.Proofs.LeftMeans
import Verif.Proofs.Forest2
/-!
# The meaning of a grammar made from lines has the values of its texts, with left recursion
-/

set_option linter.unusedVariables false
set_option linter.unusedSectionVars false

namespace Joeson.RuleText

section
variable {V : Type} {P : PureOps V} {text : Bytes} {g : Grammar} {M : List String}

/-- With the position where the match ends in place of the rest. -/
def toPos (N : Nat) : Option (V × Bytes) → Option (V × Nat)
  | none => none
  | some (v, s) => some (v, N - s.length)

theorem toRes_ok (N : Nat) (x : Option (V × Bytes)) : toRes N (.ok x) = .ok (toPos N x) := by
  match x with
  | none => rfl
  | some (v, s) => rfl

theorem ahead_iff {x y : Option (V × Bytes)} (hx : Inside text (.ok x)) (hy : Inside text (.ok y)) :
    Ahead (toPos text.length x) (toPos text.length y) ↔ Exceeds x y := by
  match x, y with
  | none, none => exact Iff.rfl
  | some (v, s), none => exact Iff.rfl
  | none, some (v, s) => exact Iff.rfl
  | some (v, s), some (v', s') =>
    have h1 := (hx v s rfl).length_le
    have h2 := (hy v' s' rfl).length_le
    simp only [toPos, Ahead, Exceeds]
    omega

/-- The context: where the rule began, and its seed, are inside the text. -/
def AroundIn (text : Bytes) : Around V → Prop
  | none => True
  | some (_, s, x) => s <:+ text ∧ Inside text (.ok x)

/-- The context of the engine is that of the text. -/
def CtxFits (M : List String) (g : Grammar) (text : Bytes) (c : Around V) (a : Ctx V) (q : Nat) : Prop :=
  match c with
  | none => a = none ∨ ∃ id y, a = some (id, y) ∧ ∀ nm ∈ M, g.lookup nm ≠ some id
  | some (nm, s, x) => ∃ id n, a = some (id, .known (toPos text.length x)) ∧ g.lookup nm = some id ∧ g.rules[id]? = some n ∧
      n.info.name = nm ∧ q = text.length - s.length ∧ nm ∈ M

theorem fresh_seed {a : Ctx V} {q id p : Nat} (h : ∀ id' x, a = some (id', x) → id' ≠ id) : lrSeed a q id p = none := by
  match a, h with
  | none, _ => rfl
  | some (id', x), h =>
    simp only [lrSeed]
    rw [if_neg fun h' => h id' x rfl h'.1]

/-- A rule that is called is not hidden. -/
theorem called_shown {nm : String} {id : Nat} (h : nm ∈ M) (hl : g.lookup nm = some id) : hidden M g id = false :=
  Bool.eq_false_iff.mpr fun hh => (hidden_iff.mp hh).2 nm h hl

theorem implV_get {cb : Option Nat} {y : Body} {id : Nat} {R : List Node} {S : Stage} (h : ImplV S R cb y id) : ∃ n, R[id]? = some n := by
  cases y with
  | text e =>
    unfold ImplV at h
    obtain ⟨n, hn, _⟩ := h
    exact ⟨n, hn⟩
  | rank ls =>
    unfold ImplV at h
    obtain ⟨i, l, hn, _⟩ := h
    exact ⟨_, hn⟩

mutual
theorem lineRules_trans : ∀ (l : GLine) {nm : String} {cb : Option Nat} {b : Body}, (nm, cb, b) ∈ l.rules → ∀ d ∈ b.rules, d ∈ l.rules
  | .alt nm' cb' y, nm, cb, b, h, d, hd => by
    simp only [GLine.rules, List.mem_append] at h ⊢
    rcases h with h | h
    · split at h
      · cases h
      · cases List.mem_singleton.mp h
        exact .inr hd
    · exact .inr (bodyRules_trans y h d hd)
  | .incl nm' cb' y, nm, cb, b, h, d, hd => by
    simp only [GLine.rules, List.mem_cons] at h ⊢
    rcases h with h | h
    · cases h
      exact .inr hd
    · exact .inr (bodyRules_trans y h d hd)
theorem bodyRules_trans : ∀ (y : Body) {nm : String} {cb : Option Nat} {b : Body}, (nm, cb, b) ∈ y.rules → ∀ d ∈ b.rules, d ∈ y.rules
  | .text _, nm, cb, b, h, d, hd => by simp only [Body.rules] at h; cases h
  | .rank ls, nm, cb, b, h, d, hd => by
    simp only [Body.rules] at h ⊢
    exact rulesOf_trans ls h d hd
theorem rulesOf_trans : ∀ (ls : List GLine) {nm : String} {cb : Option Nat} {b : Body}, (nm, cb, b) ∈ rulesOf ls → ∀ d ∈ b.rules, d ∈ rulesOf ls
  | [], nm, cb, b, h, d, hd => by simp only [rulesOf] at h; cases h
  | l :: ls, nm, cb, b, h, d, hd => by
    simp only [rulesOf, List.mem_append] at h ⊢
    rcases h with h | h
    · exact .inl (lineRules_trans l h d hd)
    · exact .inr (rulesOf_trans ls h d hd)
end

theorem rules_trans {L : List GLine} {nm : String} {cb : Option Nat} {b : Body} (h : (nm, cb, b) ∈ rulesOf L) {d : String × Option Nat × Body}
    (hd : d ∈ b.rules) : d ∈ rulesOf L := rulesOf_trans L h d hd

variable (ho : ∀ v o, P.origin v o = v)
include ho

theorem node_of_innerL {d : Nat} {h : Bool} {p : VP} {n : Node} (hf : Fit stage3 h none p n) {r : VRes V} {pos : Nat}
    {a : Ctx V} {q : Nat} (hm : MeansL (hidden M g) ⟨P, Stream.ofText text, g⟩ d a q (.inner n) pos (toRes text.length r)) :
    MeansL (hidden M g) ⟨P, Stream.ofText text, g⟩ d a q (.node n) pos (toRes text.length (own P h p r)) := by
  have hfin := finish_eq (g := g) (st := Stream.ofText text) (q := q) (N := text.length) ho hf.info.1 hf.info.2 r
  have hcalled : called P text.length none (own P h p r) = own P h p r := by
    match r with
    | .error e => rfl
    | .ok none => rfl
    | .ok (some (v, s)) => rfl
  rw [hcalled] at hfin
  cases hw : n.wraps with
  | true =>
    rw [← hfin]
    exact .wrapped hf.notRule hw hm
  | false =>
    have hown : own P h p r = r := by
      have h1 : n.info.ownLabel = false := by
        simp only [Node.wraps, Bool.or_eq_false_iff] at hw
        exact hw.1
      rw [own_eq hf.info.1] at h1
      match r with
      | .error e => rfl
      | .ok none => rfl
      | .ok (some (v, s)) => simp only [own, h1]; rfl
    rw [hown]
    exact .plain hf.notRule hw hm

/-- What is to be shown of a job at the position where `s` is left. -/
def JobYieldsL (M : List String) (P : PureOps V) (g : Grammar) (text : Bytes) (c : Around V) (d : Nat) (s : Bytes) (r : VRes V) : LJob V → Prop
  | .part h p => ∃ r0, r = own P h p r0 ∧ Inside text r0 ∧ ∀ n cb, Fit stage3 h cb p n → ∀ a q, CtxFits M g text c a q →
      MeansL (hidden M g) ⟨P, Stream.ofText text, g⟩ d a q (.inner n) (text.length - s.length) (toRes text.length r0)
  | .core h p => ∀ n cb, Fit stage3 h cb p n → ∀ a q, CtxFits M g text c a q →
      MeansL (hidden M g) ⟨P, Stream.ofText text, g⟩ d a q (.inner n) (text.length - s.length) (toRes text.length r)
  | .alts l => ∀ ns, Fits stage3 false l ns → ∀ a q, CtxFits M g text c a q →
      MeansL (hidden M g) ⟨P, Stream.ofText text, g⟩ d a q (.alts ns) (text.length - s.length) (toRes text.length r)
  | .items f l acc => ∀ ns, Fits stage3 true l ns → ∀ sv, AccOf P f acc sv → ∀ a q, CtxFits M g text c a q →
      MeansL (hidden M g) ⟨P, Stream.ofText text, g⟩ d a q (.items f.repr ns sv) (text.length - s.length) (toRes text.length r)
  | .sep o => ∀ j, FitO stage3 o j → ∀ a q, CtxFits M g text c a q →
      MeansL (hidden M g) ⟨P, Stream.ofText text, g⟩ d a q (.sep j) (text.length - s.length) (toRes text.length r)
  | .more v o mn mx vs => ∀ nv j mn' mx', Fit stage3 false none v nv → FitO stage3 o j → (∀ k : Nat, mn' > (k : Int) ↔ k < mn) →
      (∀ k : Nat, 2 ≤ k → (¬ (0 ≤ mx' ∧ mx' ≤ (k : Int)) ↔ Room mx k)) → 1 ≤ vs.length → Room mx vs.length → ∀ a q, CtxFits M g text c a q →
      MeansL (hidden M g) ⟨P, Stream.ofText text, g⟩ d a q (.more nv j mn' mx' vs) (text.length - s.length) (toRes text.length r)
  | .rule nm cb y => (∀ d ∈ y.rules, Auto d.1 = false) → (nm ≠ "" → Auto nm = false) → ∀ id n, g.rules[id]? = some n → NameIs nm n.info.name →
      ImplV stage3 g.rules cb y id → ∀ a q, lrSeed a q id (text.length - s.length) = none →
      (nm = "" ∨ nm ∉ M → (c = none ∧ ¬ HasParent g.rules id) ∨
        (q = text.length - s.length ∧ HasParent g.rules id ∧ CtxFits M g text c a q ∧ ∀ id' x, a = some (id', x) → id ≤ id')) →
      MeansL (hidden M g) ⟨P, Stream.ofText text, g⟩ d a q (.node (.rule id)) (text.length - s.length) (toRes text.length r)
  | .body cb y => (∀ d ∈ y.rules, Auto d.1 = false) → ∃ d', d = d' + 1 ∧ ∀ id n, g.rules[id]? = some n → ImplV stage3 g.rules cb y id →
      ∀ a, CtxFits M g text c a (text.length - s.length) → (∀ id' x, a = some (id', x) → id ≤ id') →
      ∃ r0, Res.finish ⟨P, Stream.ofText text, g⟩ n.info (text.length - s.length) r0 = toRes text.length r ∧
        MeansL (hidden M g) ⟨P, Stream.ofText text, g⟩ d' a (text.length - s.length) (.inner n) (text.length - s.length) r0
  | .lines ls => (∀ d ∈ rulesOf ls, Auto d.1 = false) → ∀ ns, ImplVA stage3 g.rules ls ns → ∀ a q, CtxFits M g text c a q →
      (∀ id x, a = some (id, x) → ∀ id', .rule id' ∈ ns → id' < id) →
      (c = none ∧ ∀ id, .rule id ∈ ns → ¬ HasParent g.rules id) ∨ (q = text.length - s.length ∧ ∀ id, .rule id ∈ ns → HasParent g.rules id) →
      MeansL (hidden M g) ⟨P, Stream.ofText text, g⟩ d a q (.alts ns) (text.length - s.length) (toRes text.length r)

theorem part_nodeL {c : Around V} {d : Nat} {s : Bytes} {h : Bool} {p : VP} {r : VRes V} (hj : JobYieldsL M P g text c d s r (.part h p)) {n : Node} (hf : Fit stage3 h none p n)
    {a : Ctx V} {q : Nat} (hq : CtxFits M g text c a q) : MeansL (hidden M g) ⟨P, Stream.ofText text, g⟩ d a q (.node n) (text.length - s.length) (toRes text.length r) := by
  obtain ⟨r0, rfl, _, hm⟩ := hj
  exact node_of_innerL ho hf (hm n none hf a q hq)

variable {L : List GLine} (hL : ∀ nm cb y, (nm, cb, y) ∈ rulesOf L → ∃ id, g.lookup nm = some id ∧ ImplV stage3 g.rules cb y id)
  (hN : ∀ nm, Auto nm = false → ∀ id n, g.rules[id]? = some n → (g.lookup nm = some id ↔ n.info.name = nm))
  (hA : ∀ d ∈ rulesOf L, Auto d.1 = false) (hE : ∀ d ∈ rulesOf L, d.1 ≠ "") (hU : ∀ n ∈ g.rules, n.info.Usual)
  (hM : ∀ nm ∈ mentionsIn L, Auto nm = false) {C : Expr → Prop} (hF : Forest stage3 C g.rules)
include hL hN hA hE hU hM hF

/-- The engine's meaning has the values of the expressions. -/
theorem yieldsL_does {c : Around V} {d : Nat} {j : LJob V} {s : Bytes} {r : VRes V} (h : YieldsL P text.length L c d j s r) :
    AroundIn text c → s <:+ text → Inside text r ∧ JobYieldsL (mentionsIn L) P g text c d s r j := by
  induction h with
  | part _ ih =>
    intro hc hs
    obtain ⟨h1, h2⟩ := ih hc hs
    exact ⟨own_inside h1, _, rfl, h1, h2⟩
  | @lit c d h lab b s =>
    intro hc hs
    have hs' : s <:+ text := (List.suffix_append b s).trans hs
    refine ⟨inside_some hs', ?_⟩
    intro n cb hn a q hq
    cases hn
    have h1 := str_hit (text := text) (p := text.length - (b ++ s).length) (Nat.sub_le _ _) (drop_pos hs)
    have hle := hs.length_le
    have h2 : text.length - (b ++ s).length + b.length = text.length - s.length := by
      simp only [List.length_append] at hle ⊢; omega
    rw [h2] at h1
    exact MeansL.str (pv := hidden (mentionsIn L) g) (E := ⟨P, Stream.ofText text, g⟩) h1
  | litMiss h0 =>
    intro hc hs
    refine ⟨inside_none, ?_⟩
    intro n cb hn a q hq
    cases hn
    exact MeansL.str (pv := hidden (mentionsIn L) g) (E := ⟨P, Stream.ofText text, g⟩) (str_miss (Nat.sub_le _ _) (by rw [drop_pos hs]; exact h0))
  | @re c d h lab r n s h0 =>
    intro hc hs
    refine ⟨inside_some ((List.drop_suffix _ _).trans hs), ?_⟩
    intro n' cb hn a q hq
    cases hn
    have h1 := re_hit (text := text) (p := text.length - s.length) (Nat.sub_le _ _) (by rw [drop_pos hs]; exact h0)
    have hle := hs.length_le
    have h2 : text.length - s.length + n = text.length - (s.drop n).length := by
      have := h1.2
      simp only [List.length_drop]
      omega
    rw [h2, drop_pos hs] at h1
    exact MeansL.regex (pv := hidden (mentionsIn L) g) (E := ⟨P, Stream.ofText text, g⟩) h1.1
  | reMiss h0 =>
    intro hc hs
    refine ⟨inside_none, ?_⟩
    intro n cb hn a q hq
    cases hn
    exact MeansL.regex (pv := hidden (mentionsIn L) g) (E := ⟨P, Stream.ofText text, g⟩) (re_miss (Nat.sub_le _ _) (by rw [drop_pos hs]; exact h0))
  | again hc0 =>
    intro hc hs
    subst hc0
    obtain ⟨_, hin⟩ := hc
    refine ⟨hin, ?_⟩
    intro n cb hn a q hq
    cases hn
    obtain ⟨id, n, rfl, hlk, hr, hnm, rfl, hmem⟩ := hq
    rw [toRes_ok]
    exact .ref hlk (.seed hr (called_shown hmem hlk) (by simp only [lrSeed, and_self, if_true]))
  | @name c d h lab nm q0 cb0 b s r hne hmem hd _ ih =>
    intro hc hs
    obtain ⟨h1, h2⟩ := ih hc hs
    refine ⟨h1, ?_⟩
    intro n cb hn a q hq
    cases hn
    obtain ⟨id, hlk, himp⟩ := hL _ _ _ hd
    obtain ⟨n, hn⟩ := implV_get himp
    have hauto := hA _ hd
    have hname := (hN nm hauto id n hn).mp hlk
    have hne0 : nm ≠ "" := hE _ hd
    refine .ref hlk (h2 (fun d' hd' => hA d' (rules_trans hd hd')) (fun _ => hauto) id n hn ?_ himp a q ?_ ?_)
    · rw [NameIs, if_neg hne0]; exact hname
    · match c, hc, hq, hne with
      | none, _, hq, _ =>
        rcases hq with rfl | ⟨id', y, rfl, hno⟩
        · rfl
        · simp only [lrSeed]
          rw [if_neg]
          rintro ⟨rfl, _⟩
          exact hno nm hmem hlk
      | some (nm', s', x), hc, hq, hne =>
        obtain ⟨id', n', rfl, _, hr', hnm', rfl, _⟩ := hq
        simp only [lrSeed]
        rw [if_neg]
        rintro ⟨rfl, hpos⟩
        rw [hn] at hr'
        cases hr'
        have hs' : s' = s := by
          have h1 := drop_pos hs
          have h2 := drop_pos hc.1
          rw [hpos] at h2
          rw [← h2, h1]
        exact hne x (by rw [hs', ← hnm', hname])
    · rintro (h | h)
      · exact absurd h hne0
      · exact absurd hmem h
  | alt _ ih =>
    intro hc hs
    obtain ⟨h1, h2⟩ := ih hc hs
    refine ⟨h1, ?_⟩
    intro n cb hn a q hq
    cases hn with
    | choice _ _ hl => exact .choice (h2 _ hl a q hq)
  | altsEnd =>
    intro hc hs
    refine ⟨inside_none, ?_⟩
    intro ns hns a q hq
    cases hns
    exact .altsEnd
  | @altsDone c d p l s r _ hne ih =>
    intro hc hs
    obtain ⟨h1, h2⟩ := ih hc hs
    refine ⟨h1, ?_⟩
    intro ns hns a q hq
    cases hns with
    | cons hn hl =>
      have hm := part_nodeL ho h2 hn hq
      match r, hne, hm with
      | .error e, _, hm => exact .altsPanic hm
      | .ok none, hne, hm => exact absurd rfl hne
      | .ok (some (v, s')), _, hm => exact .altsHit hm
  | altsMiss _ _ ih1 ih2 =>
    intro hc hs
    obtain ⟨_, h2⟩ := ih1 hc hs
    obtain ⟨h3, h4⟩ := ih2 hc hs
    refine ⟨h3, ?_⟩
    intro ns hns a q hq
    cases hns with
    | cons hn hl => exact .altsMiss (part_nodeL ho h2 hn hq) (h4 _ hl a q hq)
  | @seq c d h lab ps s r _ ih =>
    intro hc hs
    obtain ⟨h1, h2⟩ := ih hc hs
    refine ⟨h1, ?_⟩
    intro n cb hn a q hq
    cases hn with
    | @seq _ _ _ _ i rp l hi hc hr hl =>
      have hr' : rp = (formOf ps).repr := hr
      subst hr'
      refine .seq (h2 _ hl .nothing ?_ a q hq)
      cases formOf ps with
      | single => rfl
      | array => rfl
      | object => exact ⟨none, rfl, rfl⟩
  | itemsEnd hg =>
    intro hc hs
    refine ⟨inside_some hs, ?_⟩
    intro ns hns sv hsv a q hq
    cases hns
    have h1 := acc_value hsv hg
    simp only [toRes, ← h1]
    exact .itemsEnd
  | itemsMiss _ ih =>
    intro hc hs
    refine ⟨inside_none, ?_⟩
    intro ns hns sv hsv a q hq
    cases hns with
    | cons hn hl => exact .itemsMiss (part_nodeL ho (ih hc hs).2 hn hq)
  | itemsPanic _ ih =>
    intro hc hs
    refine ⟨inside_error, ?_⟩
    intro ns hns sv hsv a q hq
    cases hns with
    | cons hn hl => exact .itemsPanic (part_nodeL ho (ih hc hs).2 hn hq)
  | @itemsPut c d f p l acc s v s' w r _ hg _ ih1 ih2 =>
    intro hc hs
    obtain ⟨h1, h2⟩ := ih1 hc hs
    obtain ⟨h3, h4⟩ := ih2 hc (h1 _ _ rfl)
    refine ⟨h3, ?_⟩
    intro ns hns sv hsv a q hq
    cases hns with
    | @cons _ _ _ n l hn hl =>
      have hput := acc_put hsv hn.info.1 v
      rw [hg] at hput
      obtain ⟨sv', e1, e2⟩ := hput
      have hinfo : g.info n = n.info := by
        cases hn <;> rfl
      exact .itemsPut (part_nodeL ho h2 hn hq) (by rw [← hinfo] at e1; exact e1) (h4 _ hl sv' e2 a q hq)
  | @itemsBad c d f p l acc s v s' e _ hg ih =>
    intro hc hs
    refine ⟨inside_error, ?_⟩
    intro ns hns sv hsv a q hq
    cases hns with
    | @cons _ _ _ n l hn hl =>
      have hput := acc_put hsv hn.info.1 v
      rw [hg] at hput
      have hinfo : g.info n = n.info := by
        cases hn <;> rfl
      exact .itemsPutPanic (part_nodeL ho (ih hc hs).2 hn hq) (by rw [← hinfo] at hput; exact hput)
  | @optDone c d h lab p s r _ hne ih =>
    intro hc hs
    obtain ⟨h1, h2⟩ := ih hc hs
    refine ⟨h1, ?_⟩
    intro n cb hn a q hq
    cases hn with
    | exist _ _ hn =>
      have hm := part_nodeL ho h2 hn hq
      match r, hne, hm with
      | .error e, _, hm => exact .existPanic hm
      | .ok none, hne, hm => exact absurd rfl hne
      | .ok (some (v, s')), _, hm => exact .existHit hm
  | optMiss _ ih =>
    intro hc hs
    refine ⟨inside_some hs, ?_⟩
    intro n cb hn a q hq
    cases hn with
    | exist _ _ hn => exact .existMiss (part_nodeL ho (ih hc hs).2 hn hq)
  | @notHit c d h lab p s x _ ih =>
    intro hc hs
    refine ⟨inside_none, ?_⟩
    intro n cb hn a q hq
    cases hn with
    | not _ _ hn => exact .notHit (part_nodeL ho (ih hc hs).2 hn hq)
  | notMiss _ ih =>
    intro hc hs
    refine ⟨inside_some hs, ?_⟩
    intro n cb hn a q hq
    cases hn with
    | not _ _ hn => exact .notMiss (part_nodeL ho (ih hc hs).2 hn hq)
  | notPanic _ ih =>
    intro hc hs
    refine ⟨inside_error, ?_⟩
    intro n cb hn a q hq
    cases hn with
    | not _ _ hn => exact .notPanic (part_nodeL ho (ih hc hs).2 hn hq)
  | lookHit _ ih =>
    intro hc hs
    refine ⟨inside_some hs, ?_⟩
    intro n cb hn a q hq
    cases hn with
    | look _ _ hn => exact .lookHit (part_nodeL ho (ih hc hs).2 hn hq)
  | lookMiss _ ih =>
    intro hc hs
    refine ⟨inside_none, ?_⟩
    intro n cb hn a q hq
    cases hn with
    | look _ _ hn => exact .lookMiss (part_nodeL ho (ih hc hs).2 hn hq)
  | lookPanic _ ih =>
    intro hc hs
    refine ⟨inside_error, ?_⟩
    intro n cb hn a q hq
    cases hn with
    | look _ _ hn => exact .lookPanic (part_nodeL ho (ih hc hs).2 hn hq)
  | repMiss _ ih =>
    intro hc hs
    refine ⟨vstop_inside hs, ?_⟩
    intro n cb hn a q hq
    cases hn with
    | pattern _ _ hv hj hmn hmx =>
      rw [← stop_eq (g := g) (st := Stream.ofText text) hmn]
      exact .patMiss (part_nodeL ho (ih hc hs).2 hv hq)
  | repPanic _ ih =>
    intro hc hs
    refine ⟨inside_error, ?_⟩
    intro n cb hn a q hq
    cases hn with
    | pattern _ _ hv hj hmn hmx => exact .patPanic (part_nodeL ho (ih hc hs).2 hv hq)
  | rep _ _ ih1 ih2 =>
    intro hc hs
    obtain ⟨h1, h2⟩ := ih1 hc hs
    obtain ⟨h3, h4⟩ := ih2 hc (h1 _ _ rfl)
    refine ⟨h3, ?_⟩
    intro n cb hn a q hq
    cases hn with
    | pattern _ _ hv hj hmn hmx =>
      exact .patMore (part_nodeL ho h2 hv hq) (h4 _ _ _ _ hv hj hmn hmx (by simp) (fun m hm => by simp only [List.length_singleton]; omega) a q hq)
  | sepNone =>
    intro hc hs
    refine ⟨inside_some hs, ?_⟩
    intro j hj a q hq
    cases hj
    exact .sepNone
  | sepSome _ ih =>
    intro hc hs
    obtain ⟨h1, h2⟩ := ih hc hs
    refine ⟨h1, ?_⟩
    intro j hj a q hq
    cases hj with
    | some hn => exact .sepSome (part_nodeL ho h2 hn hq)
  | full h0 =>
    intro hc hs
    refine ⟨vstop_inside hs, ?_⟩
    intro nv j mn' mx' hv hj hmn hmx hn hroom
    exact absurd hroom h0
  | noSep _ _ ih =>
    intro hc hs
    refine ⟨vstop_inside hs, ?_⟩
    intro nv j mn' mx' hv hj hmn hmx hn hroom a q hq
    rw [← stop_eq (g := g) (st := Stream.ofText text) hmn]
    exact .sepMiss ((ih hc hs).2 _ hj a q hq)
  | sepPanic _ _ ih =>
    intro hc hs
    refine ⟨inside_error, ?_⟩
    intro nv j mn' mx' hv hj hmn hmx hn hroom a q hq
    exact .sepPanic ((ih hc hs).2 _ hj a q hq)
  | noMore _ _ _ ih1 ih2 =>
    intro hc hs
    obtain ⟨h1, h2⟩ := ih1 hc hs
    refine ⟨vstop_inside hs, ?_⟩
    intro nv j mn' mx' hv hj hmn hmx hn hroom a q hq
    rw [← stop_eq (g := g) (st := Stream.ofText text) hmn]
    exact .moreMiss (h2 _ hj a q hq) (part_nodeL ho (ih2 hc (h1 _ _ rfl)).2 hv hq)
  | morePanic _ _ _ ih1 ih2 =>
    intro hc hs
    obtain ⟨h1, h2⟩ := ih1 hc hs
    refine ⟨inside_error, ?_⟩
    intro nv j mn' mx' hv hj hmn hmx hn hroom a q hq
    exact .morePanic (h2 _ hj a q hq) (part_nodeL ho (ih2 hc (h1 _ _ rfl)).2 hv hq)
  | @more c d v sep mn mx vs s w s' x s'' r _ _ _ hrest ih1 ih2 ih3 =>
    intro hc hs
    obtain ⟨h1, h2⟩ := ih1 hc hs
    have hs' := h1 _ _ rfl
    obtain ⟨h3, h4⟩ := ih2 hc hs'
    have hs'' := h3 _ _ rfl
    obtain ⟨h5, h6⟩ := ih3 hc hs''
    refine ⟨h5, ?_⟩
    intro nv j mn' mx' hv hj hmn hmx hn hroom a q hq
    have hm := h2 _ hj a q hq
    have hm' := part_nodeL ho h4 hv hq
    have hl1 : (vs ++ [x]).length = vs.length + 1 := by simp
    by_cases hfull : 0 ≤ mx' ∧ mx' ≤ (vs.length : Int) + 1
    · have hnr : ¬ Room mx (vs ++ [x]).length := fun h => (hmx (vs.length + 1) (by omega)).mpr (by rwa [hl1] at h) (by exact_mod_cast hfull)
      have hst : r = vstop P mn (vs ++ [x]) s'' := by
        cases hrest with
        | full => rfl
        | noSep h _ => exact absurd h hnr
        | sepPanic h _ => exact absurd h hnr
        | noMore h _ _ => exact absurd h hnr
        | morePanic h _ _ => exact absurd h hnr
        | more h _ _ _ => exact absurd h hnr
      rw [hst, ← stop_eq (g := g) (st := Stream.ofText text) hmn]
      exact .moreFull hm hm' hfull
    · have hr : Room mx (vs ++ [x]).length := by
        rw [hl1]
        exact (hmx (vs.length + 1) (by omega)).mp (by exact_mod_cast hfull)
      exact .moreNext hm hm' hfull (h6 nv j mn' mx' hv hj hmn hmx (by simp) hr a q hq)
  | @inside c d nm cb b s r hun _ ih =>
    intro hc hs
    obtain ⟨h1, h2⟩ := ih hc hs
    refine ⟨h1, ?_⟩
    intro hA' hauto id n hn hname himp a q hseed hcase
    obtain ⟨d', rfl, h3⟩ := h2 hA'
    have hno : ∀ nm' ∈ mentionsIn L, g.lookup nm' ≠ some id := by
      intro nm' hm' hl
      have hn' := (hN nm' (hM nm' hm') id n hn).mp hl
      unfold NameIs at hname
      split at hname
      · have := hM nm' hm'
        rw [← hn', hname] at this
        cases this
      · rename_i h0
        rcases hun with h | h
        · exact h0 h
        · exact h (by rw [← hname, hn']; exact hm')
    rcases hcase hun with ⟨rfl, hpar⟩ | ⟨rfl, hpar, hfit, hle⟩
    case inr =>
      obtain ⟨r0, hr0, hm0⟩ := h3 id n hn himp a hfit hle
      rw [← hr0]
      exact .priv hn (hidden_iff.mpr ⟨hpar, hno⟩) hm0
    have hpv : hidden (mentionsIn L) g id = false := Bool.eq_false_iff.mpr fun hh => hpar (hidden_iff.mp hh).1
    have h4 : ∀ y : Option (V × Nat), ∃ r0, Res.finish ⟨P, Stream.ofText text, g⟩ n.info (text.length - s.length) r0 = toRes text.length r ∧
        MeansL (hidden (mentionsIn L) g) ⟨P, Stream.ofText text, g⟩ d' (some (id, .known y)) (text.length - s.length) (.inner n) (text.length - s.length) r0 :=
      fun y => h3 id n hn himp _ (.inr ⟨id, _, rfl, hno⟩) (fun id' x h => by cases h; exact Nat.le_refl _)
    choose r0 hr0 hm0 using h4
    have hsk := (hU n (List.mem_of_getElem? hn)).2
    match r, hr0 with
    | .error e, hr0 =>
      exact .grownPanic (n := 0) (fun _ => none) (fun _ => r0 none) hn hpv hsk hseed rfl (fun i hi => by omega) (fun i hi => by omega)
        (hr0 none) fun i hi => hm0 none
    | .ok none, hr0 =>
      exact .grown (n := 0) (fun _ => none) (fun _ => r0 none) hn hpv hsk hseed rfl (fun i hi => by omega) (fun h => h)
        (fun i hi => hr0 none) fun i hi => hm0 none
    | .ok (some (v, s')), hr0 =>
      refine .grown (n := 1) (fun i => if i = 0 then none else some (v, text.length - s'.length))
        (fun i => r0 (if i = 0 then none else some (v, text.length - s'.length))) hn hpv hsk hseed rfl ?_ ?_ ?_ fun i hi => hm0 _
      · intro i hi
        have : i = 0 := by omega
        subst this
        exact trivial
      · simp [Ahead]
      · intro i hi
        rw [hr0]
        simp [toRes]
  | @grown c d nm cb b s n x hne hmem h0 hgrow hstop _ ih =>
    intro hc hs
    have hin : ∀ i ≤ n + 1, Inside text (.ok (x i)) := by
      intro i
      induction i with
      | zero => intro _; rw [h0]; exact inside_none
      | succ i ihi => intro hi; exact (ih i (by omega) ⟨hs, ihi (by omega)⟩ hs).1
    refine ⟨hin n (by omega), ?_⟩
    intro hA' hauto id m hm hname himp a q hseed _
    rw [NameIs, if_neg hne] at hname
    have hlk := (hN nm (hauto hne) id m hm).mpr hname
    have hpv := called_shown hmem hlk
    have h4 : ∀ i, i ≤ n → ∃ r0, (∃ d', d = d' + 1 ∧ MeansL (hidden (mentionsIn L) g) ⟨P, Stream.ofText text, g⟩ d' (some (id, .known (toPos text.length (x i))))
        (text.length - s.length) (.inner m) (text.length - s.length) r0) ∧
        Res.finish ⟨P, Stream.ofText text, g⟩ m.info (text.length - s.length) r0 = toRes text.length (.ok (x (i + 1))) := by
      intro i hi
      obtain ⟨d', hd, h3⟩ := (ih i hi ⟨hs, hin i (by omega)⟩ hs).2 hA'
      obtain ⟨r0, h4, h5⟩ := h3 id m hm himp _ ⟨id, m, rfl, hlk, hm, hname, rfl, hmem⟩ (fun id' x h => by cases h; exact Nat.le_refl _)
      exact ⟨r0, ⟨d', hd, h5⟩, h4⟩
    have : Nonempty (Res V) := ⟨.ok none⟩
    choose! r0 hm0 hr0 using h4
    obtain ⟨d', rfl, _⟩ := hm0 0 (Nat.zero_le _)
    have hsk := (hU m (List.mem_of_getElem? hm)).2
    rw [toRes_ok]
    refine .grown (fun i => toPos text.length (x i)) r0 hm hpv hsk hseed (by rw [h0]; rfl) ?_ ?_ ?_ ?_
    · exact fun i hi => (ahead_iff (hin i (by omega)) (hin (i + 1) (by omega))).mpr (hgrow i hi)
    · exact fun h => hstop ((ahead_iff (hin n (by omega)) (hin (n + 1) (by omega))).mp h)
    · intro i hi
      rw [hr0 i hi, toRes_ok]
    · intro i hi
      obtain ⟨d1, hd1, h5⟩ := hm0 i hi
      cases hd1
      exact h5
  | @grownPanic c d nm cb b s n e x hne hmem h0 hgrow _ _ ih ihe =>
    intro hc hs
    refine ⟨inside_error, ?_⟩
    have hin : ∀ i ≤ n, Inside text (.ok (x i)) := by
      intro i
      induction i with
      | zero => intro _; rw [h0]; exact inside_none
      | succ i ihi => intro hi; exact (ih i (by omega) ⟨hs, ihi (by omega)⟩ hs).1
    intro hA' hauto id m hm hname himp a q hseed _
    rw [NameIs, if_neg hne] at hname
    have hlk := (hN nm (hauto hne) id m hm).mpr hname
    have hpv := called_shown hmem hlk
    obtain ⟨d', rfl, he⟩ := (ihe ⟨hs, hin n (Nat.le_refl _)⟩ hs).2 hA'
    obtain ⟨re, he1, he2⟩ := he id m hm himp (some (id, .known (toPos text.length (x n)))) ⟨id, m, rfl, hlk, hm, hname, rfl, hmem⟩ (fun id' x h => by cases h; exact Nat.le_refl _)
    have h4 : ∀ i, i < n → ∃ r0, MeansL (hidden (mentionsIn L) g) ⟨P, Stream.ofText text, g⟩ d' (some (id, .known (toPos text.length (x i))))
        (text.length - s.length) (.inner m) (text.length - s.length) r0 ∧
        Res.finish ⟨P, Stream.ofText text, g⟩ m.info (text.length - s.length) r0 = toRes text.length (.ok (x (i + 1))) := by
      intro i hi
      obtain ⟨d1, hd, h3⟩ := (ih i hi ⟨hs, hin i (by omega)⟩ hs).2 hA'
      cases hd
      obtain ⟨r0, h4, h5⟩ := h3 id m hm himp _ ⟨id, m, rfl, hlk, hm, hname, rfl, hmem⟩ (fun id' x h => by cases h; exact Nat.le_refl _)
      exact ⟨r0, h5, h4⟩
    have : Nonempty (Res V) := ⟨.ok none⟩
    choose! r0 hm0 hr0 using h4
    have hsk := (hU m (List.mem_of_getElem? hm)).2
    refine .grownPanic (n := n) (fun i => toPos text.length (x i)) (fun i => if i < n then r0 i else re) hm hpv hsk hseed (by rw [h0]; rfl) ?_ ?_ ?_ ?_
    · exact fun i hi => (ahead_iff (hin i (by omega)) (hin (i + 1) (by omega))).mpr (hgrow i hi)
    · intro i hi
      rw [if_pos hi, hr0 i hi, toRes_ok]
    · rw [if_neg (Nat.lt_irrefl n)]
      exact he1
    · intro i hi
      by_cases h : i < n
      · simp only [if_pos h]; exact hm0 i h
      · have : i = n := by omega
        subst this
        simp only [if_neg h]; exact he2
  | text _ ih =>
    intro hc hs
    obtain ⟨h1, r0, rfl, h2, h3⟩ := ih hc hs
    refine ⟨called_inside h1, ?_⟩
    intro _
    refine ⟨_, rfl, ?_⟩
    intro id m hm himp a hq hle
    unfold ImplV at himp
    obtain ⟨n, hr, hn⟩ := himp
    rw [hm] at hr
    cases hr
    exact ⟨_, finish_eq ho hn.info.1 hn.info.2 _, h3 _ _ hn _ _ hq⟩
  | @rank c d cb ls s r _ ih =>
    intro hc hs
    obtain ⟨h1, h2⟩ := ih hc hs
    refine ⟨called_inside h1, ?_⟩
    intro hA'
    refine ⟨_, rfl, ?_⟩
    intro id m hm himp a hq hle
    unfold ImplV at himp
    obtain ⟨i, l, hr, hlab, hcb, hl, hni⟩ := himp
    rw [hm] at hr
    cases hr
    have hfin : Res.finish ⟨P, Stream.ofText text, g⟩ i (text.length - s.length) (toRes text.length r) = toRes text.length (called P text.length cb r) := by
      have hown : i.ownLabel = false := by simp [Info.ownLabel, hlab]
      match r with
      | .error e => rfl
      | .ok none => rfl
      | .ok (some (v, s')) =>
        simp only [toRes, Res.finish, called, hcb, hown, ho, PureOps.run, Bool.false_eq_true, if_false]
        cases cb with
        | none => rfl
        | some c =>
          simp only
          cases P.cb c v (text.length - s'.length) with
          | error e => rfl
          | ok x => cases x <;> rfl
    have hch : ∀ id', .rule id' ∈ l → Child g.rules id id' := fun id' h => ⟨i, l, hm, h⟩
    refine ⟨_, hfin, .choice (h2 ?_ l hl _ _ hq ?_ ?_)⟩
    · simpa only [Body.rules] using hA'
    · intro id1 x' h id2 h2
      exact Nat.lt_of_lt_of_le (hF.lt (hch id2 h2)) (hle id1 x' h)
    · exact .inr ⟨rfl, fun id' h => ⟨id, hch id' h⟩⟩
  | linesEnd =>
    intro hc hs
    refine ⟨inside_none, ?_⟩
    intro _ ns hns a q hq _ _
    simp only [ImplVA] at hns
    subst hns
    exact .altsEnd
  | incl _ ih =>
    intro hc hs
    obtain ⟨h1, h2⟩ := ih hc hs
    refine ⟨h1, ?_⟩
    intro hA' ns hns a q hq hni hpar
    simp only [ImplVA] at hns
    exact h2 (fun d hd => hA' d (by simp only [rulesOf, List.mem_append]; exact .inr hd)) ns hns a q hq hni hpar
  | @altDone c d nm cb b ls s r _ hne ih =>
    intro hc hs
    obtain ⟨h1, h2⟩ := ih hc hs
    refine ⟨h1, ?_⟩
    intro hA' ns hns a q hq hni hpar
    simp only [ImplVA] at hns
    obtain ⟨id, l', rfl, ⟨n, hn, hname⟩, e1, e2⟩ := hns
    have hcase : (c = none ∧ ¬ HasParent g.rules id) ∨ (q = text.length - s.length ∧ HasParent g.rules id ∧ CtxFits (mentionsIn L) g text c a q ∧
        ∀ id' x, a = some (id', x) → id ≤ id') := hpar.imp (fun h => ⟨h.1, h.2 id (List.mem_cons_self ..)⟩)
      fun h => ⟨h.1, h.2 id (List.mem_cons_self ..), hq, fun id' x e => Nat.le_of_lt (hni id' x e id (List.mem_cons_self ..))⟩
    have hm := h2 (fun d hd => hA' d (by simp [rulesOf, GLine.rules, hd])) (fun h0 => hA' (nm, cb, b) (by simp [rulesOf, GLine.rules, h0]))
      id n hn hname e1 a q (fresh_seed fun id' x h h' => absurd (hni id' x h id (List.mem_cons_self ..)) (by omega)) (fun _ => hcase)
    match r, hne, hm with
    | .error e, _, hm => exact .altsPanic hm
    | .ok none, hne, hm => exact absurd rfl hne
    | .ok (some (v, s')), _, hm => exact .altsHit hm
  | @altMiss c d nm cb b ls s r _ _ ih1 ih2 =>
    intro hc hs
    obtain ⟨_, h2⟩ := ih1 hc hs
    obtain ⟨h3, h4⟩ := ih2 hc hs
    refine ⟨h3, ?_⟩
    intro hA' ns hns a q hq hni hpar
    simp only [ImplVA] at hns
    obtain ⟨id, l', rfl, ⟨n, hn, hname⟩, e1, e2⟩ := hns
    have hcase : (c = none ∧ ¬ HasParent g.rules id) ∨ (q = text.length - s.length ∧ HasParent g.rules id ∧ CtxFits (mentionsIn L) g text c a q ∧
        ∀ id' x, a = some (id', x) → id ≤ id') := hpar.imp (fun h => ⟨h.1, h.2 id (List.mem_cons_self ..)⟩)
      fun h => ⟨h.1, h.2 id (List.mem_cons_self ..), hq, fun id' x e => Nat.le_of_lt (hni id' x e id (List.mem_cons_self ..))⟩
    have hm := h2 (fun d hd => hA' d (by simp [rulesOf, GLine.rules, hd])) (fun h0 => hA' (nm, cb, b) (by simp [rulesOf, GLine.rules, h0]))
      id n hn hname e1 a q (fresh_seed fun id' x h h' => absurd (hni id' x h id (List.mem_cons_self ..)) (by omega)) (fun _ => hcase)
    exact .altsMiss hm (h4 (fun d hd => hA' d (by simp only [rulesOf, List.mem_append]; exact .inr hd)) _ e2 a q hq
      (fun id' x h id2 h' => hni id' x h id2 (List.mem_cons_of_mem _ h'))
      (hpar.imp (fun h => ⟨h.1, fun id2 h' => h.2 id2 (List.mem_cons_of_mem _ h')⟩) fun h => ⟨h.1, fun id2 h' => h.2 id2 (List.mem_cons_of_mem _ h')⟩))

end
end Joeson.RuleText
