import Verif.Proofs.Indirect1
import Verif.Proofs.Mentions
import Verif.Props.LeftText
/-!
# Helpers are private

The helpers of a grammar and the alternatives that no text mentions are private, as the engine-level meaning of left
recursion wants it (Spec/LeftRank.lean).
-/

set_option linter.unusedVariables false

namespace Joeson.RuleText

/-- The grammar made from a tree. -/
theorem postinit_helpers {L : List GLine} {i : Info} {incl alts : List Rules} (hi : i.label = "") (hcb : i.cb = none)
    (h3 : TreeI false L incl) (h4 : TreeA false L alts) (v3 : TreeVI (Labelled L) L incl) (v4 : TreeVA (Labelled L) L alts)
    (hq : ∀ d ∈ declsOf L, Auto d.1 = false) (hnd : ((declsOf L).map (·.1)).Nodup)
    {m : Made} (h : postinit (.rank 0 false i incl alts) = .ok m) :
    ChildNames (altNamesIn L) m.g.rules ∧ ∀ nm, callers nm m.g.rules = countTextsIn (fun e => e.vp.names.contains nm) L := by
  have hI := treeI_plain L h3
  have hA := treeA_plain L h4
  have hok : ({ name := i.name, incl := incl, alts := alts } : Rank).Ok :=
    ⟨fun x hx => (hI x hx).1, fun x hx => (hA x hx).1, fun x hx => (hI x hx).2.1, fun x hx => (hA x hx).2.1⟩
  obtain ⟨hof, hb, hk, i0, l0, e1, e2, e3, e4⟩ := postinit_made hi hcb hok h
  have hpl : (Rules.rank 0 false i incl alts).Plain := .rank hok.incl hok.alts hi hok.inclR hok.altsR
  unfold postinit at h
  simp only [walkMonoGrammar, walkMonoRules_plain _ hpl, exceptBindOk, exceptPureOk, Prod.exists] at h
  obtain ⟨root, s, hconn, rules, hprep, root1, hroot1, rules2, htypes, root2, hroot2, rules3, hinl, root3, hroot3, rfl⟩ := h
  simp only [connect, exceptBindOk, exceptPureOk, Prod.exists, Prod.mk.injEq] at hconn
  obtain ⟨l1, s1, hc1, l2, s2, hc2, rfl, rfl⟩ := hconn
  have ho1 := (connectList_listed incl Conn.ok_init hc1).1
  obtain ⟨g1, _⟩ := connectI_impl L h3 Conn.ok_init hc1
  obtain ⟨g2, _, _⟩ := connectA_impl L h4 ho1 hc2
  have f0 : Forest (stage1 (Labelled L)) (fun _ => True) ({} : Conn).rules := by
    refine ⟨?_, ?_⟩
    · intro j n h; cases h
    · rintro j j' i ⟨_, _, h, _⟩; cases h
  have hT : AllLines (fun _ => True) L := lines_all_mono (fun _ _ => trivial) L (mentionsIn_all L)
  obtain ⟨w1, f1, _⟩ := connectI_forest L v3 hT Conn.ok_init f0 hc1
  obtain ⟨w2, f2, _, hl⟩ := connectA_forest L v4 hT ho1 f1 hc2
  have n0 : ChildNames (altNamesIn L) ({} : Conn).rules := by
    rintro j i ⟨_, _, h, _⟩; cases h
  obtain ⟨n1, c1⟩ := connectI_helpers L v3 (fun _ h => h) Conn.ok_init n0 hc1
  obtain ⟨n2, c2, _⟩ := connectA_helpers L v4 (fun _ h => h) ho1 n1 hc2
  have hg := g1.trans g2
  have hrules : ∀ e ∈ s2.id2rule, e.2.1 = .rule ∧ e.2.2.info.Usual := by
    obtain ⟨ext, he, hk⟩ := hg
    rw [he]
    simpa using hk
  have hlink : ∀ id, inlineRule s2.lookup (s2.id2rule.map (·.2.1)) rules2 rules2.length id = .ok none := by
    intro id
    unfold inlineRule
    split
    · rename_i h1 _
      rw [List.getElem?_map, Option.map_eq_some_iff] at h1
      obtain ⟨e, he, h1⟩ := h1
      rw [(hrules e (List.mem_of_getElem? he)).1] at h1
      cases h1
    · rfl
  have htarget : ∀ nm : String, (match s2.lookup nm with
      | some id => inlineRule s2.lookup (s2.id2rule.map fun x => x.2.1) rules2 rules2.length id
      | none => Except.ok none) = Except.ok (none : Option Node) := by
    intro nm
    split
    · exact hlink _
    · rfl
  have h33 := (inlineAll_none htarget hlink rules2).symm.trans hinl
  cases h33
  have pass : PassVAll (stage1 (Labelled L)) stage3 s2.rules rules2 :=
    passes_V (connect_found h3 h4 v3 v4 hq hnd hc1 hc2).2.2.2 hprep htypes
  have hlen : s2.rules.length = rules2.length := by
    have := hof.numRules
    simp only [Grammar.numRules] at this
    rw [this, ← hof.listed]
    simp [Conn.rules, Conn.listed]
  obtain ⟨f3, hch⟩ := f2.pass pass hlen
  refine ⟨?_, fun nm => ?_⟩
  · intro j i hc
    obtain ⟨n, hn, ha⟩ := n2 j i (hch j i hc)
    obtain ⟨n', hn', hp⟩ := pass i n hn
    exact ⟨n', hn', by rw [hp.name]; exact ha⟩
  · show callers nm rules2 = _
    rw [callers_pass f2 pass hlen, c2, c1, countIA]
    have : callers nm ({} : Conn).rules = 0 := rfl
    omega

/-- The grammar made from lines. -/
theorem grammar_helpers {compile : Bytes → Except Panic Node} {L : List GLine} (hg : GoodNames L)
    (hc : AllLines (CompilesV (Labelled L) compile) L) {name : String} {lines : List Line} (hl : linesOf L = .ok lines) {m : Made}
    (h : grammarFromLines compile name lines = .ok m) :
    ChildNames (altNamesIn L) m.g.rules ∧ ∀ nm, callers nm m.g.rules = countTextsIn (fun e => e.vp.names.contains nm) L := by
  unfold grammarFromLines rankFromLines at h
  simp only [exceptBindOk, exceptPureOk, Prod.exists] at h
  obtain ⟨x, ⟨r, n, h1, rfl⟩, h2⟩ := h
  have hnd : (({ name := name } : Rank).names ++ inclNames L).Nodup := by
    simpa [Rank.names] using (inclNames_sub L).nodup hg.distinct
  have hc' : AllLines (Compiles false compile) L :=
    lines_all_mono (fun e h => ⟨e.node, h.1, expr_like e fun h => (by cases h), expr_plain e⟩) L hc
  obtain ⟨incl, alts, e1, e2, t1, t2, _⟩ := rankLines_tree L hc' (lines_fine L hg.distinct) hl hnd h1
  obtain ⟨incl', alts', e1', e2', v1, v2, _⟩ := rankLines_treeV L hc (lines_fine L hg.distinct) hl hnd h1
  simp only [List.nil_append] at e1 e2 e1' e2'
  rw [← e1] at t1
  rw [← e2] at t2
  rw [← e1'] at v1
  rw [← e2'] at v2
  exact postinit_helpers rfl rfl t1 t2 v1 v2 hg.auto hg.distinct h2

/-! ## Paths in ranks -/

/-- `j` is rule `i`, or an alternative of it, or of one of its alternatives, and so on. -/
inductive Under (R : List Node) (i : Nat) : Nat → Prop
  | refl : Under R i i
  | step {j k} : Under R i j → Child R j k → Under R i k

theorem Under.head {R : List Node} {i j k : Nat} (hc : Child R i j) (h : Under R j k) : Under R i k := by
  induction h with
  | refl => exact .step .refl hc
  | step _ hc' ih => exact .step ih hc'

/-- From above. -/
theorem Under.first {R : List Node} {i k : Nat} (h : Under R i k) : k = i ∨ ∃ j, Child R i j ∧ Under R j k := by
  induction h with
  | refl => exact .inl rfl
  | step _ hc ih =>
    rcases ih with rfl | ⟨j, h1, h2⟩
    · exact .inr ⟨_, hc, .refl⟩
    · exact .inr ⟨j, h1, .step h2 hc⟩

section
variable {R : List Node} {nm : String}

mutual
/-- What a rule under the implementation of a body calls, the body mentions. -/
theorem under_mentions : ∀ (b : Body) {cb : Option Nat} {id j : Nat} {n : Node}, ImplV stage3 R cb b id → Under R id j → R[j]? = some n →
    refers nm n = true → nm ∈ b.mentions
  | .text e, cb, id, j, n, hi, hu, hn, hr => by
    simp only [ImplV] at hi
    obtain ⟨m, hm, hf⟩ := hi
    rcases hu.first with rfl | ⟨k, hk, _⟩
    · rw [hm] at hn
      cases hn
      rw [refers_fit hf, List.contains_iff_mem] at hr
      simpa only [Body.mentions] using hr
    · obtain ⟨inf, l, h1, h2⟩ := hk
      rw [hm] at h1
      cases h1
      exact absurd h2 (hf.noLink k)
  | .rank ls, cb, id, j, n, hi, hu, hn, hr => by
    simp only [ImplV] at hi
    obtain ⟨inf, l, hm, _, _, ha, _⟩ := hi
    simp only [Body.mentions]
    rcases hu.first with rfl | ⟨k, hk, hu'⟩
    · rw [hm] at hn
      cases hn
      rw [refers_links (implVA_links ls ha)] at hr
      cases hr
    · obtain ⟨inf', l', h1, h2⟩ := hk
      rw [hm] at h1
      cases h1
      exact under_mentionsA ls ha h2 hu' hn hr
theorem under_mentionsA : ∀ (ls : List GLine) {l : List Node} {k j : Nat} {n : Node}, ImplVA stage3 R ls l → .rule k ∈ l → Under R k j → R[j]? = some n →
    refers nm n = true → nm ∈ mentionsIn ls
  | [], l, k, j, n, ha, hk, hu, hn, hr => by
    simp only [ImplVA] at ha
    subst ha
    cases hk
  | .incl _ _ _ :: ls, l, k, j, n, ha, hk, hu, hn, hr => by
    simp only [ImplVA] at ha
    simp only [mentionsIn, List.mem_append]
    exact .inr (under_mentionsA ls ha hk hu hn hr)
  | .alt _ cb b :: ls, l, k, j, n, ha, hk, hu, hn, hr => by
    simp only [ImplVA] at ha
    obtain ⟨id, l', rfl, _, h1, h2⟩ := ha
    simp only [mentionsIn, GLine.mentions, List.mem_append]
    rcases List.mem_cons.mp hk with h | h
    · cases h
      exact .inl (under_mentions b h1 hu hn hr)
    · exact .inr (under_mentionsA ls h2 h hu hn hr)
end
end

/-- The names of the alternatives of the top rank. -/
theorem implVA_altName {S : Stage} {R : List Node} : ∀ (ls : List GLine) {l : List Node} {id : Nat}, ImplVA S R ls l → .rule id ∈ l →
    ∃ nm n, R[id]? = some n ∧ NameIs nm n.info.name ∧ nm ∈ altNamesIn ls
  | [], l, id, h, hin => by
    simp only [ImplVA] at h
    subst h
    cases hin
  | .incl _ _ _ :: ls, l, id, h, hin => by
    simp only [ImplVA] at h
    obtain ⟨nm, n, h1, h2, h3⟩ := implVA_altName ls h hin
    exact ⟨nm, n, h1, h2, by simp only [altNamesIn, List.mem_append]; exact .inr h3⟩
  | .alt nm cb b :: ls, l, id, h, hin => by
    simp only [ImplVA] at h
    obtain ⟨id', l', rfl, ⟨n, h1, h2⟩, _, h3⟩ := h
    rcases List.mem_cons.mp hin with h | h
    · cases h
      exact ⟨nm, n, h1, h2, by simp [altNamesIn, GLine.altNames]⟩
    · obtain ⟨nm, n, h1, h2, h3⟩ := implVA_altName ls h3 h
      exact ⟨nm, n, h1, h2, by simp only [altNamesIn, List.mem_append]; exact .inr h3⟩

/-! ## Private rules -/

open Classical in
/-- The alternatives that have no name of `M`, and the rules with a name of `W`. -/
noncomputable def closed (W M : List String) (g : Grammar) (i : Nat) : Bool :=
  decide (hidden M g i = true ∨ ∃ nm ∈ W, g.lookup nm = some i)

theorem closed_iff {W M : List String} {g : Grammar} {i : Nat} : closed W M g i = true ↔ hidden M g i = true ∨ ∃ nm ∈ W, g.lookup nm = some i := by
  simp [closed]

/-- Rule `j` calls rule `i` by one of the names `W`. -/
def CalledBy (W : List String) (g : Grammar) (i j : Nat) : Prop :=
  ∃ nm ∈ W, g.lookup nm = some i ∧ ∃ n, g.rules[j]? = some n ∧ refers nm n = true

open Classical in
/-- The rank around an alternative, or the rule that calls a helper. -/
noncomputable def callerOf (W : List String) (g : Grammar) (i : Nat) : Nat :=
  if HasParent g.rules i then parentOf g.rules i else if h : ∃ j, CalledBy W g i j then h.choose else g.rules.length

/-- The rules above. -/
inductive Above (pv : Nat → Bool) (f : Nat → Nat) : Nat → Nat → Prop
  | one {i} : pv (f i) = false → Above pv f i (f i)
  | more {i k} : pv (f i) = true → Above pv f (f i) k → Above pv f i k

theorem Above.unique {pv : Nat → Bool} {f : Nat → Nat} {i j k : Nat} (h : Above pv f i j) (h' : Above pv f i k) : j = k := by
  induction h with
  | one h =>
    cases h' with
    | one => rfl
    | more h1 => rw [h] at h1; cases h1
  | more h _ ih =>
    cases h' with
    | one h1 => rw [h] at h1; cases h1
    | more _ h2 => exact ih h2

theorem Above.open {pv : Nat → Bool} {f : Nat → Nat} {i j : Nat} (h : Above pv f i j) : pv j = false := by
  induction h with
  | one h => exact h
  | more _ _ ih => exact ih

open Classical in
/-- The first rule above that is not private. -/
noncomputable def headOf (W M : List String) (g : Grammar) (i : Nat) : Nat :=
  if h : ∃ k, Above (closed W M g) (callerOf W g) i k then h.choose else 0

/-- Helpers and unmentioned alternatives. -/
noncomputable def privacyI (W M : List String) (g : Grammar) : Privacy := ⟨closed W M g, callerOf W g, headOf W M g⟩

section
variable {W : List String} {g : Grammar} {L : List GLine} (hF : Forest stage3 (fun e => ∀ nm ∈ e.vp.names, nm ∈ mentionsIn L) g.rules)
  (hW : HelpersOk L W)
  (hL : ∀ nm cb y, (nm, cb, y) ∈ rulesOf L → ∃ id, g.lookup nm = some id ∧ ImplV stage3 g.rules cb y id)
  (hN : ∀ nm, Auto nm = false → ∀ id n, g.rules[id]? = some n → (g.lookup nm = some id ↔ n.info.name = nm))
  (hA : ∀ d ∈ rulesOf L, Auto d.1 = false)
  (hM : ∀ nm ∈ mentionsIn L, Auto nm = false)
  (hC : ChildNames (altNamesIn L) g.rules) (hK : ∀ nm, callers nm g.rules = countTextsIn (fun e => e.vp.names.contains nm) L)

include hW hL hN hA in
/-- A helper has a number and a body. -/
theorem helper_rule {nm : String} (h : nm ∈ W) : ∃ id n cb b, g.lookup nm = some id ∧ g.rules[id]? = some n ∧ n.info.name = nm ∧ Auto nm = false ∧
    (nm, cb, b) ∈ rulesOf L ∧ ImplV stage3 g.rules cb b id := by
  obtain ⟨cb, b, hd⟩ := hW.decl nm h
  obtain ⟨id, h1, h2⟩ := hL nm cb b hd
  have h3 : ∃ n, g.rules[id]? = some n := by
    cases b with
    | text e =>
      unfold ImplV at h2
      obtain ⟨n, hn, _⟩ := h2
      exact ⟨n, hn⟩
    | rank ls =>
      unfold ImplV at h2
      obtain ⟨i, l, hn, _⟩ := h2
      exact ⟨_, hn⟩
  obtain ⟨n, hn⟩ := h3
  exact ⟨id, n, cb, b, h1, hn, (hN nm (hA _ hd) id n hn).mp h1, hA _ hd, hd, h2⟩

include hW hL hN hA in
/-- The name of a helper is the only one. -/
theorem helper_name {nm nm' : String} {i : Nat} (h : nm ∈ W) (hi : g.lookup nm = some i) (ha : Auto nm' = false) (hi' : g.lookup nm' = some i) : nm' = nm := by
  obtain ⟨id, n, cb, b, h1, h2, h3, _⟩ := helper_rule hW hL hN hA h
  rw [hi] at h1
  cases h1
  rw [← h3]
  exact ((hN nm' ha i n h2).mp hi').symm

include hW hL hN hA hC in
/-- A helper is no alternative. -/
theorem helper_alone {nm : String} {i : Nat} (h : nm ∈ W) (hi : g.lookup nm = some i) : ¬ HasParent g.rules i := by
  rintro ⟨j, hj⟩
  obtain ⟨id, n, cb, b, h1, h2, h3, h4, _⟩ := helper_rule hW hL hN hA h
  rw [hi] at h1
  cases h1
  obtain ⟨n', hn', h5⟩ := hC j i hj
  rw [h2] at hn'
  cases hn'
  rw [h3] at h5
  rcases h5 with h5 | h5
  · rw [h4] at h5; cases h5
  · exact hW.incl nm h h5

/-- Going up ends. -/
def Ends (W M : List String) (g : Grammar) (i : Nat) : Prop := closed W M g i = false ∨ ∃ k, Above (closed W M g) (callerOf W g) i k

theorem Ends.above {M : List String} {i : Nat} (h : Ends W M g (callerOf W g i)) : ∃ k, Above (closed W M g) (callerOf W g) i k := by
  rcases h with h | ⟨k, hk⟩
  · exact ⟨_, .one h⟩
  · cases h : closed W M g (callerOf W g i) with
    | false => exact ⟨_, .one h⟩
    | true => exact ⟨k, .more h hk⟩

include hF in
/-- The alternatives around a rule. -/
theorem climb (W : List String) (i : Nat) : ∃ t, Under g.rules t i ∧ hidden (mentionsIn L) g t = false ∧
    (Ends W (mentionsIn L) g t → Ends W (mentionsIn L) g i) := by
  obtain ⟨m, hm⟩ : ∃ m, g.rules.length ≤ i + m := ⟨g.rules.length, by omega⟩
  induction m generalizing i with
  | zero =>
    refine ⟨i, .refl, ?_, id⟩
    rw [Bool.eq_false_iff]
    intro h
    have hc := parentOf_spec (hidden_iff.mp h).1
    have := hF.lt hc
    have := hc.len
    omega
  | succ m ih =>
    cases hh : hidden (mentionsIn L) g i with
    | false => exact ⟨i, .refl, hh, id⟩
    | true =>
      have hc := parentOf_spec (hidden_iff.mp hh).1
      have hlt := hF.lt hc
      obtain ⟨t, h1, h2, h3⟩ := ih (parentOf g.rules i) (by omega)
      refine ⟨t, .step h1 hc, h2, fun ht => .inr (Ends.above ?_)⟩
      have hcall : callerOf W g i = parentOf g.rules i := by unfold callerOf; rw [if_pos (hidden_iff.mp hh).1]
      rw [hcall]
      exact h3 ht

include hF hW hL hN hA hC in
/-- A helper is under a rule that is not private. -/
theorem helper_ends : ∀ (m : Nat) (A B : List String) (nm : String) (i : Nat), A.length ≤ m → W = A ++ nm :: B → g.lookup nm = some i →
    ∃ k, Above (closed W (mentionsIn L) g) (callerOf W g) i k := by
  intro m
  induction m with
  | zero => ?_
  | succ m ih => ?_
  all_goals
    intro A B nm i hlen hsplit hi
    have hmem : nm ∈ W := by rw [hsplit]; simp
    have halone := helper_alone hW hL hN hA hC hmem hi
    by_cases hex : ∃ j, CalledBy W g i j
    case neg =>
      have hcall : callerOf W g i = g.rules.length := by unfold callerOf; rw [if_neg halone, dif_neg hex]
      refine ⟨_, .one ?_⟩
      rw [hcall, Bool.eq_false_iff]
      intro h
      rcases closed_iff.mp h with h | ⟨nm', h1, h2⟩
      · have hc := parentOf_spec (hidden_iff.mp h).1
        have := hF.lt hc
        have := hc.len
        omega
      · obtain ⟨id, n, _, _, h3, h4, _⟩ := helper_rule hW hL hN hA h1
        rw [h2] at h3
        cases h3
        have := (List.getElem?_eq_some_iff.mp h4).1
        omega
    obtain ⟨nm1, hw1, hl1, n, hn, href⟩ := hex.choose_spec
    have hcall : callerOf W g i = hex.choose := by unfold callerOf; rw [if_neg halone, dif_pos hex]
    obtain ⟨_, _, _, _, _, _, _, hau, _⟩ := helper_rule hW hL hN hA hw1
    have : nm1 = nm := helper_name hW hL hN hA hmem hi hau hl1
    subst this
    refine Ends.above ?_
    rw [hcall]
    obtain ⟨t, hu, hh, ht⟩ := climb hF W hex.choose
    refine ht ?_
    cases hcl : closed W (mentionsIn L) g t with
    | false => exact .inl hcl
    | true =>
      rcases closed_iff.mp hcl with h | ⟨nm', h1, h2⟩
      · rw [hh] at h; cases h
      · obtain ⟨id, n', cb, b, h3, _, _, _, hd, himp⟩ := helper_rule hW hL hN hA h1
        rw [h2] at h3
        cases h3
        have hment := under_mentions b himp hu hn href
        have hup := fun h => hW.up A nm1 B hsplit nm' h cb b hd hment
        have hinA : nm' ∈ A := by
          rw [hsplit, List.mem_append] at h1
          rcases h1 with h1 | h1
          · exact h1
          · exact absurd h1 hup
        obtain ⟨A', B', hA'⟩ := List.append_of_mem hinA
        first
        | (have : A = [] := by simpa using hlen
           rw [this] at hinA
           cases hinA)
        | (refine .inr (ih A' (B' ++ nm1 :: B) nm' t ?_ ?_ h2)
           · rw [hA'] at hlen; simp at hlen; omega
           · rw [hsplit, hA']; simp)

include hF hW hL hN hA hM hC hK in
/-- Helpers, and the alternatives that no text mentions, are private to the rules that call them. -/
theorem privacyI_ok (hroot : ∃ i' l, g.root = .choice i' l ∧ ImplVA stage3 g.rules L l ∧ ∀ id, .rule id ∈ l → ¬ HasParent g.rules id) :
    (privacyI W (mentionsIn L) g).Ok g := by
  have hall : ∀ i, closed W (mentionsIn L) g i = true → ∃ k, Above (closed W (mentionsIn L) g) (callerOf W g) i k := by
    intro i hi
    obtain ⟨t, hu, hh, ht⟩ := climb hF W i
    have : Ends W (mentionsIn L) g t := by
      cases hcl : closed W (mentionsIn L) g t with
      | false => exact .inl hcl
      | true =>
        rcases closed_iff.mp hcl with h | ⟨nm', h1, h2⟩
        · rw [hh] at h; cases h
        · obtain ⟨A, B, hAB⟩ := List.append_of_mem h1
          exact .inr (helper_ends hF hW hL hN hA hC A.length A B nm' t (Nat.le_refl _) hAB h2)
    rcases ht this with h | h
    · rw [hi] at h; cases h
    · exact h
  have hhead : ∀ i, closed W (mentionsIn L) g i = true → Above (closed W (mentionsIn L) g) (callerOf W g) i (headOf W (mentionsIn L) g i) := by
    intro i hi
    unfold headOf
    rw [dif_pos (hall i hi)]
    exact (hall i hi).choose_spec
  refine ⟨?_, ?_, ?_, ?_⟩
  · intro i hi
    have h1 := hhead i hi
    show headOf W (mentionsIn L) g i = if closed W (mentionsIn L) g (callerOf W g i) = true then headOf W (mentionsIn L) g (callerOf W g i) else callerOf W g i
    split
    · rename_i h
      exact h1.unique (.more h (hhead _ h))
    · rename_i h
      exact h1.unique (.one (Bool.eq_false_iff.mpr h))
  · exact fun i hi => (hhead i hi).open
  · intro j body hj
    rcases hF.kind j body hj with ⟨cb, e, hme, hfit⟩ | ⟨i, l, rfl, hl⟩
    · refine fit_all ?_ hfit ?_
      · intro n hr hn
        unfold Privacy.owned
        split
        · cases hr
        · exact absurd rfl (hn _ _)
        · trivial
      · intro i nm hnm id hid hpv
        rcases closed_iff.mp hpv with h | ⟨nm', h1, h2⟩
        · exact absurd hid ((hidden_iff.mp h).2 nm (hme nm hnm))
        · have he := helper_name hW hL hN hA h1 h2 (hM nm (hme nm hnm)) hid
          subst he
          have hr : refers nm body = true := by rw [refers_fit hfit, List.contains_iff_mem]; exact hnm
          have hex : ∃ j, CalledBy W g id j := ⟨j, nm, h1, hid, body, hj, hr⟩
          show callerOf W g id = j
          unfold callerOf
          rw [if_neg (helper_alone hW hL hN hA hC h1 h2), dif_pos hex]
          obtain ⟨nm1, hw1, hl1, n, hn, href⟩ := hex.choose_spec
          obtain ⟨_, _, _, _, _, _, _, hau, _⟩ := helper_rule hW hL hN hA hw1
          have : nm1 = nm := helper_name hW hL hN hA h1 h2 hau hl1
          subst this
          exact callers_unique (nm := nm1) (by rw [hK]; exact hW.once nm1 h1) hn hj href hr
    · refine .choice trivial fun c hc => ?_
      obtain ⟨id, rfl, hlt⟩ := hl c hc
      refine .rule fun hpv => ?_
      have hpar : HasParent g.rules id := ⟨j, i, l, hj, hc⟩
      show callerOf W g id = j
      unfold callerOf
      rw [if_pos hpar]
      exact hF.once _ _ id (parentOf_spec hpar) ⟨i, l, hj, hc⟩
  · intro i l id hr hin
    obtain ⟨i', l', hr', himp, hn⟩ := hroot
    rw [hr] at hr'
    cases hr'
    rw [Bool.eq_false_iff]
    intro h
    rcases closed_iff.mp h with h | ⟨nm, h1, h2⟩
    · exact hn id hin (hidden_iff.mp h).1
    · obtain ⟨nm', n, hn1, hn2, hn3⟩ := implVA_altName L himp hin
      obtain ⟨_, n', _, _, h3, h4, h5, h6, _⟩ := helper_rule hW hL hN hA h1
      rw [h2] at h3
      cases h3
      rw [hn1] at h4
      cases h4
      unfold NameIs at hn2
      split at hn2
      · rw [h5, h6] at hn2; cases hn2
      · exact hW.incl nm h1 (by rw [← h5, hn2]; exact hn3)

end
end Joeson.RuleText
