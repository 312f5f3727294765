import Verif.Proofs.Forest
import Verif.Props.Values
/-!
# The private rules of a grammar made from lines

The alternatives of ranks that no text mentions.
-/

set_option linter.unusedVariables false

namespace Joeson.RuleText

/-- The grammar made from a tree. -/
theorem postinit_forest {C : Expr → Prop} {L : List GLine} {i : Info} {incl alts : List Rules} (hi : i.label = "") (hcb : i.cb = none)
    (hC : AllLines C L) (h3 : TreeI false L incl) (h4 : TreeA false L alts) (v3 : TreeVI (Labelled L) L incl) (v4 : TreeVA (Labelled L) L alts)
    (hq : ∀ d ∈ declsOf L, Auto d.1 = false) (hnd : ((declsOf L).map (·.1)).Nodup)
    {m : Made} (h : postinit (.rank 0 false i incl alts) = .ok m) :
    Forest stage3 C m.g.rules ∧ ∃ i' l, m.g.root = .choice i' l ∧ ∀ id, .rule id ∈ l → ¬ HasParent m.g.rules id := by
  have hI := treeI_plain L h3
  have hA := treeA_plain L h4
  have hok : ({ name := i.name, incl := incl, alts := alts } : Rank).Ok :=
    ⟨fun x hx => (hI x hx).1, fun x hx => (hA x hx).1, fun x hx => (hI x hx).2.1, fun x hx => (hA x hx).2.1⟩
  obtain ⟨hof, hb, hk, i0, l0, e1, e2, e3, e4⟩ := postinit_made hi hcb hok h
  have hpl : (Rules.rank 0 false i incl alts).Plain := .rank hok.incl hok.alts hi hok.inclR hok.altsR
  unfold postinit at h
  simp only [walkMonoGrammar, walkMonoRules_plain _ hpl, exceptBindOk, exceptPureOk, Prod.exists] at h
  obtain ⟨root, s, hconn, rules, hprep, root1, hroot1, rules2, htypes, root2, hroot2, rules3, hinl, root3, hroot3, rfl⟩ := h
  simp only [connect, exceptBindOk, exceptPureOk, Prod.exists, Prod.mk.injEq] at hconn
  obtain ⟨l1, s1, hc1, l2, s2, hc2, rfl, rfl⟩ := hconn
  have ho1 := (connectList_listed incl Conn.ok_init hc1).1
  obtain ⟨g1, _⟩ := connectI_impl L h3 Conn.ok_init hc1
  obtain ⟨g2, _, _⟩ := connectA_impl L h4 ho1 hc2
  have f0 : Forest (stage1 (Labelled L)) C ({} : Conn).rules := by
    refine ⟨?_, ?_⟩
    · intro j n h; cases h
    · rintro j j' i ⟨_, _, h, _⟩; cases h
  obtain ⟨w1, f1, _⟩ := connectI_forest L v3 hC Conn.ok_init f0 hc1
  obtain ⟨w2, f2, _, hl⟩ := connectA_forest L v4 hC ho1 f1 hc2
  have hg := g1.trans g2
  have hrules : ∀ e ∈ s2.id2rule, e.2.1 = .rule ∧ e.2.2.info.Usual := by
    obtain ⟨ext, he, hk⟩ := hg
    rw [he]
    simpa using hk
  have hlink : ∀ id, inlineRule s2.lookup (s2.id2rule.map (·.2.1)) rules2 rules2.length id = .ok none := by
    intro id
    unfold inlineRule
    split
    · rename_i h1 _
      rw [List.getElem?_map, Option.map_eq_some_iff] at h1
      obtain ⟨e, he, h1⟩ := h1
      rw [(hrules e (List.mem_of_getElem? he)).1] at h1
      cases h1
    · rfl
  have htarget : ∀ nm : String, (match s2.lookup nm with
      | some id => inlineRule s2.lookup (s2.id2rule.map fun x => x.2.1) rules2 rules2.length id
      | none => Except.ok none) = Except.ok (none : Option Node) := by
    intro nm
    split
    · exact hlink _
    · rfl
  have h33 := (inlineAll_none htarget hlink rules2).symm.trans hinl
  cases h33
  have h34 := (inline_none htarget hlink root2).symm.trans hroot3
  cases h34
  have pass : PassVAll (stage1 (Labelled L)) stage3 s2.rules rules2 :=
    passes_V (connect_found h3 h4 v3 v4 hq hnd hc1 hc2).2.2.2 hprep htypes
  have hlen : s2.rules.length = rules2.length := by
    have := hof.numRules
    simp only [Grammar.numRules] at this
    rw [this, ← hof.listed]
    simp [Conn.rules, Conn.listed]
  obtain ⟨f3, hch⟩ := f2.pass pass hlen
  refine ⟨f3, ?_⟩
  have hl' : ∀ c ∈ l2, ∃ id, c = .rule id := fun c hc => by obtain ⟨id, h, _⟩ := hl c hc; exact ⟨id, h⟩
  simp only [Node.prep, prep_links hl'] at hroot1
  cases hroot1
  simp only [Node.setTypes, setTypes_links hl'] at hroot2
  cases hroot2
  refine ⟨_, _, rfl, ?_⟩
  rintro id hid ⟨j, hj⟩
  obtain ⟨id', h1, _, _, h2⟩ := hl _ hid
  cases h1
  exact h2 ⟨j, hch j id hj⟩

/-- The grammar made from lines. -/
theorem grammar_forest {compile : Bytes → Except Panic Node} {C : Expr → Prop} {L : List GLine} (hg : GoodNames L)
    (hc : AllLines (CompilesV (Labelled L) compile) L) (hC : AllLines C L) {name : String} {lines : List Line} (hl : linesOf L = .ok lines) {m : Made}
    (h : grammarFromLines compile name lines = .ok m) :
    Forest stage3 C m.g.rules ∧ ∃ i' l, m.g.root = .choice i' l ∧ ∀ id, .rule id ∈ l → ¬ HasParent m.g.rules id := by
  unfold grammarFromLines rankFromLines at h
  simp only [exceptBindOk, exceptPureOk, Prod.exists] at h
  obtain ⟨x, ⟨r, n, h1, rfl⟩, h2⟩ := h
  have hnd : (({ name := name } : Rank).names ++ inclNames L).Nodup := by
    simpa [Rank.names] using (inclNames_sub L).nodup hg.distinct
  have hc' : AllLines (Compiles false compile) L :=
    lines_all_mono (fun e h => ⟨e.node, h.1, expr_like e fun h => (by cases h), expr_plain e⟩) L hc
  obtain ⟨incl, alts, e1, e2, t1, t2, _⟩ := rankLines_tree L hc' (lines_fine L hg.distinct) hl hnd h1
  obtain ⟨incl', alts', e1', e2', v1, v2, _⟩ := rankLines_treeV L hc (lines_fine L hg.distinct) hl hnd h1
  simp only [List.nil_append] at e1 e2 e1' e2'
  rw [← e1] at t1
  rw [← e2] at t2
  rw [← e1'] at v1
  rw [← e2'] at v2
  exact postinit_forest rfl rfl hC t1 t2 v1 v2 hg.auto hg.distinct h2

/-! ## Names -/

mutual
theorem bodyMentions_all : ∀ (b : Body), b.All fun e => ∀ nm ∈ e.vp.names, nm ∈ b.mentions
  | .text e => by simp only [Body.All, Body.mentions]; exact fun _ h => h
  | .rank ls => by simp only [Body.All, Body.mentions]; exact mentionsIn_all ls
theorem mentionsIn_all : ∀ (ls : List GLine), AllLines (fun e => ∀ nm ∈ e.vp.names, nm ∈ mentionsIn ls) ls
  | [] => by simp only [AllLines]
  | .alt nm cb b :: ls => by
    simp only [AllLines, mentionsIn, GLine.mentions]
    exact ⟨body_all_mono (fun e h nm hnm => List.mem_append_left _ (h nm hnm)) b (bodyMentions_all b),
      lines_all_mono (fun e h nm hnm => List.mem_append_right _ (h nm hnm)) ls (mentionsIn_all ls)⟩
  | .incl nm cb b :: ls => by
    simp only [AllLines, mentionsIn, GLine.mentions]
    exact ⟨body_all_mono (fun e h nm hnm => List.mem_append_left _ (h nm hnm)) b (bodyMentions_all b),
      lines_all_mono (fun e h nm hnm => List.mem_append_right _ (h nm hnm)) ls (mentionsIn_all ls)⟩
end

section
variable {S : Stage} {T : Node → Prop}

mutual
theorem fit_all (hT : ∀ n, n.isRule = false → (∀ i nm, n ≠ .ref i nm) → T n) : ∀ {h : Bool} {cb : Option Nat} {p : VP} {n : Node}, Fit S h cb p n →
    (∀ i nm, nm ∈ p.names → T (.ref i nm)) → n.All T
  | _, _, _, _, .str _ _, _ => .str (hT _ rfl (by simp))
  | _, _, _, _, .regex _ _, _ => .regex (hT _ rfl (by simp))
  | _, _, _, _, .ref _ _ _, hR => .ref (hR _ _ (by simp [VP.names]))
  | _, _, _, _, .choice _ _ hl, hR => .choice (hT _ rfl (by simp)) (fits_all hT hl fun i nm h => hR i nm (by simpa [VP.names] using h))
  | _, _, _, _, .seq _ _ _ hl, hR => .seq (hT _ rfl (by simp)) (fits_all hT hl fun i nm h => hR i nm (by simpa [VP.names] using h))
  | _, _, _, _, .exist _ _ hn, hR => .exist (hT _ rfl (by simp)) (fit_all hT hn fun i nm h => hR i nm (by simpa [VP.names] using h))
  | _, _, _, _, .look _ _ hn, hR => .look (hT _ rfl (by simp)) (fit_all hT hn fun i nm h => hR i nm (by simpa [VP.names] using h))
  | _, _, _, _, .not _ _ hn, hR => .not (hT _ rfl (by simp)) (fit_all hT hn fun i nm h => hR i nm (by simpa [VP.names] using h))
  | _, _, _, _, .pattern _ _ hv hj _ _, hR => .pattern (hT _ rfl (by simp))
      (fit_all hT hv fun i nm h => hR i nm (by simp only [VP.names, List.mem_append]; exact .inl h))
      (fitO_all hT hj fun i nm h => hR i nm (by simp only [VP.names, List.mem_append]; exact .inr h))
theorem fits_all (hT : ∀ n, n.isRule = false → (∀ i nm, n ≠ .ref i nm) → T n) : ∀ {h : Bool} {ps : List VP} {l : List Node}, Fits S h ps l →
    (∀ i nm, nm ∈ namesOf ps → T (.ref i nm)) → ∀ c ∈ l, c.All T
  | _, _, _, .nil, _, c, hc => by cases hc
  | _, _, _, .cons hn hl, hR, c, hc => by
    rcases List.mem_cons.mp hc with rfl | hc
    · exact fit_all hT hn fun i nm h => hR i nm (by simp only [namesOf, List.mem_append]; exact .inl h)
    · exact fits_all hT hl (fun i nm h => hR i nm (by simp only [namesOf, List.mem_append]; exact .inr h)) c hc
theorem fitO_all (hT : ∀ n, n.isRule = false → (∀ i nm, n ≠ .ref i nm) → T n) : ∀ {o : Option VP} {j : Option Node}, FitO S o j →
    (∀ i nm, nm ∈ namesOfO o → T (.ref i nm)) → ∀ c, j = some c → c.All T
  | _, _, .none, _, c, hc => by cases hc
  | _, _, .some hn, hR, c, hc => by
    cases hc
    exact fit_all hT hn fun i nm h => hR i nm (by simpa only [namesOfO] using h)
end
end

/-! ## Private rules -/

open Classical in
/-- The alternatives of ranks that have no name of `M`. -/
noncomputable def hidden (M : List String) (g : Grammar) (i : Nat) : Bool :=
  decide (HasParent g.rules i ∧ ∀ nm ∈ M, g.lookup nm ≠ some i)

theorem hidden_iff {M : List String} {g : Grammar} {i : Nat} : hidden M g i = true ↔ HasParent g.rules i ∧ ∀ nm ∈ M, g.lookup nm ≠ some i := by
  simp [hidden]

open Classical in
/-- The rank that it is an alternative of. -/
noncomputable def parentOf (R : List Node) (i : Nat) : Nat := if h : HasParent R i then h.choose else 0

theorem parentOf_spec {R : List Node} {i : Nat} (h : HasParent R i) : Child R (parentOf R i) i := by
  unfold parentOf
  rw [dif_pos h]
  exact h.choose_spec

/-- The first one up that is not hidden. -/
noncomputable def bossIn (M : List String) (g : Grammar) : Nat → Nat → Nat
  | 0, i => i
  | k + 1, i => if hidden M g (parentOf g.rules i) then bossIn M g k (parentOf g.rules i) else parentOf g.rules i

/-- The rules that no text mentions are private to the rank around them. -/
noncomputable def privacyOf (M : List String) (g : Grammar) : Privacy := ⟨hidden M g, parentOf g.rules, bossIn M g g.rules.length⟩

section
variable {S : Stage} {M : List String} {g : Grammar} (hf : Forest S (fun e => ∀ nm ∈ e.vp.names, nm ∈ M) g.rules)
include hf

theorem bossIn_more : ∀ k i, hidden M g i = true → g.rules.length ≤ i + k → bossIn M g k i = bossIn M g (k + 1) i
  | 0, i, h, hk => by
    have hc := parentOf_spec (hidden_iff.mp h).1
    have := hf.lt hc
    have := hc.len
    omega
  | k + 1, i, h, hk => by
    have hc := parentOf_spec (hidden_iff.mp h).1
    have := hf.lt hc
    unfold bossIn
    split
    · exact bossIn_more k _ ‹_› (by omega)
    · rfl

theorem bossIn_last : ∀ k i, hidden M g i = true → g.rules.length ≤ i + k → hidden M g (bossIn M g k i) = false
  | 0, i, h, hk => by
    have hc := parentOf_spec (hidden_iff.mp h).1
    have := hf.lt hc
    have := hc.len
    omega
  | k + 1, i, h, hk => by
    have hc := parentOf_spec (hidden_iff.mp h).1
    have := hf.lt hc
    unfold bossIn
    split
    · exact bossIn_last k _ ‹_› (by omega)
    · rename_i h'
      exact Bool.eq_false_iff.mpr h'

theorem privacyOf_ok (hroot : ∃ i' l, g.root = .choice i' l ∧ ∀ id, .rule id ∈ l → ¬ HasParent g.rules id) : (privacyOf M g).Ok g where
  boss := by
    intro i h
    have := bossIn_more hf g.rules.length i h (by omega)
    show bossIn M g g.rules.length i = _
    rw [this]
    rfl
  last := fun i h => bossIn_last hf g.rules.length i h (by omega)
  rules := by
    intro j body hj
    rcases hf.kind j body hj with ⟨cb, e, hM, hfit⟩ | ⟨i, l, rfl, hl⟩
    · refine fit_all ?_ hfit ?_
      · intro n hr hn
        unfold Privacy.owned
        split
        · cases hr
        · exact absurd rfl (hn _ _)
        · trivial
      · intro i nm hnm id hid hpv
        exact absurd hid ((hidden_iff.mp hpv).2 nm (hM nm hnm))
    · refine .choice trivial fun c hc => ?_
      obtain ⟨id, rfl, hlt⟩ := hl c hc
      refine .rule fun hpv => ?_
      exact hf.once _ _ id (parentOf_spec (hidden_iff.mp hpv).1) ⟨i, l, hj, hc⟩
  root := by
    intro i l id hr hin
    obtain ⟨i', l', hr', hn⟩ := hroot
    rw [hr] at hr'
    cases hr'
    cases h : (privacyOf M g).pv id with
    | false => rfl
    | true => exact absurd (hidden_iff.mp h).1 (hn id hin)

end
end Joeson.RuleText
