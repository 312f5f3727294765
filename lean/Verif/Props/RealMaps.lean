import Verif.Spec.OwnMaps
import Verif.Props.Heap
import Verif.Props.Values2
import Verif.Props.LeftText
import Verif.Props.Indirect
import Verif.Props.Merged
/-!
# C42 for rule texts: what C53, C57 and C76 say holds of the library's mutable maps
-/

namespace Joeson
open RuleText Spec

theorem treePure_ops (tcb : Nat → Ast → Nat → Except Panic (Option Ast)) : (treePure tcb).ops Unit = treeOps (treeCb tcb) := by
  have h1 : ((treePure tcb).ops Unit).mapSet = (treeOps (treeCb tcb)).mapSet := by
    funext r k v h
    cases r <;> rfl
  have h2 : ((treePure tcb).ops Unit).merge = (treeOps (treeCb tcb)).merge := by
    funext a b h
    show (Ast.merge a b).map _ = match a.merge b with | .ok x => .ok (x, h) | .error e => .error e
    cases Ast.merge a b <;> rfl
  have e1 : (treePure tcb).ops Unit = { (treePure tcb).ops Unit with mapSet := ((treePure tcb).ops Unit).mapSet, merge := ((treePure tcb).ops Unit).merge } := rfl
  rw [e1, h1, h2]
  rfl

/-! ## From texts to the built grammar -/

theorem fillsOwn_map {l : List VP} (h : FillsOwn (l.map VP.outLab)) {g : Grammar} {ns : List Node} (he : ns.map (fun c => (g.info c).label) = l.map VP.outLab) :
    (∀ c ∈ ns, (g.info c).label ≠ "&") ∧
      ∀ l1 c l2, ns = l1 ++ c :: l2 → (g.info c).label = "@" → ∃ d ∈ l1, (g.info d).label ≠ "" ∧ (g.info d).label ≠ "@" := by
  rw [← he] at h
  refine ⟨fun c hc hl => h.1 (List.mem_map.mpr ⟨c, hc, hl⟩), fun l1 c l2 e hc => ?_⟩
  obtain ⟨lab, hm, h1, h2⟩ := h.2 (l1.map fun c => (g.info c).label) (l2.map fun c => (g.info c).label) (by rw [e]; simp [hc])
  obtain ⟨d, hd, rfl⟩ := List.mem_map.mp hm
  exact ⟨d, hd, h1, h2⟩

theorem info_fit {g : Grammar} {h : Bool} {cb : Option Nat} {p : VP} {n : Node} (hf : Fit stage3 h cb p n) : (g.info n).label = p.outLab := by
  have : g.info n = n.info := by cases hf <;> rfl
  rw [this]
  exact hf.info.1.1

theorem infos_fit {g : Grammar} : ∀ {h : Bool} {ps : List VP} {l : List Node}, Fits stage3 h ps l → l.map (fun c => (g.info c).label) = ps.map VP.outLab
  | _, _, _, .nil => rfl
  | _, _, _, .cons hn hl => by simp only [List.map_cons, info_fit hn, infos_fit hl]

mutual
theorem fit_own {g : Grammar} : ∀ {h : Bool} {cb : Option Nat} {p : VP} {n : Node}, Fit stage3 h cb p n → p.OwnMaps → OwnMaps g n
  | _, _, _, _, .str _ _, _ => .str
  | _, _, _, _, .regex _ _, _ => .regex
  | _, _, _, _, .ref _ _ _, _ => .ref
  | _, _, _, _, .choice _ _ hl, ho => .choice (fits_own hl ho)
  | _, _, _, _, .seq _ _ _ hl, ho => .seq (fits_own hl ho.2) (fillsOwn_map ho.1 (infos_fit hl)).1 (fillsOwn_map ho.1 (infos_fit hl)).2
  | _, _, _, _, .exist _ _ hn, ho => .exist (fit_own hn ho)
  | _, _, _, _, .look _ _ hn, ho => .look (fit_own hn ho)
  | _, _, _, _, .not _ _ hn, ho => .not (fit_own hn ho)
  | _, _, _, _, .pattern _ _ hn hj _ _, ho => .pattern (fit_own hn ho.1) (fitO_own hj ho.2)
theorem fits_own {g : Grammar} : ∀ {h : Bool} {ps : List VP} {l : List Node}, Fits stage3 h ps l → ownMapsAll ps → ∀ c ∈ l, OwnMaps g c
  | _, _, _, .nil, _, c, hc => by cases hc
  | _, _, _, .cons hn hl, ho, c, hc => by
    rcases List.mem_cons.mp hc with rfl | hc
    · exact fit_own hn ho.1
    · exact fits_own hl ho.2 c hc
theorem fitO_own {g : Grammar} : ∀ {o : Option VP} {j : Option Node}, FitO stage3 o j → ownMapsO o → ∀ c, j = some c → OwnMaps g c
  | _, _, .none, _, c, hc => by cases hc
  | _, _, .some hn, ho, c, hc => by cases hc; exact fit_own hn ho
end

/-- The built grammar merges only into maps of its own. -/
theorem grammar_own {compile : Bytes → Except Panic Node} {L : List GLine} (hg : GoodNames L)
    (hc : AllLines (fun e => compile e.text = .ok e.node ∧ ∀ nm ∈ e.vp.spliced, Labelled L nm) L) (ho : AllLines (fun e => e.vp.OwnMaps) L)
    {name : String} {lines : List Line} (hl : linesOf L = .ok lines) {m : Made} (h : grammarFromLines compile name lines = .ok m) : GrammarOwnMaps m.g := by
  obtain ⟨hf, _⟩ := grammar_forest hg hc ho hl h
  obtain ⟨_, _, _, _, i', l, hroot, _, _, himp⟩ := grammar_implV hg hc hl h
  refine ⟨fun n hn => ?_, ?_⟩
  · obtain ⟨j, hj⟩ := List.getElem?_of_mem hn
    rcases hf.kind j n hj with ⟨cb, e, he, hfit⟩ | ⟨i, l, rfl, hl⟩
    · exact fit_own hfit he
    · refine .choice fun c hc => ?_
      obtain ⟨id, rfl, _⟩ := hl c hc
      exact .rule
  · rw [hroot]
    refine .choice fun c hc => ?_
    have key : ∀ (ls : List GLine) (l : List Node), ImplVA stage3 m.g.rules ls l → ∀ c ∈ l, ∃ id, c = .rule id := by
      intro ls
      induction ls with
      | nil => intro l h; simp only [ImplVA] at h; subst h; simp
      | cons x ls ih =>
        intro l h c hc
        cases x with
        | alt nm cb y =>
          simp only [ImplVA] at h
          obtain ⟨id, l', rfl, _, _, h2⟩ := h
          rcases List.mem_cons.mp hc with rfl | hc
          · exact ⟨id, rfl⟩
          · exact ih l' h2 c hc
        | incl nm cb y => exact ih l (by simpa only [ImplVA] using h) c hc
    obtain ⟨id, rfl⟩ := key L l himp c hc
    exact .rule

/-- What is said with trees holds of maps in the store. -/
theorem gives_read {cb : Nat → Val → Nat → Store → Except Panic (Option Val × Store)} {tcb : Nat → Ast → Nat → Except Panic (Option Ast)}
    (hcb : PureCallbacks cb tcb) {g : Grammar} (hg : GrammarOwnMaps g) {tr : Trace} {opts : List ParseOption} {k : Nat} {text : Bytes} :
    (∀ r, Gives text r (parseString ((treePure tcb).ops Unit) g tr opts k () text).1 → GivesRead text r (parseString (heapOps cb) g tr opts k Store.empty text).1) ∧
    (∀ e, (parseString ((treePure tcb).ops Unit) g tr opts k () text).1 = .panic e → (parseString (heapOps cb) g tr opts k Store.empty text).1 = .panic e) := by
  rw [treePure_ops]
  have key := ((heapSim hcb).grammarParse_rel (Stream.ofText text) (runeReport text) g tr
    (opts.foldl CtxOptions.apply {}) (fun n hn => ownMaps_all hcb (hg.1 n hn)) (ownMaps_all hcb hg.2) k
    (w := fun _ => False) (h := Store.empty) (h' := ()) (fun a ha => ha.elim) 0).2
  change OutRel _ (parseString (heapOps cb) g tr opts k Store.empty text).1
    (parseString (treeOps (treeCb tcb)) g tr opts k () text).1 at key
  revert key
  generalize (parseString (heapOps cb) g tr opts k Store.empty text).1 = x
  generalize (parseString (treeOps (treeCb tcb)) g tr opts k () text).1 = y
  intro key
  cases x <;> cases y <;> first | exact key.elim | skip
  · rename_i a b
    obtain ⟨o, s⟩ := a
    obtain ⟨o', s'⟩ := b
    obtain ⟨hsr, -, h⟩ := key
    dsimp only at *
    refine ⟨fun r hr => ?_, fun e he => by cases he⟩
    have hpos := hsr.pos
    match r with
    | .error e => cases hr
    | .ok none =>
      simp only [Gives, GivesRead] at hr ⊢
      split at hr
      · rename_i ht
        rw [if_pos ht]
        obtain ⟨s2, hs2⟩ := hr
        cases hs2
        cases h with
        | nil => exact ⟨s, rfl⟩
      · rename_i ht
        rw [if_neg ht]
        obtain ⟨rep, s2, hs2, hp⟩ := hr
        cases hs2
        cases h with
        | error r => exact ⟨rep, s, rfl, by rw [← hpos]; exact hp⟩
    | .ok (some (t, rest)) =>
      simp only [Gives, GivesRead] at hr ⊢
      split at hr
      · rename_i ht
        rw [if_pos ht]
        obtain ⟨s2, hs2⟩ := hr
        cases hs2
        cases h with
        | value h => exact ⟨_, s, rfl, h⟩
      · rename_i ht
        rw [if_neg ht]
        obtain ⟨rep, s2, hs2, hp⟩ := hr
        cases hs2
        cases h with
        | error r => exact ⟨rep, s, rfl, by rw [← hpos]; exact hp⟩
  · have : _ = _ := key
    subst this
    refine ⟨fun r hr => ?_, fun e he => by cases he; rfl⟩
    match r with
    | .error e => cases (show _ = Out.panic e from hr); rfl
    | .ok none => simp only [Gives] at hr; split at hr <;> simp at hr
    | .ok (some (t, rest)) => simp only [Gives] at hr; split at hr <;> simp at hr
  · refine ⟨fun r hr => ?_, fun e he => by cases he⟩
    match r with
    | .error e => cases hr
    | .ok none => simp only [Gives] at hr; split at hr <;> simp at hr
    | .ok (some (t, rest)) => simp only [Gives] at hr; split at hr <;> simp at hr

/-- C42, C53: the value that rule texts say is what is read out of the library's maps, for grammars whose sequences merge only
into maps of their own and callbacks that do not change maps they are given. -/
theorem C42_rule_text_values_partial (rx : Bytes → Option Regex) (tr0 : Trace) (htr0 : tr0.stack = false) (L : List GLine)
    (hg : GoodNames L) (hL : AllLines (TextOk rx L) L) (ho : AllLines (fun e => e.vp.OwnMaps) L) (name : String) :
    ∃ lines m0, linesOf L = .ok lines ∧ joesonMade = .ok m0 ∧ ∃ k0, ∀ k, k0 ≤ k →
      ∃ m, grammarFromLines (compileRule rx m0.g tr0 k) name lines = .ok m ∧
        ∀ cb tcb, PureCallbacks cb tcb → ∀ tr : Trace, tr.stack = false → ∀ opts : List ParseOption,
          (∀ b, ParseOption.debug b ∈ opts → b = false) → ∀ (text : Bytes) (d : Nat) (r : VRes Ast),
          Yields (treePure tcb) text.length L d (.lines L) text r → ∃ k1, ∀ k', k1 ≤ k' →
            GivesRead text r (parseString (heapOps cb) m.g tr opts k' Store.empty text).1 ∨
            (1024 < d ∧ (parseString (heapOps cb) m.g tr opts k' Store.empty text).1 = .panic .stackOverflow) := by
  obtain ⟨lines, m0, hl, hm0, k0, hk0⟩ := rule_texts_compile rx tr0 htr0 L hg hL name
  refine ⟨lines, m0, hl, hm0, k0, fun k hk => ?_⟩
  obtain ⟨hc, m, hm⟩ := hk0 k hk
  refine ⟨m, hm, ?_⟩
  intro cb tcb hcb tr htr opts hopts text d r hp
  obtain ⟨k1, h1⟩ := C53_grammar_values_partial (treePure tcb) (fun _ _ => rfl) _ L hg hc name lines hl m hm tr htr opts hopts () text d r hp
  have hgr := grammar_own hg hc ho hl hm
  exact ⟨k1, fun k' hk' => (h1 k' hk').imp ((gives_read hcb hgr).1 r) fun h => ⟨h.1, (gives_read hcb hgr).2 _ h.2⟩⟩

/-- C42, C57: the same with left recursion. -/
theorem C42_rule_text_left_recursion_partial (rx : Bytes → Option Regex) (tr0 : Trace) (htr0 : tr0.stack = false) (L : List GLine)
    (hg : GoodNames L) (hL : AllLines (TextOk rx L) L) (ho : AllLines (fun e => e.vp.OwnMaps) L) (name : String) :
    ∃ lines m0, linesOf L = .ok lines ∧ joesonMade = .ok m0 ∧ ∃ k0, ∀ k, k0 ≤ k →
      ∃ m, grammarFromLines (compileRule rx m0.g tr0 k) name lines = .ok m ∧
        ∀ cb tcb, PureCallbacks cb tcb → ∀ tr : Trace, tr.stack = false → tr.loop = false → ∀ opts : List ParseOption,
          (∀ b, ParseOption.debug b ∈ opts → b = false) → ∀ (text : Bytes) (d : Nat) (r : VRes Ast),
          YieldsL (treePure tcb) text.length L none d (.lines L) text r → ∃ k1, ∀ k', k1 ≤ k' →
            GivesRead text r (parseString (heapOps cb) m.g tr opts k' Store.empty text).1 ∨
            (1024 < d ∧ (parseString (heapOps cb) m.g tr opts k' Store.empty text).1 = .panic .stackOverflow) := by
  obtain ⟨lines, m0, hl, hm0, k0, hk0⟩ := rule_texts_compile rx tr0 htr0 L hg hL name
  refine ⟨lines, m0, hl, hm0, k0, fun k hk => ?_⟩
  obtain ⟨hc, m, hm⟩ := hk0 k hk
  refine ⟨m, hm, ?_⟩
  intro cb tcb hcb tr htr hloop opts hopts text d r hp
  obtain ⟨k1, h1⟩ := C57_grammar_left_recursion_partial (treePure tcb) (fun _ _ => rfl) _ L hg hc (mentions_words hL) name lines hl m hm tr htr hloop opts hopts () text d r hp
  have hgr := grammar_own hg hc ho hl hm
  exact ⟨k1, fun k' hk' => (h1 k' hk').imp ((gives_read hcb hgr).1 r) fun h => ⟨h.1, (gives_read hcb hgr).2 _ h.2⟩⟩

/-! ## Examples -/

theorem fillsOwn_of {l : List String} (h : fillsB false l = true) : FillsOwn l := by
  obtain ⟨h1, h2⟩ := fillsB_sound id l false (by simpa using h)
  exact ⟨fun hm => h1 "&" hm rfl, fun l1 l2 he => (h2 l1 "@" l2 he rfl).resolve_left (by simp)⟩

mutual
/-- `VP.OwnMaps`, checked. -/
def ownMapsB : VP → Bool
  | .lit _ _ | .re _ _ | .name _ _ _ => true
  | .seq _ l => fillsB false (l.map VP.outLab) && ownMapsAllB l
  | .alt _ l => ownMapsAllB l
  | .opt _ p | .not _ p | .look _ p => ownMapsB p
  | .rep _ v s _ _ => ownMapsB v && ownMapsOB s
/-- Of all. -/
def ownMapsAllB : List VP → Bool
  | [] => true
  | p :: l => ownMapsB p && ownMapsAllB l
/-- If there is one. -/
def ownMapsOB : Option VP → Bool
  | none => true
  | some p => ownMapsB p
end

mutual
theorem ownMapsB_sound : ∀ (p : VP), ownMapsB p = true → p.OwnMaps
  | .lit _ _, _ | .re _ _, _ | .name _ _ _, _ => trivial
  | .seq _ l, h => by
    simp only [ownMapsB, Bool.and_eq_true] at h
    exact ⟨fillsOwn_of h.1, ownMapsAllB_sound l h.2⟩
  | .alt _ l, h => ownMapsAllB_sound l h
  | .opt _ p, h | .not _ p, h | .look _ p, h => ownMapsB_sound p h
  | .rep _ v s _ _, h => by
    simp only [ownMapsB, Bool.and_eq_true] at h
    exact ⟨ownMapsB_sound v h.1, ownMapsOB_sound s h.2⟩
theorem ownMapsAllB_sound : ∀ (l : List VP), ownMapsAllB l = true → ownMapsAll l
  | [], _ => trivial
  | p :: l, h => by
    simp only [ownMapsAllB, Bool.and_eq_true] at h
    exact ⟨ownMapsB_sound p h.1, ownMapsAllB_sound l h.2⟩
theorem ownMapsOB_sound : ∀ (o : Option VP), ownMapsOB o = true → ownMapsO o
  | none, _ => trivial
  | some p, h => ownMapsB_sound p h
end

open Sample in
theorem mergeLines_own : AllLines (fun e => e.vp.OwnMaps) mergeLines :=
  allLinesB_sound (f := fun e => ownMapsB e.vp) (fun e he => ownMapsB_sound e.vp he) _ (by kernel_rfl)

open Sample in
/-- The labels of three rules in one map of the store. -/
example (rx : Bytes → Option Regex) : ∃ lines m0, linesOf mergeLines = .ok lines ∧ joesonMade = .ok m0 ∧ ∃ k0, ∀ k, k0 ≤ k →
    ∃ m, grammarFromLines (compileRule rx m0.g {} k) "" lines = .ok m ∧ ∃ k1, ∀ k', k1 ≤ k' →
      ∃ v s, (parseString (heapOps noCbH) m.g {} [] k' Store.empty (asc "abcd")).1 = .ok (.value v, s) ∧
        Reads s.h v (.map [("a", .str (asc "a")), ("b", .str (asc "b")), ("c", .str (asc "c")), ("d", .str (asc "d"))]) := by
  obtain ⟨lines, m0, hl, hm0, k0, hk0⟩ := C42_rule_text_values_partial rx {} rfl mergeLines mergeLines_names (textsOk_of rx (by kernel_rfl)) mergeLines_own ""
  refine ⟨lines, m0, hl, hm0, k0, fun k hk => ?_⟩
  obtain ⟨m, hm, h⟩ := hk0 k hk
  refine ⟨m, hm, ?_⟩
  have hy : vrun (treePure fun _ t _ => .ok (some t)) 4 mergeLines 60 60 (.lines mergeLines) (asc "abcd") =
    some (.ok (some (.map [("a", .str (asc "a")), ("b", .str (asc "b")), ("c", .str (asc "c")), ("d", .str (asc "d"))], []))) := by kernel_rfl
  obtain ⟨k1, hk1⟩ := h noCbH _ noCbH_pure {} rfl [] (by simp) (asc "abcd") 60 _ (vrun_sound _ _ _ _ _ hy)
  refine ⟨k1, fun k' hk' => ?_⟩
  rcases hk1 k' hk' with h | h
  · exact h
  · exact absurd h.1 (by decide)

end Joeson
