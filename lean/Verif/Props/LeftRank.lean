import Verif.Proofs.LeftRank6
import Verif.Props.LeftRec2
/-! # Left recursion through the alternatives of a rule: C34 -/

namespace Joeson
variable {V H : Type}

/-- The meaning of the whole grammar on a text, with left recursion, also through private rules. -/
def TextMeansG (X : Privacy) (P : PureOps V) (g : Grammar) (text : Bytes) (d : Nat) (r : Res V) : Prop :=
  ∃ k, gpeg X.pv ⟨P, Stream.ofText text, g⟩ k d none g.root 0 0 = r.out

theorem newState_memoG (X : Privacy) (E : PegEnv V) (env : Env V H) (h : H) {p : Nat} (hp : p ≤ env.st.len) :
    MemoG X E env (newState h p) :=
  ⟨newState_inv env _ h hp, fun a h => by simp [newState] at h, fun a h => by simp [newState] at h,
    fun a h => by simp [newState] at h, fun _ _ _ _ h => by simp [newState] at h, fun _ _ _ _ h => by simp [newState] at h,
    fun _ _ _ _ h => by simp [newState] at h⟩

/-- The invariant between the rules of the top rank. -/
structure MTopG (X : Privacy) (E : PegEnv V) (env : Env V H) (B : Prop) (k d : Nat) (s : St V H) : Prop where
  memo : MemoG X E env s
  busy : BusyG X E k d s
  depth : B ∨ s.stack.length + d ≤ stackCap

theorem MTopG.setup {X : Privacy} {E : PegEnv V} {env : Env V H} {B : Prop} {k d : Nat} (hX : X.Ok E.g) :
    SimSetup env (MTopG X E env B k d) (NextG X E env) (fun _ => False) where
  refl := NextG.refl
  trans := NextG.trans
  reset := fun _ h h1 h2 => h.reset h1 h2
  aux := NextG.aux
  keep := fun hm hn => ⟨hn.memo hm.memo, hm.busy.next hX hm.memo.inv hn, hm.depth.imp_right fun h => by rw [hn.ext.stack]; exact h⟩
  pos := fun hm => hm.memo.inv.pos
  hit := fun _ h => h.elim
  hitPos := fun h => h

/-- The top rank. -/
theorem top_simG {X : Privacy} {E : PegEnv V} {env : Env V H} {B : Prop} (hX : X.Ok E.g) (hops : env.ops = E.P.ops H) (hst : env.st = E.st)
    (hq : QuietL env) (hval : env.st.Valid) (hg : env.g = E.g) (hb : env.g.Built) (k d : Nat) (h : H)
    (hd : B ∨ d ≤ stackCap) {p : Nat} (hp : p ≤ env.st.len) :
    SimR B (NextG X E env (newState h p)) (gpeg X.pv E k d none env.g.root 0 p) (parse env k env.g.root (newState h p)) := by
  obtain ⟨i, l, hr, h1, h2, h3⟩ := hb.root
  obtain ⟨D, hD⟩ := sizeBound_exists env.g
  cases k with
  | zero => exact SimR.oof
  | succ k =>
    have hpub : ∀ id, Node.rule id ∈ l → X.pv id = false := fun id => hX.root i l id (by rw [← hg]; exact hr)
    have hroot := hb.rootOk (fun _ => False) True
    rw [hr] at hroot ⊢
    rw [parse, gpeg_node X.pv E k d none 0 p (by simp)]
    unfold wrap
    have hw : ((Node.choice i l).info.ownLabel || (Node.choice i l).info.cb.isSome) = false := by
      simp [Node.info, h2, Info.ownLabel, h1]
    simp only [hw, Bool.false_eq_true, if_false]
    rw [parseKind]
    have hm0 : MTopG X E env B k d (newState h p) :=
      ⟨newState_memoG X E env h hp, ⟨fun _ _ _ _ h => by simp [newState] at h, fun _ _ _ _ h => by simp [newState] at h⟩,
        by simpa [newState] using hd⟩
    refine SimR.imp (alts_simT (Okn := fun n => ∃ id, n = .rule id ∧ id < env.g.numRules ∧ X.pv id = false)
      (ev0 := fun n p => gpeg X.pv E k d none n 0 p)
      (ev := fun n p => gpeg X.pv E k d none n 0 p) (MTopG.setup hX) (fun _ _ => Out.le_refl _) ?_ l (newState h p) False ?_ hm0
      (fun h => h)) fun _ h => h.1
    · intro n s ⟨id, hn, hid, hpv⟩ hm
      subst hn
      cases k with
      | zero => exact SimR.oof
      | succ k =>
        have hwf := hb.wfT (T := True) (nn := fun _ => False) (Or.inl trivial)
        have := rule_simG (B := B) (c := none) (q := 0) (d := d) (j := 0) hX hq hval hg hwf hb.noAlias hops hst
          (parse_simG hX hq hval hg hwf hb.noAlias hops hst hD k) hD hid hm.memo hm.busy (Or.inl ⟨rfl, hpv⟩) hm.depth
        by_cases ho : gpeg X.pv E (k + 1) d none (.rule id) 0 s.pos = .oof
        · show SimT _ _ _ _ _ (gpeg X.pv E (k + 1) d none (.rule id) 0 s.pos) _
          rw [ho]; exact SimR.oof
        · exact SimR.imp this fun t ht => ⟨ht.1, fun x => x.elim (fun x => absurd x ho) fun x => x⟩
    · intro c hc
      obtain ⟨id, h, h'⟩ := h3 c hc
      exact ⟨id, h, h', hpub id (h ▸ hc)⟩

/-- From the meaning to `ParseString`. -/
theorem answers_of_gpeg {X : Privacy} {P : PureOps V} {g : Grammar} (hX : X.Ok g) (hg : g.Built) {tr : Trace} {opts : List ParseOption}
    (hn : NoTrace g tr opts) (hl : tr.loop = false) (h : H) {text : Bytes} {d : Nat} {r : Res V}
    (hm : TextMeansG X P g text d r) {B : Prop} (hd : B ∨ d ≤ stackCap) : ∃ k, ∀ k', k ≤ k' →
      (B ∧ (parseString (P.ops H) g tr opts k' h text).1 = .panic .stackOverflow) ∨
      Answers text r (parseString (P.ops H) g tr opts k' h text).1 := by
  obtain ⟨k, hk⟩ := hm
  refine ⟨k, fun k' hk' => ?_⟩
  have hpeg := Out.le_eq (gpeg_mono X.pv ⟨P, Stream.ofText text, g⟩ k k' d d none none hk' (Nat.le_refl _) trivial g.root 0 0)
    (by rw [hk]; exact r.out_ne_oof)
  rw [hk] at hpeg
  have hloop : (callEnv (P.ops H) g tr opts text).trace.loop = false := by
    unfold callEnv
    dsimp only
    split <;> exact hl
  have hsim := top_simG (X := X) (E := ⟨P, Stream.ofText text, g⟩) (env := callEnv (P.ops H) g tr opts text) (B := B) hX
    rfl rfl ⟨hn.quiet _ _, hloop⟩ (Stream.ofText_valid text) rfl hg k' d h hd (p := 0) (Nat.zero_le _)
  rw [show (callEnv (P.ops H) g tr opts text).g.root = g.root from rfl, hpeg] at hsim
  exact (answers_of_sim hg h hsim).imp_right (·.1)

/-! ## C34 -/

/-- C34: left recursion through alternatives. Some rules may be private: called by one rule only, their owner, at the place
where the owner began, like the alternatives of a rank (`Privacy.Ok`). When the grammar means `r` on the text, where the left
recursive calls of a rule inside its private rules count as calls in the rule itself (`gpeg`), `ParseString` returns
exactly `r`. -/
theorem C34_engine_computes_growth_ranks (X : Privacy) (P : PureOps V) (g : Grammar) (hX : X.Ok g) (hg : g.Built) (tr : Trace)
    (opts : List ParseOption) (hn : NoTrace g tr opts) (hl : tr.loop = false) (h : H) (text : Bytes) (d : Nat)
    (hd : d ≤ 1024) (r : Res V) (hm : TextMeansG X P g text d r) :
    ∃ k, ∀ k', k ≤ k' → Answers text r (parseString (P.ops H) g tr opts k' h text).1 := by
  obtain ⟨k, hk⟩ := answers_of_gpeg hX hg hn hl h hm (B := False) (Or.inr hd)
  exact ⟨k, fun k' hk' => (hk k' hk').resolve_left fun h => h.1⟩

/-- Without private rules this is the meaning with direct left recursion. -/
theorem C34_ranks_extend_growth (P : PureOps V) (g : Grammar) (text : Bytes) (d : Nat) (r : Res V) :
    TextMeansG ⟨fun _ => false, id, id⟩ P g text d r ↔ TextMeansL P g text d r := by
  unfold TextMeansG TextMeansL
  constructor <;> rintro ⟨k, hk⟩ <;> refine ⟨k, ?_⟩
  · rw [← hk]; exact (gpeg_none _ _ _ _ _ _ _).symm
  · rw [← hk]; exact gpeg_none _ _ _ _ _ _ _

namespace Sample

/-- `E` with the alternatives `E '-' N` and `N` as lines: `O(Named("E", Rules(O("E '-' N"), O("N"))))`, and `N: '1' | '2'`. -/
def minusRank : Grammar where
  rules := [
    .choice (ri "E") [.rule 1, .rule 2],
    .seq (ri "E[0]") .array [ref "E", lit "-", ref "N"],
    .ref (ri "E[1]") "N",
    .choice (ri "N") [.str {} (asc "1"), .str {} (asc "2")]]
  lookup := lookupIn [("E", 0), ("E[0]", 1), ("E[1]", 2), ("N", 3)]
  root := .choice {} [.rule 0]

/-- The alternatives are private. -/
def minusPrivacy : Privacy := ⟨fun i => i == 1 || i == 2, fun _ => 0, fun _ => 0⟩

theorem minusRank_private : minusPrivacy.Ok minusRank where
  boss := fun i _ => rfl
  last := fun i _ => rfl
  rules := by
    intro j body h
    have hE : ∀ (x : Info) (nm : String) (j : Nat), nm = "E" ∨ nm = "N" → minusPrivacy.owned minusRank j (.ref x nm) := by
      rintro x nm j hnm i h hp
      have h1 : minusRank.lookup "E" = some 0 := by decide +kernel
      have h2 : minusRank.lookup "N" = some 3 := by decide +kernel
      rcases hnm with rfl | rfl
      · rw [h1] at h; cases h; cases hp
      · rw [h2] at h; cases h; cases hp
    match j, h with
    | 0, h =>
      cases h
      refine .choice trivial fun c hc => ?_
      simp only [List.mem_cons, List.not_mem_nil, or_false] at hc
      rcases hc with rfl | rfl <;> exact .rule fun _ => rfl
    | 1, h =>
      cases h
      refine .seq trivial fun c hc => ?_
      simp only [List.mem_cons, List.not_mem_nil, or_false] at hc
      rcases hc with rfl | rfl | rfl
      · exact .ref (hE _ _ _ (.inl rfl))
      · exact .str trivial
      · exact .ref (hE _ _ _ (.inr rfl))
    | 2, h => cases h; exact .ref (hE _ _ _ (.inr rfl))
    | 3, h =>
      cases h
      refine .choice trivial fun c hc => ?_
      simp only [List.mem_cons, List.not_mem_nil, or_false] at hc
      rcases hc with rfl | rfl <;> exact .str trivial
  root := by
    intro i l id h h'
    cases h
    cases List.mem_singleton.mp h'
    rfl

end Sample

/-- `C34_engine_computes_growth_ranks`: a text with a meaning, and what `ParseString` answers. -/
example : Sample.minusRank.Built ∧ NoTrace Sample.minusRank {} [] ∧ Sample.minusPrivacy.Ok Sample.minusRank ∧
    TextMeansG Sample.minusPrivacy Sample.pure Sample.minusRank (asc "1-2-1") 3
      (.ok (some (.arr [.arr [.str (asc "1"), .str (asc "2")], .str (asc "1")], 5))) ∧
    Sample.valueOf (parseString Sample.ops Sample.minusRank {} [] 40 () (asc "1-2-1")) =
      some (.arr [.arr [.str (asc "1"), .str (asc "2")], .str (asc "1")]) :=
  ⟨Grammar.built_of_checks _ _ rfl (by decide +kernel) (by decide +kernel) (by decide +kernel), Sample.noTrace _ (by decide),
    Sample.minusRank_private, ⟨30, by decide +kernel⟩, by decide +kernel⟩

/-- With direct left recursion only, the text has no meaning. -/
example : lpeg ⟨Sample.pure, Stream.ofText (asc "1-2-1"), Sample.minusRank⟩ 40 8 none Sample.minusRank.root 0 0 = .oof := by
  decide +kernel

end Joeson
