import Verif.Proofs.Renamed
/-!
# A grammar within another parses the same: the rules
-/

namespace Joeson
variable {V H : Type}

section
variable {env : Env V H} {g' : Grammar} {φ : Nat → Nat} {ρ : String → String}
variable (hw : env.g.Within φ ρ g')
include hw

theorem loopify_ren {f f' : Run V H} (hf : RenRun env.g.numRules φ ρ f f') (k : Nat) {id : Nat} (hid : id < env.g.numRules) (i i' : Info)
    (hi1 : i'.skipCache = i.skipCache) (hi2 : i'.debug = i.debug) :
    RenRun env.g.numRules φ ρ (loopify env k id i f) (loopify (env.swap g') k (φ id) i' f') := by
  intro s s' hs
  unfold loopify
  dsimp only
  rw [hi1, hi2]
  generalize (env.trace.stack || i.debug) = sh
  rw [logIf_ren hs]
  refine (RenOut.same _).bind ?_
  rintro _ _ rfl
  by_cases hsk : i.skipCache = true
  · rw [if_pos hsk, if_pos hsk]
    refine (hf s s' hs).bind ?_
    rintro ⟨r, t⟩ ⟨r', t'⟩ ⟨hr, ht, hn⟩
    dsimp only at hr ht hn ⊢
    subst hr
    cases sh with
    | true =>
      rw [if_pos rfl, if_pos rfl]
      cases r' with
      | none => exact .panic _
      | some v =>
        dsimp only
        rw [logHook_ren ht]
        refine (RenOut.same _).bind ?_
        rintro _ _ rfl
        exact ⟨rfl, ht, hn⟩
    | false => exact ⟨rfl, ht, hn⟩
  · rw [if_neg hsk, if_neg hsk]
    refine (getFrame_ren hw hs hid).bind ?_
    rintro ⟨a, t⟩ ⟨a', t'⟩ ⟨h1, ht, ha, hn⟩
    dsimp only at h1 ht ha hn ⊢
    subst h1
    rw [ht.pos]
    generalize hp : t.pos = p
    have ht2 : RenSt env.g.numRules φ (if (t.heap a').loopstage < 0 then setStage a' 0 t else t)
        (if (t'.heap a').loopstage < 0 then setStage a' 0 t' else t') := by
      rw [(ht.heap a').loopstage]
      split
      · exact ht.stage a' 0
      · exact ht
    have e1 : (if (t.heap a').loopstage < 0 then setStage a' 0 t else t).next = t.next := by split <;> rfl
    rw [← e1] at hn ha
    generalize (if (t.heap a').loopstage < 0 then setStage a' 0 t else t) = u at *
    generalize (if (t'.heap a').loopstage < 0 then setStage a' 0 t' else t') = u' at *
    clear e1 ht hp
    rw [(ht2.heap a').loopstage]
    by_cases h0 : (u.heap a').loopstage = 0
    · rw [if_pos h0, if_pos h0, (ht2.heap a').endpos]
      cases (u.heap a').endpos with
      | some e =>
        dsimp only
        rw [logIf_ren ht2]
        refine (RenOut.same _).bind ?_
        rintro _ _ rfl
        refine (setPos_ren ht2 e).bind ?_
        rintro x x' ⟨hx, h1⟩
        exact ⟨(ht2.heap a').result, hx, by show s.next ≤ x.next; omega⟩
      | none =>
        dsimp only
        have hc := (ht2.stage a' 1).cache a' none none
        refine (hf _ _ hc).bind ?_
        rintro ⟨r, x⟩ ⟨r', x'⟩ ⟨hr, hx, hle⟩
        dsimp only at hr hx hle ⊢
        subst hr
        have hle : u.next ≤ x.next := hle
        rw [(hx.heap a').loopstage]
        by_cases h1 : (x.heap a').loopstage = 1
        · rw [if_pos h1, if_pos h1, hx.pos]
          have hx2 := (hx.stage a' 0).cache a' r' (some x.pos)
          rw [logIf_ren hx2]
          refine (RenOut.same _).bind ?_
          rintro _ _ rfl
          exact ⟨rfl, hx2, by show s.next ≤ x.next; omega⟩
        · rw [if_neg h1, if_neg h1]
          by_cases h2 : (x.heap a').loopstage = 2
          · rw [if_pos h2, if_pos h2]
            cases r' with
            | none =>
              dsimp only
              rw [logIf_ren hx]
              refine (RenOut.same _).bind ?_
              rintro _ _ rfl
              exact ⟨rfl, hx.stage a' 0, by show s.next ≤ x.next; omega⟩
            | some v =>
              dsimp only
              have hx3 := hx.stage a' 3
              have hpos : (setStage a' 3 x').pos = (setStage a' 3 x).pos := hx3.pos
              have hb : (env.trace.loop && (decide (env.trace.filterLine < 0) ||
                env.st.line (setStage a' 3 x').pos == env.trace.filterLine)) = (env.trace.loop && (decide (env.trace.filterLine < 0) ||
                env.st.line (setStage a' 3 x).pos == env.trace.filterLine)) := by rw [hpos]
              rw [hb]
              generalize (env.trace.loop && (decide (env.trace.filterLine < 0) ||
                env.st.line (setStage a' 3 x).pos == env.trace.filterLine)) = b
              have hx4 : RenSt env.g.numRules φ (if b = true then { setStage a' 3 x with loopStack := i.name :: (setStage a' 3 x).loopStack } else setStage a' 3 x)
                  (if b = true then { setStage a' 3 x' with loopStack := i'.name :: (setStage a' 3 x').loopStack } else setStage a' 3 x') := by
                cases b with
                | false => exact hx3
                | true =>
                  rw [if_pos rfl, if_pos rfl]
                  exact ⟨hx3.pos, hx3.next, hx3.stack, hx3.counter, hx3.h, congrArg (· + 1) hx3.loopStack, hx3.calls, hx3.heap, hx3.ids, hx3.table, hx3.other,
                    hx3.addr, hx3.top⟩
              have e1 : (if b = true then { setStage a' 3 x with loopStack := i.name :: (setStage a' 3 x).loopStack } else setStage a' 3 x).next = x.next := by
                cases b <;> rfl
              generalize (if b = true then { setStage a' 3 x with loopStack := i.name :: (setStage a' 3 x).loopStack } else setStage a' 3 x) = y at *
              generalize (if b = true then { setStage a' 3 x' with loopStack := i'.name :: (setStage a' 3 x').loopStack } else setStage a' 3 x') = y' at *
              refine (growLoop_ren hf sh a' p k y y' v hx4).bind ?_
              rintro ⟨⟨st, eb⟩, z⟩ ⟨⟨st', eb'⟩, z'⟩ ⟨i1, i2, i3, i4, i5, i6⟩
              dsimp only at i1 i2 i3 i4 i5 i6
              subst i4
              refine RenOut.bind (Q := fun q q' => RenSt env.g.numRules φ q q' ∧ q.next = z.next) ?_ ?_
              · dsimp only
                split
                · have hl := i5.loopStack
                  cases h5 : z.loopStack with
                  | nil =>
                    rw [h5] at hl
                    rw [List.eq_nil_of_length_eq_zero hl]
                    exact .panic _
                  | cons c l =>
                    rw [h5] at hl
                    cases h6 : z'.loopStack with
                    | nil => rw [h6] at hl; cases hl
                    | cons c' l' =>
                      rw [h6] at hl
                      exact ⟨⟨i5.pos, i5.next, i5.stack, i5.counter, i5.h, Nat.succ.inj hl, i5.calls, i5.heap, i5.ids, i5.table, i5.other, i5.addr, i5.top⟩, rfl⟩
                · exact ⟨i5, rfl⟩
              · rintro q q' ⟨hq, q1⟩
                refine (wipeWith_ren hq a').bind ?_
                rintro ⟨m, q3⟩ ⟨m', q3'⟩ ⟨-, -, -, hq3, q4⟩
                dsimp only at hq3 q4 ⊢
                have hq4 := restoreWith_ren hq3 i1 i2 (fun i b hi hb => by have := i3 i b hi hb; omega)
                refine (setPos_ren hq4 eb'.1).bind ?_
                rintro q6 q6' ⟨hq6, q7⟩
                rw [logIf_ren hq6]
                refine (RenOut.same _).bind ?_
                rintro _ _ rfl
                have q7 : q6.next = q3.next := q7
                exact ⟨rfl, hq6.stage a' 0, by show s.next ≤ q6.next; omega⟩
          · rw [if_neg h2, if_neg h2]
            exact .panic _
    · rw [if_neg h0, if_neg h0]
      split
      · have hv : RenSt env.g.numRules φ (if (u.heap a').loopstage = 1 then setStage a' 2 u else u)
            (if (u.heap a').loopstage = 1 then setStage a' 2 u' else u') := by
          split
          · exact ht2.stage a' 2
          · exact ht2
        have e1 : (if (u.heap a').loopstage = 1 then setStage a' 2 u else u).next = u.next := by split <;> rfl
        rw [← e1] at hn ha
        generalize (if (u.heap a').loopstage = 1 then setStage a' 2 u else u) = x at *
        generalize (if (u.heap a').loopstage = 1 then setStage a' 2 u' else u') = x' at *
        clear e1 ht2
        rw [logIf_ren hv]
        refine (RenOut.same _).bind ?_
        rintro _ _ rfl
        rw [hv.stack]
        refine (collectMask_ren hw hv p hid _ _ _ (fun b hb => hv.top b (List.mem_of_mem_tail hb)) ?_).bind ?_
        · intro j hj
          cases hm : (x.heap a').wipemask with
          | none => rw [(hv.heap a').none hm]; rfl
          | some m =>
            obtain ⟨m', hm', he⟩ := (hv.heap a').some m hm
            rw [hm']
            exact he j hj
        · intro m m' hm
          have hfr := hv.heap a'
          have hy := hv.upd a' (f := fun f => { f with wipemask := some m }) (f' := fun f => { f with wipemask := some m' })
            ⟨hfr.result, hfr.endpos, hfr.loopstage, hfr.pos, fun h => (by cases h), fun m2 h => (by cases h; exact ⟨m', rfl, hm⟩)⟩ rfl rfl
          rw [(hy.heap a').endpos]
          split
          · rename_i e _
            refine (setPos_ren hy e).bind ?_
            rintro q q' ⟨hq, q1⟩
            have q1 : q.next = x.next := q1
            exact ⟨(hy.heap a').result, hq, by show s.next ≤ q.next; omega⟩
          · exact ⟨(hy.heap a').result, hy, hn⟩
      · exact .panic _

omit hw in
theorem mkCall_ren {N : Nat} {s s' : St V H} (hs : RenSt N φ s s') (c : Nat) (b : Bool) : (mkCall c b s').seen = (mkCall c b s).seen := by
  unfold mkCall
  rw [hs.stack]
  split
  · simp only [Call.seen, (hs.heap _).pos]
  · rfl

omit hw in
theorem origin_ren {N : Nat} {s0 s s' : St V H} (hops : env.ops.NameBlind ρ) (hs : RenSt N φ s s') (hn : s0.next ≤ s.next) (v : V) (nm : String) :
    RenOut ρ (RenGood N φ s0)
      (do
        let top ← stackPeek s
        let (v, h) := env.ops.origin v ⟨(s.heap top).pos, s.pos, env.st.line s.pos, nm⟩ s.h
        .ok (some v, { s with h := h }))
      (do
        let top ← stackPeek s'
        let (v, h) := env.ops.origin v ⟨(s'.heap top).pos, s'.pos, env.st.line s'.pos, ρ nm⟩ s'.h
        .ok (some v, { s' with h := h })) := by
  rw [stackPeek_ren hs]
  refine (RenOut.same _).bind ?_
  rintro top _ rfl
  rw [(hs.heap top).pos, hs.pos, hs.h]
  have := hops v ⟨(s.heap top).pos, s.pos, env.st.line s.pos, nm⟩ s.h
  dsimp only at this
  rw [this]
  have := hs.store (env.ops.origin v ⟨(s.heap top).pos, s.pos, env.st.line s.pos, nm⟩ s.h).2
  refine ⟨rfl, ?_, hn⟩
  exact ⟨rfl, this.next, this.stack, this.counter, this.h, this.loopStack, this.calls, this.heap, this.ids, this.table, this.other, this.addr, this.top⟩

omit hw in
theorem prepareResult_ren {N : Nat} (hops : env.ops.NameBlind ρ) {f f' : Run V H} (hf : RenRun N φ ρ f f') (b : Bool) (i : Info) :
    RenRun N φ ρ (prepareResult env b i f) (prepareResult (env.swap g') b (i.renamed ρ) f') := by
  intro s s' hs
  unfold prepareResult
  have hs1 : RenSt N φ { s with counter := s.counter + 1 } { s' with counter := s'.counter + 1 } :=
    ⟨hs.pos, hs.next, hs.stack, congrArg (· + 1) hs.counter, hs.h, hs.loopStack, hs.calls, hs.heap, hs.ids, hs.table, hs.other, hs.addr, hs.top⟩
  refine (hf _ _ hs1).bind ?_
  rintro ⟨r, t⟩ ⟨r', t'⟩ ⟨hr, ht, hn⟩
  dsimp only at hr ht hn ⊢
  subst hr
  cases r' with
  | none => exact ⟨rfl, ht, hn⟩
  | some v =>
    dsimp only
    rw [show (i.renamed ρ).ownLabel = i.ownLabel from rfl, show (i.renamed ρ).label = i.label from rfl, show (i.renamed ρ).cb = i.cb from rfl, ht.h]
    generalize (if i.ownLabel = true then env.ops.newMap i.label v t.h else (v, t.h)) = q
    have ht2 := ht.store q.2
    cases i.cb with
    | none => exact origin_ren hops ht2 hn q.1 i.ruleName
    | some c =>
      dsimp only
      rw [ht.pos]
      refine (RenOut.same _).bind ?_
      rintro ⟨rv, h2⟩ _ rfl
      dsimp only
      have ht3 : RenSt N φ { t with h := h2, calls := mkCall c b { t with h := q.2 } :: t.calls }
          { t' with pos := t.pos, h := h2, calls := mkCall c b { t' with pos := t.pos, h := q.2 } :: t'.calls } :=
        ⟨rfl, ht.next, ht.stack, ht.counter, rfl, ht.loopStack, by
          have ht4 : RenSt N φ { t with h := q.2 } { t' with pos := t.pos, h := q.2 } := ht2.at t.pos
          rw [List.map_cons, List.map_cons, mkCall_ren ht4, ht.calls], ht.heap, ht.ids, ht.table, ht.other, ht.addr, ht.top⟩
      cases rv with
      | none => exact ⟨rfl, ht3, hn⟩
      | some v2 => exact origin_ren hops ht3 hn v2 i.ruleName

/-- Rules are numbered, and the names mean the same. -/
def RenOk (g g' : Grammar) (φ : Nat → Nat) (ρ : String → String) : Node → Prop
  | .rule id => id < g.numRules
  | .ref _ nm => g'.lookup (ρ nm) = (g.lookup nm).map φ
  | _ => True

/-- Related on such nodes. -/
def RenRec (g g' : Grammar) (φ : Nat → Nat) (ρ : String → String) (rec_ rec_' : Node → Run V H) : Prop :=
  ∀ n, n.All (RenOk g g' φ ρ) → RenRun g.numRules φ ρ (rec_ n) (rec_' (n.renamed φ ρ))

omit hw in
theorem parseAlts_ren {rec_ rec_' : Node → Run V H} (hrec : RenRec env.g g' φ ρ rec_ rec_') : ∀ (l : List Node), (∀ c ∈ l, c.All (RenOk env.g g' φ ρ)) →
    RenRun env.g.numRules φ ρ (parseAlts env rec_ l) (parseAlts (env.swap g') rec_' (renamedAll φ ρ l))
  | [], _ => fun s s' hs => ⟨rfl, hs, Nat.le_refl _⟩
  | c :: l, hl => by
    intro s s' hs
    rw [renamedAll, parseAlts, parseAlts]
    refine (hrec c (hl c (by simp)) s s' hs).bind ?_
    rintro ⟨r, t⟩ ⟨r', t'⟩ ⟨hr, ht, hn⟩
    dsimp only at hr ht hn ⊢
    subst hr
    cases r' with
    | some v => exact ⟨rfl, ht, hn⟩
    | none =>
      dsimp only
      rw [hs.pos]
      refine (setPos_ren ht s.pos).bind ?_
      rintro x x' ⟨hx, h1⟩
      refine (parseAlts_ren hrec l (fun c hc => hl c (by simp [hc])) x x' hx).imp ?_
      rintro y y' ⟨i1, i2, i3⟩
      exact ⟨i1, i2, by omega⟩

/-- The attributes of a part of a sequence that count. -/
theorem seqAdd_ren (hal : ∀ n ∈ env.g.rules, ∀ id, n ≠ .rule id) (repr : SeqRepr) {c : Node} (hc : c.All (RenOk env.g g' φ ρ)) (acc : SeqAcc V) (v : V) (h : H) :
    seqAdd env.ops repr (g'.info (c.renamed φ ρ)) acc v h = seqAdd env.ops repr (env.g.info c) acc v h := by
  have : ∃ i : Info, env.g.info c = i ∧ g'.info (c.renamed φ ρ) = i.renamed ρ := by
    refine ⟨_, rfl, ?_⟩
    cases hc with
    | @rule id hid =>
      have hid : id < env.g.numRules := hid
      have h1 := List.getElem?_eq_getElem hid
      have h2 := hw.rules id _ h1
      rw [Node.renamed]
      simp only [Grammar.info, h1, h2]
      exact Node.renamed_info φ ρ _ (hal _ (List.mem_of_getElem? h1))
    | pattern => rw [Node.renamed_pattern]; rfl
    | _ => rw [Node.renamed]; rfl
  obtain ⟨i, h1, h2⟩ := this
  rw [h1, h2]
  rfl

theorem parseItems_ren (hal : ∀ n ∈ env.g.rules, ∀ id, n ≠ .rule id) {rec_ rec_' : Node → Run V H} (hrec : RenRec env.g g' φ ρ rec_ rec_') (repr : SeqRepr) :
    ∀ (l : List Node), (∀ c ∈ l, c.All (RenOk env.g g' φ ρ)) → ∀ acc : SeqAcc V,
    RenRun env.g.numRules φ ρ (parseItems env rec_ repr l acc) (parseItems (env.swap g') rec_' repr (renamedAll φ ρ l) acc)
  | [], _, acc => fun s s' hs => by
    rw [renamedAll, parseItems, parseItems]
    show RenOut ρ _ (.ok (some (seqDone env.ops repr acc s.h).1, { s with h := (seqDone env.ops repr acc s.h).2 }))
      (.ok (some (seqDone env.ops repr acc s'.h).1, { s' with h := (seqDone env.ops repr acc s'.h).2 }))
    rw [hs.h]
    exact ⟨rfl, hs.store _, Nat.le_refl _⟩
  | c :: l, hl, acc => by
    intro s s' hs
    rw [renamedAll, parseItems, parseItems]
    refine (hrec c (hl c (by simp)) s s' hs).bind ?_
    rintro ⟨r, t⟩ ⟨r', t'⟩ ⟨hr, ht, hn⟩
    dsimp only at hr ht hn ⊢
    subst hr
    cases r' with
    | none => exact ⟨rfl, ht, hn⟩
    | some v =>
      dsimp only
      rw [ht.h, seqAdd_ren hw hal repr (hl c (by simp))]
      refine (RenOut.same _).bind ?_
      rintro ⟨acc, h⟩ _ rfl
      refine (parseItems_ren hal hrec repr l (fun c hc => hl c (by simp [hc])) acc _ _ (ht.store h)).imp ?_
      rintro y y' ⟨i1, i2, i3⟩
      exact ⟨i1, i2, Nat.le_trans hn i3⟩

omit hw in
theorem parseRep_ren {rec_ rec_' : Node → Run V H} (hrec : RenRec env.g g' φ ρ rec_ rec_') (value : Node) (hvalue : value.All (RenOk env.g g' φ ρ))
    (join : Option Node) (hjoin : ∀ c, join = some c → c.All (RenOk env.g g' φ ρ)) (mn mx : Int) (start : Nat) : ∀ (k : Nat) (ms : List V),
    RenRun env.g.numRules φ ρ (parseRep env rec_ value join mn mx start k ms)
      (parseRep (env.swap g') rec_' (value.renamed φ ρ) (join.map (·.renamed φ ρ)) mn mx start k ms)
  | 0, _ => fun _ _ _ => trivial
  | k + 1, ms => by
    intro s s' hs
    have fin : ∀ (x x' : St V H) (ls : List V), RenSt env.g.numRules φ x x' → s.next ≤ x.next →
        RenOut ρ (RenGood env.g.numRules φ s)
          (if mn > -1 ∧ mn > (ls.length : Int) then do
            let s ← setPos env start x
            .ok (none, s)
          else
            let (v, h) := env.ops.arr ls x.h
            .ok (some v, { x with h := h }))
          (if mn > -1 ∧ mn > (ls.length : Int) then do
            let s ← setPos (env.swap g') start x'
            .ok (none, s)
          else
            let (v, h) := env.ops.arr ls x'.h
            .ok (some v, { x' with h := h })) := by
      intro x x' ls hx hle
      split
      · refine (setPos_ren hx start).bind ?_
        rintro y y' ⟨hy, e1⟩
        exact ⟨rfl, hy, by show s.next ≤ y.next; omega⟩
      · rw [hx.h]
        exact ⟨rfl, hx.store _, hle⟩
    unfold parseRep
    dsimp only
    rw [hs.pos]
    refine RenOut.bind (Q := fun a b => b.1 = a.1 ∧ RenSt env.g.numRules φ a.2 b.2 ∧ s.next ≤ a.2.next) ?_ ?_
    · cases join with
      | none => exact ⟨rfl, hs, Nat.le_refl _⟩
      | some j =>
        refine (hrec j (hjoin j rfl) s s' hs).bind ?_
        rintro ⟨r, t⟩ ⟨r', t'⟩ ⟨hr, ht, hle⟩
        dsimp only at hr
        subst hr
        exact ⟨rfl, ht, hle⟩
    · rintro ⟨b, t⟩ ⟨b', t'⟩ ⟨hb, ht, hle⟩
      dsimp only at hb ht hle ⊢
      subst hb
      by_cases hb : (!b') = true
      · rw [if_pos hb, if_pos hb]
        refine (setPos_ren ht s.pos).bind ?_
        rintro x x' ⟨hx, e1⟩
        exact fin x x' ms hx (by omega)
      · rw [if_neg hb, if_neg hb]
        refine (hrec value hvalue t t' ht).bind ?_
        rintro ⟨r, x⟩ ⟨r', x'⟩ ⟨hr, hx, hlx⟩
        dsimp only at hr hx hlx ⊢
        subst hr
        cases r' with
        | none =>
          dsimp only
          refine (setPos_ren hx s.pos).bind ?_
          rintro y y' ⟨hy, e1⟩
          exact fin y y' ms hy (by omega)
        | some u =>
          dsimp only
          split
          · exact fin x x' _ hx (by omega)
          · refine (parseRep_ren hrec value hvalue join hjoin mn mx start k _ x x' hx).imp ?_
            rintro y y' ⟨i1, i2, i3⟩
            exact ⟨i1, i2, by omega⟩

theorem parseKind_ren (hal : ∀ n ∈ env.g.rules, ∀ id, n ≠ .rule id) (hlk : ∀ nm id, env.g.lookup nm = some id → id < env.g.numRules) {rec_ rec_' : Node → Run V H}
    (hrec : RenRec env.g g' φ ρ rec_ rec_') (k : Nat) (n : Node) (hn : n.All (RenOk env.g g' φ ρ)) :
    RenRun env.g.numRules φ ρ (parseKind env rec_ k n) (parseKind (env.swap g') rec_' k (n.renamed φ ρ)) := by
  intro s s' hs
  cases hn with
  | @str i b _ =>
    rw [Node.renamed, parseKind, parseKind, hs.pos]
    refine (RenOut.same _).bind ?_
    rintro ⟨m, p⟩ _ rfl
    cases m with
    | none => exact ⟨rfl, hs.at p, Nat.le_refl _⟩
    | some t => exact ⟨rfl, hs.at p, Nat.le_refl _⟩
  | @regex i re _ =>
    rw [Node.renamed, parseKind, parseKind, hs.pos]
    refine (RenOut.same _).bind ?_
    rintro ⟨m, p⟩ _ rfl
    cases m with
    | none => exact ⟨rfl, hs.at p, Nat.le_refl _⟩
    | some t => exact ⟨rfl, hs.at p, Nat.le_refl _⟩
  | @choice i l _ hl =>
    rw [Node.renamed, parseKind, parseKind]
    exact parseAlts_ren hrec l hl s s' hs
  | @seq i r l _ hl =>
    rw [Node.renamed, parseKind, parseKind]
    exact parseItems_ren hw hal hrec r l hl {} s s' hs
  | exist _ hit =>
    rw [Node.renamed, parseKind, parseKind]
    refine (hrec _ hit s s' hs).bind ?_
    rintro ⟨r, t⟩ ⟨r', t'⟩ ⟨hr, ht, hle⟩
    dsimp only at hr ht hle ⊢
    subst hr
    cases r' with
    | some v => exact ⟨rfl, ht, hle⟩
    | none =>
      dsimp only
      rw [hs.pos]
      refine (setPos_ren ht s.pos).bind ?_
      rintro x x' ⟨hx, e1⟩
      exact ⟨rfl, hx, by show s.next ≤ x.next; omega⟩
  | look _ hit =>
    rw [Node.renamed, parseKind, parseKind]
    refine (hrec _ hit s s' hs).bind ?_
    rintro ⟨r, t⟩ ⟨r', t'⟩ ⟨hr, ht, hle⟩
    dsimp only at hr ht hle ⊢
    subst hr
    rw [hs.pos]
    refine (setPos_ren ht s.pos).bind ?_
    rintro x x' ⟨hx, e1⟩
    exact ⟨rfl, hx, by show s.next ≤ x.next; omega⟩
  | not _ hit =>
    rw [Node.renamed, parseKind, parseKind]
    refine (hrec _ hit s s' hs).bind ?_
    rintro ⟨r, t⟩ ⟨r', t'⟩ ⟨hr, ht, hle⟩
    dsimp only at hr ht hle ⊢
    subst hr
    rw [hs.pos]
    refine (setPos_ren ht s.pos).bind ?_
    rintro x x' ⟨hx, e1⟩
    cases r' with
    | none => exact ⟨rfl, hx, by show s.next ≤ x.next; omega⟩
    | some v => exact ⟨rfl, hx, by show s.next ≤ x.next; omega⟩
  | @pattern i v j mn mx _ hv hj =>
    rw [Node.renamed_pattern, parseKind, parseKind]
    refine (hrec _ hv s s' hs).bind ?_
    rintro ⟨r, t⟩ ⟨r', t'⟩ ⟨hr, ht, hle⟩
    dsimp only at hr ht hle ⊢
    subst hr
    rw [hs.pos]
    cases r' with
    | none =>
      dsimp only
      refine (setPos_ren ht s.pos).bind ?_
      rintro x x' ⟨hx, e1⟩
      split
      · exact ⟨rfl, hx, by show s.next ≤ x.next; omega⟩
      · rw [hx.h]
        exact ⟨rfl, hx.store _, by show s.next ≤ x.next; omega⟩
    | some u =>
      refine (parseRep_ren hrec v hv j hj mn mx s.pos k [u] t t' ht).imp ?_
      rintro y y' ⟨i1, i2, i3⟩
      exact ⟨i1, i2, Nat.le_trans hle i3⟩
  | @ref i nm hnm =>
    rw [Node.renamed, parseKind, parseKind]
    show RenOut ρ _ _ (match g'.lookup (ρ nm) with | none => _ | some id => _)
    have hnm : g'.lookup (ρ nm) = (env.g.lookup nm).map φ := hnm
    rw [hnm]
    cases hl : env.g.lookup nm with
    | none => exact .inr ⟨nm, rfl, rfl⟩
    | some id =>
      dsimp only [Option.map_some]
      rw [stackPeek_ren hs]
      refine (RenOut.same _).bind ?_
      rintro _ _ rfl
      have := hrec (.rule id) (.rule (hlk nm id hl)) s s' hs
      rwa [Node.renamed] at this
  | @rule id hid =>
    have := hrec (.rule id) (.rule hid) s s' hs
    rw [Node.renamed] at this ⊢
    exact this

theorem wrap_ren (hal : ∀ n ∈ env.g.rules, ∀ id, n ≠ .rule id) (hlk : ∀ nm id, env.g.lookup nm = some id → id < env.g.numRules) (hops : env.ops.NameBlind ρ)
    (hg : ∀ n ∈ env.g.rules, n.All (RenOk env.g g' φ ρ)) {rec_ rec_' : Node → Run V H} (hrec : RenRec env.g g' φ ρ rec_ rec_') (k : Nat) :
    RenRec env.g g' φ ρ (wrap env rec_ k) (wrap (env.swap g') rec_' k) := by
  intro n hn s s' hs
  by_cases hr : ∃ id, n = .rule id
  · obtain ⟨id, rfl⟩ := hr
    have hid : id < env.g.numRules := by cases hn; assumption
    have h1 := List.getElem?_eq_getElem hid
    have h2 := hw.rules id _ h1
    have hmem := List.mem_of_getElem? h1
    generalize env.g.rules[id] = body at h1 h2 hmem
    rw [Node.renamed, wrap, wrap]
    dsimp only
    rw [h1]
    show RenOut ρ _ _ (match g'.rules[φ id]? with | none => _ | some body => _)
    rw [h2]
    dsimp only
    refine (stackPush_ren hw hs hid).bind ?_
    rintro t t' ⟨ht, e1⟩
    rw [Node.renamed_info φ ρ body (hal body hmem)]
    refine (loopify_ren hw (prepareResult_ren hops (parseKind_ren hw hal hlk hrec k body (hg body hmem)) true body.info) k hid body.info (body.info.renamed ρ) rfl rfl t t' ht).bind ?_
    rintro ⟨r, x⟩ ⟨r', x'⟩ ⟨hr, hx, hle⟩
    refine ⟨hr, ⟨hx.pos, hx.next, congrArg List.tail hx.stack, hx.counter, hx.h, hx.loopStack, hx.calls, hx.heap, hx.ids, hx.table, hx.other, hx.addr,
      fun a ha => hx.top a (List.mem_of_mem_tail ha)⟩, Nat.le_trans e1 hle⟩
  · have hr : ∀ id, n ≠ .rule id := fun id h => hr ⟨id, h⟩
    have hk := parseKind_ren hw hal hlk hrec k n hn
    have h1 : wrap env rec_ k n s = if (n.info.ownLabel || n.info.cb.isSome) = true then
        prepareResult env false n.info (parseKind env rec_ k n) s else parseKind env rec_ k n s := by
      cases n <;> first | rfl | exact absurd rfl (hr _)
    have h2 : wrap (env.swap g') rec_' k (n.renamed φ ρ) s' = if (n.info.ownLabel || n.info.cb.isSome) = true then
        prepareResult (env.swap g') false (n.info.renamed ρ) (parseKind (env.swap g') rec_' k (n.renamed φ ρ)) s'
        else parseKind (env.swap g') rec_' k (n.renamed φ ρ) s' := by
      rw [← Node.renamed_info φ ρ n hr]
      have h3 : (n.renamed φ ρ).info.ownLabel = n.info.ownLabel := by rw [Node.renamed_info φ ρ n hr]; rfl
      have h4 : (n.renamed φ ρ).info.cb = n.info.cb := by rw [Node.renamed_info φ ρ n hr]; rfl
      rw [← h3, ← h4]
      cases n with
      | rule id => exact absurd rfl (hr id)
      | pattern i v j mn mx => rw [Node.renamed_pattern]; rfl
      | _ => rw [Node.renamed]; rfl
    rw [h1, h2]
    split
    · exact prepareResult_ren hops hk false n.info s s' hs
    · exact hk s s' hs

theorem parse_ren (hal : ∀ n ∈ env.g.rules, ∀ id, n ≠ .rule id) (hlk : ∀ nm id, env.g.lookup nm = some id → id < env.g.numRules) (hops : env.ops.NameBlind ρ)
    (hg : ∀ n ∈ env.g.rules, n.All (RenOk env.g g' φ ρ)) : ∀ k : Nat, RenRec env.g g' φ ρ (parse env k) (parse (env.swap g') k)
  | 0 => fun _ _ _ _ _ => trivial
  | k + 1 => wrap_ren hw hal hlk hops hg (parse_ren hal hlk hops hg k) k

omit hw in
/-- Which rows have frames, and frames with a result. -/
theorem scanRow_iff (s : St V H) (p : Nat) : ∀ n, ((scanRow s p n).1 = true ↔ ∃ i a, i < n ∧ s.table p i = some a) ∧
    ((scanRow s p n).2 = true ↔ ∃ i a, i < n ∧ s.table p i = some a ∧ (s.heap a).result.isSome = true)
  | 0 => by simp [scanRow]
  | n + 1 => by
    obtain ⟨h1, h2⟩ := scanRow_iff s p n
    unfold scanRow
    cases ht : s.table p n with
    | none =>
      dsimp only
      rw [h1, h2]
      refine ⟨⟨?_, ?_⟩, ?_, ?_⟩
      · rintro ⟨i, a, hi, ha⟩; exact ⟨i, a, by omega, ha⟩
      · rintro ⟨i, a, hi, ha⟩
        have : i ≠ n := by rintro rfl; rw [ht] at ha; cases ha
        exact ⟨i, a, by omega, ha⟩
      · rintro ⟨i, a, hi, ha⟩; exact ⟨i, a, by omega, ha⟩
      · rintro ⟨i, a, hi, ha⟩
        have : i ≠ n := by rintro rfl; rw [ht] at ha; cases ha.1
        exact ⟨i, a, by omega, ha⟩
    | some x =>
      dsimp only
      rw [Bool.or_eq_true, h2]
      refine ⟨⟨fun _ => ⟨n, x, by omega, ht⟩, fun _ => rfl⟩, ?_, ?_⟩
      · rintro (⟨i, a, hi, ha⟩ | hx)
        · exact ⟨i, a, by omega, ha⟩
        · exact ⟨n, x, by omega, ht, hx⟩
      · rintro ⟨i, a, hi, ha, hr⟩
        by_cases hin : i = n
        · subst hin; rw [ht] at ha; cases ha; exact .inr hr
        · exact .inl ⟨i, a, by omega, ha, hr⟩

theorem scanRow_ren {s s' : St V H} (hs : RenSt env.g.numRules φ s s') (p : Nat) : scanRow s' p g'.numRules = scanRow s p env.g.numRules := by
  obtain ⟨h1, h2⟩ := scanRow_iff s p env.g.numRules
  obtain ⟨h3, h4⟩ := scanRow_iff s' p g'.numRules
  have key : ∀ j a, s'.table p j = some a → ∃ i, i < env.g.numRules ∧ j = φ i := by
    intro j a ha
    refine Classical.byContradiction fun hj => ?_
    rw [hs.other p j fun i hi h => hj ⟨i, hi, h⟩] at ha
    cases ha
  refine Prod.ext (Bool.eq_iff_iff.mpr ?_) (Bool.eq_iff_iff.mpr ?_)
  · rw [h1, h3]
    constructor
    · rintro ⟨j, a, -, ha⟩
      obtain ⟨i, hi, rfl⟩ := key j a ha
      exact ⟨i, a, hi, by rw [← hs.table p i hi]; exact ha⟩
    · rintro ⟨i, a, hi, ha⟩
      exact ⟨φ i, a, Grammar.Within.bound hw hi, by rw [hs.table p i hi]; exact ha⟩
  · rw [h2, h4]
    constructor
    · rintro ⟨j, a, -, ha, hr⟩
      obtain ⟨i, hi, rfl⟩ := key j a ha
      exact ⟨i, a, hi, by rw [← hs.table p i hi]; exact ha, by rw [← (hs.heap a).result]; exact hr⟩
    · rintro ⟨i, a, hi, ha, hr⟩
      exact ⟨φ i, a, Grammar.Within.bound hw hi, by rw [hs.table p i hi]; exact ha, by rw [(hs.heap a).result]; exact hr⟩

theorem scanRows_ren {s s' : St V H} (hs : RenSt env.g.numRules φ s s') : ∀ cnt p acc,
    scanRows s' g'.numRules p cnt acc = scanRows s env.g.numRules p cnt acc
  | 0, _, _ => by rw [scanRows, scanRows]
  | cnt + 1, p, (a, b) => by
    rw [scanRows, scanRows, scanRow_ren hw hs]
    exact scanRows_ren hs cnt _ _

end
end Joeson
