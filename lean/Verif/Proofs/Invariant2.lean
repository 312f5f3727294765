import Verif.Proofs.Invariant
/-! # Every parser preserves the invariant -/

namespace Joeson
variable {V H : Type} {T : Prop} {L : Nat}

theorem StashOk.mono {s s' : St V H} {p : Nat} {st : Nat → Option Nat} {N : Nat}
    (h : StashOk s p st N) (hn : s.next ≤ s'.next)
    (hf : ∀ b, b < s.next → (s'.heap b).pos = (s.heap b).pos ∧ (s'.heap b).id = (s.heap b).id) :
    StashOk s' p st N := by
  intro i b hb
  have := h i b hb
  have k := hf b this.1
  exact ⟨Nat.lt_of_lt_of_le this.1 hn, by rw [k.1]; exact this.2.1, by rw [k.2]; exact this.2.2.1,
    this.2.2.2⟩

/-- What the growing loop guarantees, relative to the state `s` in which it starts. -/
structure GrowPost (env : Env V H) (nn : Nat → Prop) (a startPos : Nat) (s : St V H)
    (x : ((Nat → Option Nat) × Nat × V) × St V H) : Prop where
  inv : Inv env nn x.2
  stack : x.2.stack = s.stack
  next : s.next ≤ x.2.next
  loop : (env.trace.loop = true → env.trace.filterLine < 0) → x.2.loopStack = s.loopStack
  frame : ∀ b, b < s.next → b ≠ a → FrameExt (s.heap b) (x.2.heap b)
  stage : (x.2.heap a).loopstage = 3
  pos : (x.2.heap a).pos = (s.heap a).pos
  id : (x.2.heap a).id = (s.heap a).id
  result : (x.2.heap a).result = some x.1.2.2
  endpos : (x.2.heap a).endpos = some x.1.2.1
  lo : startPos ≤ x.1.2.1
  hi : x.1.2.1 ≤ env.st.len
  nn : nn (s.heap a).id → startPos < x.1.2.1
  stash : StashOk x.2 startPos x.1.1 env.g.numRules

theorem growLoop_holds {env : Env V H} {nn : Nat → Prop} {cons : Prop} {f : Run V H} {sh : Bool}
    (hs : sh = true → env.trace.stack = true ∨ ∃ n ∈ env.g.rules, n.info.debug = true)
    (hf : ∀ s, Inv env nn s → s.stack.length = L → (f s).Holds T (OkPanic env) (Post env nn cons s))
    (a startPos : Nat) : ∀ k r (s : St V H), Inv env nn s → s.stack.length = L → a < s.next →
      (s.heap a).loopstage = 3 → (s.heap a).pos = startPos → startPos ≤ s.pos →
      (nn (s.heap a).id → cons) →
      (nn (s.heap a).id → startPos < s.pos) → (∀ b ∈ s.stack, (s.heap b).pos ≤ startPos) →
      (T ∨ env.st.len - s.pos < k) →
      (growLoop env sh f a startPos k r s).Holds T (OkPanic env) (GrowPost env nn a startPos s)
  | 0, _, _, _, _, _, _, _, _, _, _, _, hk => hk.resolve_right (by omega)
  | k + 1, r, s, hi, hne, ha, h3, hp, hle, hcons, hnn, hst, hk => by
    rw [growLoop]
    have hfo := hi.frame a ha
    obtain ⟨st, s1, hw, hi1, he1, hpos1, hheap1, hnext1, hstash⟩ :=
      wipeWith_ok hi (hfo.mask (by omega))
    rw [hw, Out.bind_ok]
    dsimp only
    -- cacheSet
    have hi2 : Inv env nn (cacheSet a (some r) (some s1.pos) s1) := by
      refine hi1.upd a _ rfl rfl ?_
      rw [hheap1]
      refine ⟨hfo.lo, hfo.hi, ?_, hfo.mask, fun _ => rfl, ?_⟩
      · intro e he
        injection he with he
        subst he
        dsimp only
        have := hi.pos
        omega
      · intro e _ he hn
        injection he with he
        subst he
        dsimp only
        have := hnn hn
        omega
    refine (logIf_holds hs _ hi2.pos).bind fun _ _ => ?_
    have hl : startPos ≤ env.st.len := Nat.le_trans hle hi.pos
    rw [setPos_eq env hl, Out.bind_ok]
    have hheap2 : ∀ b, b ≠ a → (cacheSet a (some r) (some s1.pos) s1).heap b = s.heap b := by
      intro b hb
      show setHeap s1.heap a _ b = _
      rw [setHeap_ne _ _ hb, hheap1]
    have hheapa : (cacheSet a (some r) (some s1.pos) s1).heap a =
        { s.heap a with result := some r, endpos := some s.pos } := by
      show setHeap s1.heap a _ a = _
      rw [setHeap_self, hheap1, hpos1]
    have hpos2 : ∀ b, ((cacheSet a (some r) (some s1.pos) s1).heap b).pos = (s.heap b).pos := by
      intro b
      by_cases hb : b = a
      · subst hb; rw [hheapa]
      · rw [hheap2 b hb]
    have hid2 : ∀ b, ((cacheSet a (some r) (some s1.pos) s1).heap b).id = (s.heap b).id := by
      intro b
      by_cases hb : b = a
      · subst hb; rw [hheapa]
      · rw [hheap2 b hb]
    have hstk2 : (cacheSet a (some r) (some s1.pos) s1).stack = s.stack := he1.stack
    have hnx2 : (cacheSet a (some r) (some s1.pos) s1).next = s.next := hnext1
    have hlp2 : (env.trace.loop = true → env.trace.filterLine < 0) →
        (cacheSet a (some r) (some s1.pos) s1).loopStack = s.loopStack := he1.loop
    generalize cacheSet a (some r) (some s1.pos) s1 = s2 at *
    have hi3 : Inv env nn { s2 with pos := startPos } := by
      refine ⟨hl, hi2.table, hi2.frame, ?_, hi2.sorted⟩
      intro b hb
      refine ⟨(hi2.stack b hb).1, ?_⟩
      show (s2.heap b).pos ≤ startPos
      rw [hpos2]
      exact hst b (by rw [← hstk2]; exact hb)
    refine (hf _ hi3 (by show s2.stack.length = L; rw [hstk2]; exact hne)).bind ?_
    rintro ⟨r', s4⟩ ⟨hi4, he4, hc4⟩
    dsimp only at hi4 he4 hc4 ⊢
    have ha2 : a < s2.next := by rw [hnx2]; exact ha
    have hfe := he4.frame a ha2
    have hfin : GrowPost env nn a startPos s ((st, s1.pos, r), s4) := by
      refine ⟨hi4, he4.stack.trans hstk2, ?_, fun h => (he4.loop h).trans (hlp2 h), ?_, ?_, ?_, ?_, ?_,
        ?_, ?_, ?_, ?_, ?_⟩
      · have := he4.next; dsimp only at this ⊢; omega
      · intro b hb hba
        have := he4.frame b (by show b < s2.next; omega)
        rw [hheap2 b hba] at this
        exact this
      · exact hfe.st3 (by rw [hheapa]; exact h3)
      · exact hfe.pos.trans (hpos2 a)
      · exact hfe.id.trans (hid2 a)
      · have := (hfe.busy (by rw [hheapa]; show 1 ≤ (s.heap a).loopstage; omega)).1
        rw [this, hheapa]
      · have := (hfe.busy (by rw [hheapa]; show 1 ≤ (s.heap a).loopstage; omega)).2
        rw [this, hheapa, hpos1]
      · show startPos ≤ s1.pos; omega
      · exact hi1.pos
      · show _ → startPos < s1.pos
        rw [hpos1]; exact hnn
      · rw [hp] at hstash
        refine StashOk.mono hstash ?_ ?_
        · have := he4.next; dsimp only at this ⊢; omega
        · intro b hb
          have := he4.frame b (by show b < s2.next; omega)
          exact ⟨this.pos.trans (hpos2 b), this.id.trans (hid2 b)⟩
    split
    · exact hfin
    · rename_i hgt
      cases r' with
      | none => exact hfin
      | some v =>
        have hrec := growLoop_holds hs hf a startPos k v s4 hi4
          (by rw [he4.stack]; show s2.stack.length = L; rw [hstk2]; exact hne)
          (Nat.lt_of_lt_of_le ha2 he4.next)
          (hfe.st3 (by rw [hheapa]; exact h3))
          (by rw [hfe.pos, hpos2, hp])
          (by omega)
          (by rw [hfe.id, hid2]; exact hcons)
          (by rw [hfe.id, hid2]; intro hn; have := hnn hn; omega)
          (by
            intro b hb
            rw [he4.stack] at hb
            have hb2 : b ∈ s2.stack := hb
            have hlt := (hi2.stack b hb2).1
            rw [(he4.frame b hlt).pos]
            show (s2.heap b).pos ≤ startPos
            rw [hpos2]
            exact hst b (by rw [← hstk2]; exact hb2))
          (hk.imp_right fun h => by have := hi4.pos; omega)
        refine hrec.imp ?_
        rintro x hx
        refine ⟨hx.inv, hx.stack.trans (he4.stack.trans hstk2), ?_,
          fun h => (hx.loop h).trans ((he4.loop h).trans (hlp2 h)), ?_, hx.stage,
          hx.pos.trans (hfe.pos.trans (hpos2 a)), hx.id.trans (hfe.id.trans (hid2 a)),
          hx.result, hx.endpos, hx.lo, hx.hi, ?_, hx.stash⟩
        · have := he4.next; have := hx.next; dsimp only at *; omega
        · intro b hb hba
          have h1 := he4.frame b (by show b < s2.next; omega)
          have h2 := hx.frame b (by have := he4.next; dsimp only at this; omega) hba
          rw [hheap2 b hba] at h1
          exact h1.trans h2
        · intro hn
          refine hx.nn ?_
          rw [hfe.id, hid2]; exact hn

theorem loopify_holds {env : Env V H} {nn : Nat → Prop} {cons : Prop} {f : Run V H} {id : Nat}
    {body : Node} (hb : env.g.rules[id]? = some body)
    (hf : ∀ s, Inv env nn s → s.stack.length = L → (f s).Holds T (OkPanic env) (Post env nn cons s))
    (hcons : nn id → cons) (k : Nat) (hk : T ∨ env.st.len < k) (s : St V H) (hi : Inv env nn s) (hne : s.stack.length = L) :
    (loopify env k id body.info f s).Holds T (OkPanic env) (Post env nn (nn id) s) := by
  have hmem : body ∈ env.g.rules := List.mem_of_getElem? hb
  have hid : id < env.g.numRules := by
    have := List.getElem?_eq_some_iff.mp hb
    exact this.1
  have hsh : (env.trace.stack || body.info.debug) = true →
      env.trace.stack = true ∨ ∃ n ∈ env.g.rules, n.info.debug = true := by
    intro h
    rcases Bool.or_eq_true _ _ |>.mp h with h | h
    · exact Or.inl h
    · exact Or.inr ⟨body, hmem, h⟩
  unfold loopify
  generalize (env.trace.stack || body.info.debug) = sh at hsh
  refine (logIf_holds hsh s hi.pos).bind fun _ _ => ?_
  split
  · -- skipCache
    rename_i hsc
    refine (hf s hi hne).bind ?_
    rintro ⟨r, s1⟩ ⟨h1, h2, h3⟩
    have hp : Post env nn (nn id) s (r, s1) := ⟨h1, h2, fun h => h3 (hcons h)⟩
    dsimp only
    split
    · rename_i hs
      cases r with
      | none =>
        exact Or.inr (Or.inr (Or.inr (Or.inr (Or.inr (Or.inr (Or.inl ⟨hsh hs, ⟨body, hmem, hsc⟩, rfl⟩))))))
      | some v => exact (logHook_holds (hsh hs) s1 hp.1.pos).bind fun _ _ => hp
    · exact hp
  · obtain ⟨a, s1, hg, hi1, he1, hpos1, htab1⟩ := getFrame_ok hi hid
    rw [hg, Out.bind_ok]
    dsimp only
    obtain ⟨ha1, hap1, haid1, -, -⟩ := hi1.table _ _ _ htab1
    have hfa1 := hi1.frame a ha1
    have hne1 : s1.stack.length = L := by rw [he1.stack]; exact hne
    -- loopstage < 0 → 0
    have hstep : ∃ s2, (if (s1.heap a).loopstage < 0 then setStage a 0 s1 else s1) = s2 ∧
        Inv env nn s2 ∧ Ext env s1 s2 ∧ s2.pos = s1.pos ∧ s2.next = s1.next ∧
        0 ≤ (s2.heap a).loopstage ∧
        (s2.heap a).pos = (s1.heap a).pos ∧ (s2.heap a).id = (s1.heap a).id := by
      split
      · rename_i hneg
        refine ⟨_, rfl, hi1.upd a _ rfl rfl ?_, Ext.upd s1 a _ ?_, rfl, rfl, ?_, ?_, ?_⟩
        · exact ⟨by simp, by simp, hfa1.endpos, by simp, hfa1.result, hfa1.nn⟩
        · exact ⟨rfl, rfl, by simp, by simp; omega, by simp; omega, by simp; omega, by simp; omega,
            fun _ _ => ⟨rfl, rfl⟩, fun _ => ⟨rfl, rfl⟩, fun h => h⟩
        · show 0 ≤ (setHeap s1.heap a _ a).loopstage
          rw [setHeap_self]; simp
        · show (setHeap s1.heap a _ a).pos = _
          rw [setHeap_self]
        · show (setHeap s1.heap a _ a).id = _
          rw [setHeap_self]
      · exact ⟨s1, rfl, hi1, Ext.refl _ _, rfl, rfl, by omega, rfl, rfl⟩
    obtain ⟨s2, hs2, hi2, he2, hpos2, hnx2, hge2, hap2, haid2⟩ := hstep
    rw [hs2]
    have ha2 : a < s2.next := by omega
    have hfa2 := hi2.frame a ha2
    have he02 : Ext env s s2 := he1.trans he2
    have hne2 : s2.stack.length = L := by rw [he2.stack]; exact hne1
    have hap : (s2.heap a).pos = s.pos := by omega
    have haid : (s2.heap a).id = id := by omega
    rw [hpos1]
    split
    · rename_i hst0
      split
      · -- cache hit
        rename_i e hep
        have hle := hfa2.endpos e hep
        refine (logIf_holds hsh _ hi2.pos).bind fun _ _ => ?_
        rw [setPos_eq env hle.2, Out.bind_ok]
        obtain ⟨hx, hy⟩ := hi.reset hi2 he02 (p := e) (by omega) hle.2
        refine ⟨hx, hy, ?_⟩
        intro hn hr
        have := hfa2.nn e hr hep (by rw [haid]; exact hn)
        show s.pos < e
        omega
      · rename_i hep
        -- run the body
        have hi3 : Inv env nn (cacheSet a none none (setStage a 1 s2)) := by
          have : Inv env nn (setStage a 1 s2) := by
            refine hi2.upd a _ rfl rfl ?_
            exact ⟨by simp, by simp, hfa2.endpos, by simp, hfa2.result, hfa2.nn⟩
          refine this.upd a _ rfl rfl ?_
          have hk := this.frame a ha2
          exact ⟨hk.lo, hk.hi, by simp, hk.mask, by simp, by simp⟩
        have hheap3 : ∀ b, b ≠ a → (cacheSet a none none (setStage a 1 s2)).heap b = s2.heap b := by
          intro b hb
          show setHeap (setHeap s2.heap a _) a _ b = _
          rw [setHeap_ne _ _ hb, setHeap_ne _ _ hb]
        have hheapa : (cacheSet a none none (setStage a 1 s2)).heap a =
            { s2.heap a with loopstage := 1, result := none, endpos := none } := by
          show setHeap (setHeap s2.heap a _) a _ a = _
          rw [setHeap_self, show (setStage a 1 s2).heap a = { s2.heap a with loopstage := 1 } from
            setHeap_self _ _ _]
        have hstk3 : (cacheSet a none none (setStage a 1 s2)).stack = s2.stack := rfl
        have hnx3 : (cacheSet a none none (setStage a 1 s2)).next = s2.next := rfl
        have hpos3 : (cacheSet a none none (setStage a 1 s2)).pos = s2.pos := rfl
        have hlp3 : (cacheSet a none none (setStage a 1 s2)).loopStack = s2.loopStack := rfl
        generalize cacheSet a none none (setStage a 1 s2) = s3 at *
        refine (hf s3 hi3 (by rw [hstk3]; exact hne2)).bind ?_
        rintro ⟨r, s4⟩ ⟨hi4, he4, hc4⟩
        dsimp only at hi4 he4 hc4 ⊢
        have ha3 : a < s3.next := by omega
        have ha4 : a < s4.next := Nat.lt_of_lt_of_le ha3 he4.next
        have hfe := he4.frame a ha3
        have hst3 : (s3.heap a).loopstage = 1 := by rw [hheapa]
        have hbusy := hfe.busy (by omega)
        have hapos4 : (s4.heap a).pos = s.pos := by rw [hfe.pos, hheapa]; exact hap
        have haid4 : (s4.heap a).id = id := by rw [hfe.id, hheapa]; exact haid
        have hres4 : (s4.heap a).result = none := by rw [hbusy.1, hheapa]
        have hep4 : (s4.heap a).endpos = none := by rw [hbusy.2, hheapa]
        have hfa4 := hi4.frame a ha4
        have hmask4 : (s2.heap a).wipemask.isSome → (s4.heap a).wipemask.isSome := by
          intro h; exact hfe.mask (by rw [hheapa]; exact h)
        have hp4 : s.pos ≤ s4.pos := by have := he4.pos; omega
        -- extension up to the frame `a`
        have hother : ∀ b, b < s.next → b ≠ a → FrameExt (s.heap b) (s4.heap b) := by
          intro b hb hba
          have h1 := he02.frame b hb
          have h2 := he4.frame b (by have := he02.next; omega)
          rw [hheap3 b hba] at h2
          exact h1.trans h2
        have hstk4 : s4.stack = s.stack := by rw [he4.stack, hstk3, he02.stack]
        have hnx4 : s.next ≤ s4.next := by have := he02.next; have := he4.next; omega
        have hlp4 : (env.trace.loop = true → env.trace.filterLine < 0) → s4.loopStack = s.loopStack := by
          intro h; rw [he4.loop h, hlp3, he02.loop h]
        have hold : a < s.next → (s.heap a).loopstage ≤ 0 ∧ ((s.heap a).endpos.isSome → False) ∧
            ((s.heap a).wipemask.isSome → (s4.heap a).wipemask.isSome) := by
          intro has
          have h1 := he02.frame a has
          refine ⟨?_, ?_, fun h => hmask4 (h1.mask h)⟩
          · have := h1.ge1
            omega
          · intro hs
            have hle : (s.heap a).loopstage ≤ 0 := by
              have := h1.ge1
              omega
            have := (h1.done hle hs).2
            rw [hep] at this
            rw [← this] at hs
            simp at hs
        -- any final frame value at `a` with stage 0 gives an extension
        have hext : ∀ s5 : St V H, s5.next = s4.next → s.pos ≤ s5.pos → s5.stack = s4.stack →
            ((env.trace.loop = true → env.trace.filterLine < 0) → s5.loopStack = s.loopStack) →
            (∀ b, b < s.next → b ≠ a → FrameExt (s.heap b) (s5.heap b)) → (s5.heap a).pos = (s4.heap a).pos →
            (s5.heap a).id = (s4.heap a).id → (s5.heap a).loopstage ≤ 0 →
            ((s4.heap a).wipemask.isSome → (s5.heap a).wipemask.isSome) → Ext env s s5 := by
          intro s5 h1 h2 h3 h4 h5 h6 h7 h8 h9
          refine ⟨by omega, h2, h3.trans hstk4, h4, ?_⟩
          intro b hb
          by_cases hba : b = a
          · subst hba
            have ho := hold hb
            have hh := he02.frame b hb
            refine ⟨by rw [h6, hapos4, ← hap, hh.pos], by rw [h7, haid4, ← haid, hh.id], fun _ => h8,
              ?_, ?_, ?_, ?_, fun _ h => (ho.2.1 h).elim, ?_, fun h => h9 (ho.2.2 h)⟩
            all_goals intro h; omega
          · exact h5 b hb hba
        split
        · -- stage 1: done
          refine (logIf_holds hsh _ hi4.pos).bind fun _ _ => ?_
          have hi5 : Inv env nn (cacheSet a r (some (setStage a 0 s4).pos) (setStage a 0 s4)) := by
            have hi5 : Inv env nn (setStage a 0 s4) := by
              refine hi4.upd a _ rfl rfl ?_
              exact ⟨by simp, by simp, hfa4.endpos, by simp, hfa4.result, hfa4.nn⟩
            refine hi5.upd a _ rfl rfl ?_
            have hk := hi5.frame a ha4
            have hpk : ((setStage a 0 s4).heap a).pos = s.pos := by
              show (setHeap s4.heap a _ a).pos = _
              rw [setHeap_self]; exact hapos4
            have hik : ((setStage a 0 s4).heap a).id = id := by
              show (setHeap s4.heap a _ a).id = _
              rw [setHeap_self]; exact haid4
            refine ⟨hk.lo, hk.hi, ?_, hk.mask, fun _ => rfl, ?_⟩
            · intro e he
              injection he with he
              subst he
              dsimp only
              rw [hpk]
              exact ⟨hp4, hi4.pos⟩
            · intro e hr he hn
              injection he with he
              subst he
              dsimp only at hr hn ⊢
              rw [hik] at hn
              rw [hpk]
              have := hc4 (hcons hn) hr
              show s.pos < s4.pos
              omega
          have hheap5 : (cacheSet a r (some (setStage a 0 s4).pos) (setStage a 0 s4)).heap a =
              { s4.heap a with loopstage := 0, result := r, endpos := some s4.pos } := by
            show setHeap (setHeap s4.heap a _) a _ a = _
            rw [setHeap_self, show (setStage a 0 s4).heap a = { s4.heap a with loopstage := 0 } from
              setHeap_self _ _ _]
            rfl
          refine ⟨hi5, hext _ rfl hp4 rfl hlp4 ?_ ?_ ?_ ?_ ?_, ?_⟩
          · intro b hb hba
            show FrameExt _ (setHeap (setHeap s4.heap a _) a _ b)
            rw [setHeap_ne _ _ hba, setHeap_ne _ _ hba]
            exact hother b hb hba
          · exact (congrArg Frame.pos hheap5).trans rfl
          · exact (congrArg Frame.id hheap5).trans rfl
          · exact Int.le_of_eq (congrArg Frame.loopstage hheap5)
          · have hw := congrArg Frame.wipemask hheap5
            intro h
            exact (congrArg Option.isSome hw).trans h
          · intro hn hr
            have := hc4 (hcons hn) hr
            show s.pos < s4.pos
            omega
        · split
          · rename_i hst2
            cases r with
            | none =>
              refine (logIf_holds hsh _ hi4.pos).bind fun _ _ => ?_
              refine ⟨?_, hext _ rfl hp4 rfl hlp4 ?_ ?_ ?_ ?_ ?_, fun _ h => by simp at h⟩
              · show Inv env nn (setStage a 0 s4)
                refine hi4.upd a _ rfl rfl ?_
                exact ⟨by simp, by simp, hfa4.endpos, by simp, hfa4.result, hfa4.nn⟩
              · intro b hb hba
                show FrameExt _ (setHeap s4.heap a _ b)
                rw [setHeap_ne _ _ hba]
                exact hother b hb hba
              · show (setHeap s4.heap a _ a).pos = _
                rw [setHeap_self]
              · show (setHeap s4.heap a _ a).id = _
                rw [setHeap_self]
              · show (setHeap s4.heap a _ a).loopstage ≤ 0
                rw [setHeap_self]; simp
              · show _ → (setHeap s4.heap a _ a).wipemask.isSome
                rw [setHeap_self]; exact fun h => h
            | some v =>
              have hi5 : Inv env nn (setStage a 3 s4) := by
                refine hi4.upd a _ rfl rfl ?_
                exact ⟨by simp, by simp, hfa4.endpos, fun _ => hfa4.mask (by omega), hfa4.result, hfa4.nn⟩
              dsimp only
              have hpush : ∃ s6 : St V H, (if (env.trace.loop && (decide (env.trace.filterLine < 0) ||
                    env.st.line (setStage a 3 s4).pos == env.trace.filterLine)) = true
                  then { setStage a 3 s4 with loopStack := body.info.name :: (setStage a 3 s4).loopStack }
                  else setStage a 3 s4) = s6 ∧ Inv env nn s6 ∧ s6.heap = (setStage a 3 s4).heap ∧
                  s6.pos = s4.pos ∧ s6.next = s4.next ∧ s6.stack = s4.stack ∧
                  (env.trace.loop = true → env.trace.filterLine < 0 →
                    s6.loopStack = body.info.name :: s4.loopStack) ∧
                  (env.trace.loop = false → s6.loopStack = s4.loopStack) := by
                split
                · rename_i hc
                  refine ⟨_, rfl, ⟨hi5.pos, hi5.table, hi5.frame, hi5.stack, hi5.sorted⟩, rfl, rfl, rfl, rfl,
                    fun _ _ => rfl, ?_⟩
                  intro h; rw [h] at hc; simp at hc
                · rename_i hc
                  refine ⟨_, rfl, hi5, rfl, rfl, rfl, rfl, ?_, fun _ => rfl⟩
                  intro h1 h2
                  exact absurd (by simp [h1, h2]) hc
              obtain ⟨s6, hs6, hi6, hheap6, hpos6, hnx6, hstk6, hlp6, hlp6'⟩ := hpush
              rw [hs6]
              have hheap6a : s6.heap a = { s4.heap a with loopstage := 3 } := by
                rw [hheap6]; exact setHeap_self _ _ _
              have hheap6b : ∀ b, b ≠ a → s6.heap b = s4.heap b := by
                intro b hb; rw [hheap6]; exact setHeap_ne _ _ hb
              have hpos6b : ∀ b, (s6.heap b).pos = (s4.heap b).pos := by
                intro b
                by_cases hb : b = a
                · subst hb; rw [hheap6a]
                · rw [hheap6b b hb]
              refine (growLoop_holds hsh hf a s.pos k v s6 hi6 (by rw [hstk6, hstk4]; exact hne)
                (by omega) (by rw [hheap6a]) (by rw [hheap6a]; exact hapos4) (by omega)
                (by rw [hheap6a]; show nn (s4.heap a).id → _; rw [haid4]; exact hcons)
                (by
                  rw [hheap6a]; show nn (s4.heap a).id → _; rw [haid4]
                  intro hn; have := hc4 (hcons hn) rfl; omega)
                (by
                  intro b hb
                  rw [hstk6, hstk4] at hb
                  have hbs := hi.stack b hb
                  rw [hpos6b]
                  by_cases hba : b = a
                  · subst hba; omega
                  · rw [(hother b hbs.1 hba).pos]; exact hbs.2)
                (hk.imp_right fun h => by omega)).bind ?_
              rintro ⟨⟨bst, bep, br⟩, s7⟩ hg
              have hg1 := hg.inv; have hg2 := hg.stack; have hg3 := hg.next; have hg4 := hg.loop
              have hg5 := hg.frame; have hg6 := hg.stage; have hg7 := hg.pos; have hg8 := hg.id
              have hg9 := hg.result; have hg10 := hg.endpos; have hg11 := hg.lo; have hg12 := hg.hi
              have hg13 := hg.nn; have hg14 := hg.stash
              dsimp only at hg1 hg2 hg3 hg4 hg5 hg6 hg7 hg8 hg9 hg10 hg11 hg12 hg13 hg14 ⊢
              -- pop the loop stack
              refine Out.Holds.bind (Q := fun s8 : St V H => Inv env nn s8 ∧ s8.heap = s7.heap ∧
                s8.next = s7.next ∧ s8.stack = s7.stack ∧
                ((env.trace.loop = true → env.trace.filterLine < 0) → s8.loopStack = s.loopStack)) ?_ ?_
              · split
                · rename_i hlp
                  split
                  · rename_i hnil
                    by_cases hfl : env.trace.filterLine < 0
                    · rw [hg4 (fun _ => hfl), hlp6 hlp hfl] at hnil
                      simp at hnil
                    · exact Or.inr (Or.inr (Or.inr (Or.inr (Or.inr (Or.inr (Or.inr ⟨hlp, by omega, rfl⟩))))))
                  · rename_i nm l hl
                    refine ⟨⟨hg1.pos, hg1.table, hg1.frame, hg1.stack, hg1.sorted⟩, rfl, rfl, rfl, ?_⟩
                    intro h
                    have h7 := hg4 h
                    rw [hlp6 hlp (h hlp), hl] at h7
                    injection h7 with _ h7
                    show l = _
                    rw [h7, hlp4 h]
                · rename_i hlp
                  refine ⟨hg1, rfl, rfl, rfl, ?_⟩
                  intro h
                  rw [hg4 h, hlp6' (by simpa using hlp), hlp4 h]
              rintro s8 ⟨hi8, hheap8, hnx8, hstk8, hlp8⟩
              have ha8 : a < s8.next := by omega
              have hfa8 := hi8.frame a ha8
              obtain ⟨st9, s9, hw9, hi9, he9, hpos9, hheap9, hnx9, -⟩ :=
                wipeWith_ok hi8 (hfa8.mask (by rw [hheap8]; omega))
              rw [hw9, Out.bind_ok]
              dsimp only
              have hst9 : StashOk s9 s.pos bst env.g.numRules := by
                refine StashOk.mono hg14 (by omega) ?_
                intro b _
                rw [hheap9, hheap8]
                exact ⟨rfl, rfl⟩
              have hi10 := restoreWith_ok hi9 hi.pos hst9
              rw [setPos_eq env hg12, Out.bind_ok]
              refine (logIf_holds hsh _ hg12).bind fun _ _ => ?_
              have hi11 : Inv env nn { restoreWith bst s9 with pos := bep } := by
                refine ⟨hg12, hi10.table, hi10.frame, ?_, hi10.sorted⟩
                intro b hb
                have hb' : b ∈ s.stack := by
                  have : (restoreWith bst s9).stack = s9.stack := rfl
                  dsimp only at hb
                  rw [this, he9.stack, hstk8, hg2, hstk6, hstk4] at hb
                  exact hb
                refine ⟨(hi10.stack b hb).1, ?_⟩
                show (s9.heap b).pos ≤ bep
                rw [hheap9, hheap8]
                have hbs := hi.stack b hb'
                by_cases hba : b = a
                · subst hba; rw [hg7, hpos6b, hapos4]; exact hg11
                · rw [(hg5 b (by omega) hba).pos, hpos6b, (hother b hbs.1 hba).pos]; omega
              have hheap11 : ∀ b, ({ restoreWith bst s9 with pos := bep } : St V H).heap b = s7.heap b := by
                intro b
                show s9.heap b = _
                rw [hheap9, hheap8]
              have hnx11 : ({ restoreWith bst s9 with pos := bep } : St V H).next = s7.next := by
                show s9.next = _
                omega
              have hstk11 : ({ restoreWith bst s9 with pos := bep } : St V H).stack = s4.stack := by
                show s9.stack = _
                rw [he9.stack, hstk8, hg2, hstk6]
              have hlp11 : (env.trace.loop = true → env.trace.filterLine < 0) →
                  ({ restoreWith bst s9 with pos := bep } : St V H).loopStack = s.loopStack := by
                intro h
                show s9.loopStack = _
                rw [he9.loop h, hlp8 h]
              have hpos11 : ({ restoreWith bst s9 with pos := bep } : St V H).pos = bep := rfl
              generalize ({ restoreWith bst s9 with pos := bep } : St V H) = s11 at *
              have hi12 : Inv env nn (setStage a 0 s11) := by
                refine hi11.upd a _ rfl rfl ?_
                have hk := hi11.frame a (by omega)
                exact ⟨by simp, by simp, hk.endpos, by simp, hk.result, hk.nn⟩
              have hheap12a : (setStage a 0 s11).heap a = { s7.heap a with loopstage := 0 } := by
                show setHeap s11.heap a _ a = _
                rw [setHeap_self, hheap11]
              refine ⟨hi12, ?_, ?_⟩
              · refine ⟨?_, ?_, ?_, hlp11, ?_⟩
                · show s.next ≤ s11.next; omega
                · show s.pos ≤ s11.pos; omega
                · show s11.stack = _; rw [hstk11, hstk4]
                · intro b hb
                  by_cases hba : b = a
                  · subst hba
                    have ho := hold hb
                    have hh := he02.frame b hb
                    show FrameExt _ ((setStage b 0 s11).heap b)
                    rw [hheap12a]
                    have hmask : (s7.heap b).wipemask.isSome := (hg1.frame b (by omega)).mask (by omega)
                    refine ⟨?_, ?_, fun _ => by simp, ?_, ?_, ?_, ?_, fun _ h => (ho.2.1 h).elim, ?_, fun _ => hmask⟩
                    · show (s7.heap b).pos = _
                      rw [hg7, hpos6b, hapos4, ← hap, hh.pos]
                    · show (s7.heap b).id = _
                      rw [hg8, hheap6a]
                      show (s4.heap b).id = _
                      rw [haid4, ← haid, hh.id]
                    all_goals intro h; omega
                  · show FrameExt _ (setHeap s11.heap a _ b)
                    rw [setHeap_ne _ _ hba, hheap11]
                    have h1 := hother b hb hba
                    have h2 := hg5 b (by omega) hba
                    rw [hheap6b b hba] at h2
                    exact h1.trans h2
              · intro hn _
                show s.pos < s11.pos
                rw [hpos11]
                refine hg13 ?_
                rw [hheap6a]
                show nn (s4.heap a).id
                rw [haid4]; exact hn
          · -- no other stage is possible
            exfalso
            rcases hfe.st1 hst3 with h | h <;> contradiction
    · rename_i hst0
      split
      · -- recursion
        rename_i hst
        have hstep3 : ∃ s3, (if (s2.heap a).loopstage = 1 then setStage a 2 s2 else s2) = s3 ∧
            (∀ b, b ≠ a → s3.heap b = s2.heap b) ∧
            s3.pos = s2.pos ∧ s3.next = s2.next ∧ s3.stack = s2.stack ∧ s3.loopStack = s2.loopStack ∧
            s3.table = s2.table ∧
            (s3.heap a).result = (s2.heap a).result ∧ (s3.heap a).endpos = (s2.heap a).endpos ∧
            (s3.heap a).pos = (s2.heap a).pos ∧ (s3.heap a).id = (s2.heap a).id ∧
            (s3.heap a).wipemask = (s2.heap a).wipemask ∧
            2 ≤ (s3.heap a).loopstage ∧ (s3.heap a).loopstage ≤ 3 ∧
            ((s2.heap a).loopstage = 1 → (s3.heap a).loopstage = 2) ∧
            ((s2.heap a).loopstage ≠ 1 → (s3.heap a).loopstage = (s2.heap a).loopstage) := by
          split
          · rename_i h1
            have : (setStage a 2 s2).heap a = { s2.heap a with loopstage := 2 } := setHeap_self _ _ _
            refine ⟨_, rfl, fun b hb => setHeap_ne _ _ hb, rfl, rfl, rfl, rfl, rfl, ?_⟩
            rw [this]
            simp [h1]
          · exact ⟨s2, rfl, fun _ _ => rfl, rfl, rfl, rfl, rfl, rfl, rfl, rfl, rfl, rfl, rfl, by omega, by omega,
              fun h => absurd h ‹_›, fun _ => rfl⟩
        obtain ⟨s3, hs3, hoth3, hpos3, hnx3, hstk3, hlp3, htb3, hr3, he3, hp3, hid3, hm3, h2le, hle3, hs12, hs11⟩ := hstep3
        rw [hs3]
        refine (logIf_holds hsh _ (by rw [hpos3]; exact hi2.pos)).bind fun _ _ => ?_
        have hpos3b : ∀ b, (s3.heap b).pos = (s2.heap b).pos := by
          intro b
          by_cases hb : b = a
          · subst hb; exact hp3
          · rw [hoth3 b hb]
        have hid3b : ∀ b, (s3.heap b).id = (s2.heap b).id := by
          intro b
          by_cases hb : b = a
          · subst hb; exact hid3
          · rw [hoth3 b hb]
        have hcm : ∀ b ∈ s3.stack.tail, (s3.heap b).pos ≤ s.pos := by
          intro b hb
          have hb' := List.mem_of_mem_tail hb
          rw [hstk3] at hb'
          rw [hpos3b]
          have := (hi2.stack b hb').2
          omega
        obtain ⟨m, hm⟩ := collectMask_ok s3.heap s.pos id s3.stack.tail
          ((s3.heap a).wipemask.getD fun _ => false) hcm
        rw [hm, Out.bind_ok]
        have hua : (updFrame a (fun f => { f with wipemask := some m }) s3).heap a =
            { s3.heap a with wipemask := some m } := setHeap_self _ _ _
        have hi4 : Inv env nn (updFrame a (fun f => { f with wipemask := some m }) s3) := by
          have hpk : ∀ b, ((updFrame a (fun f => { f with wipemask := some m }) s3).heap b).pos = (s2.heap b).pos := by
            intro b
            by_cases hb : b = a
            · subst hb; rw [hua]; exact hp3
            · show (setHeap s3.heap a _ b).pos = _
              rw [setHeap_ne _ _ hb, hoth3 b hb]
          have hik : ∀ b, ((updFrame a (fun f => { f with wipemask := some m }) s3).heap b).id = (s2.heap b).id := by
            intro b
            by_cases hb : b = a
            · subst hb; rw [hua]; exact hid3
            · show (setHeap s3.heap a _ b).id = _
              rw [setHeap_ne _ _ hb, hoth3 b hb]
          refine ⟨?_, ?_, ?_, ?_, ?_⟩
          · show s3.pos ≤ _; rw [hpos3]; exact hi2.pos
          · intro p i b hb
            have hb' : s2.table p i = some b := by rw [← htb3]; exact hb
            have := hi2.table p i b hb'
            rw [hpk, hik]
            show b < s3.next ∧ _
            rw [hnx3]; exact this
          · intro b hb
            have hb' : b < s2.next := by rw [← hnx3]; exact hb
            by_cases hba : b = a
            · subst hba
              rw [hua]
              refine ⟨by show -1 ≤ (s3.heap b).loopstage; omega, hle3, ?_, fun _ => rfl, ?_, ?_⟩
              · show ∀ e, (s3.heap b).endpos = some e → (s3.heap b).pos ≤ e ∧ _
                rw [he3, hp3]; exact hfa2.endpos
              · show (s3.heap b).result.isSome → (s3.heap b).endpos.isSome
                rw [hr3, he3]; exact hfa2.result
              · show ∀ e, (s3.heap b).result.isSome → (s3.heap b).endpos = some e → nn (s3.heap b).id → (s3.heap b).pos < e
                rw [hr3, he3, hid3, hp3]; exact hfa2.nn
            · show FrameOk _ _ (setHeap s3.heap a _ b)
              rw [setHeap_ne _ _ hba, hoth3 b hba]
              exact hi2.frame b hb'
          · intro b hb
            have hb' : b ∈ s2.stack := by rw [← hstk3]; exact hb
            rw [hpk]
            show b < s3.next ∧ _ ≤ s3.pos
            rw [hnx3, hpos3]
            exact hi2.stack b hb'
          · have hs' := hi2.sorted
            rw [← hstk3] at hs'
            refine List.Pairwise.imp ?_ hs'
            intro x y hxy
            rw [hpk, hpk]; exact hxy
        have he4 : Ext env s (updFrame a (fun f => { f with wipemask := some m }) s3) := by
          refine ⟨?_, ?_, ?_, ?_, ?_⟩
          · show s.next ≤ s3.next; have := he02.next; omega
          · show s.pos ≤ s3.pos; omega
          · show s3.stack = _; rw [hstk3, he02.stack]
          · intro h; show s3.loopStack = _; rw [hlp3, he02.loop h]
          · intro b hb
            have h1 := he02.frame b hb
            refine h1.trans ?_
            by_cases hba : b = a
            · subst hba
              rw [hua]
              refine ⟨hp3, hid3, ?_, ?_, ?_, ?_, ?_, ?_, fun _ => ⟨hr3, he3⟩, fun _ => rfl⟩
              · intro h; omega
              · intro h; exact Or.inr (hs12 h)
              · intro h; show (s3.heap b).loopstage = 2; rw [hs11 (by omega)]; exact h
              · intro h; show (s3.heap b).loopstage = 3; rw [hs11 (by omega)]; exact h
              · intro h; show 1 ≤ (s3.heap b).loopstage; omega
              · intro h; omega
            · show FrameExt _ (setHeap s3.heap a _ b)
              rw [setHeap_ne _ _ hba, hoth3 b hba]
              exact FrameExt.refl _
        have hrr : ((updFrame a (fun f => { f with wipemask := some m }) s3).heap a).result = (s2.heap a).result := by
          rw [hua]; exact hr3
        have hee : ((updFrame a (fun f => { f with wipemask := some m }) s3).heap a).endpos = (s2.heap a).endpos := by
          rw [hua]; exact he3
        generalize updFrame a (fun f => { f with wipemask := some m }) s3 = s4 at *
        rw [hrr]
        split
        · rename_i e hep
          rw [hee] at hep
          have hle := hfa2.endpos e hep
          rw [setPos_eq env hle.2, Out.bind_ok]
          obtain ⟨hx, hy⟩ := hi.reset hi4 he4 (p := e) (by omega) hle.2
          refine ⟨hx, hy, ?_⟩
          intro hn hr
          have := hfa2.nn e hr hep (by rw [haid]; exact hn)
          show s.pos < e
          omega
        · rename_i hep
          rw [hee] at hep
          refine ⟨hi4, he4, ?_⟩
          intro _ hr
          have := hfa2.result hr
          rw [hep] at this
          simp at this
      · exfalso
        have := hfa2.hi
        omega

end Joeson
