import Verif.Proofs.Peg2
import Verif.Proofs.SimRules
import Verif.Proofs.LeftRec
/-! # The engine refines `lpeg`: the memo table under direct left recursion -/

namespace Joeson
variable {V H : Type}

/-- No rule was found between a left recursive call and its rule: nothing to wipe. -/
def NoMask (f : Frame V) : Prop := ∀ m, f.wipemask = some m → ∀ i, m i = false

/-- The memo table is correct. -/
structure MemoL (E : PegEnv V) (env : Env V H) (s : St V H) : Prop where
  inv : Inv env (fun _ => False) s
  mask : ∀ p i a, s.table p i = some a → NoMask (s.heap a)
  good : ∀ p i a, s.table p i = some a → (s.heap a).loopstage ≤ 0 → ∀ e, (s.heap a).endpos = some e →
    ∃ k d, lpeg E k d none (.rule i) 0 p = .ok ((s.heap a).result.map (·, e))

/-- The rules in progress have no meaning within the bounds: otherwise they would call themselves
through another rule. -/
def BusyOof (E : PegEnv V) (k d : Nat) (s : St V H) : Prop :=
  ∀ p i a, s.table p i = some a → 1 ≤ (s.heap a).loopstage → lpeg E k d none (.rule i) 0 p = .oof

/-- What a parser call does to the memo table. -/
structure NextL (E : PegEnv V) (env : Env V H) (s s' : St V H) : Prop where
  ext : Ext env s s'
  memo : MemoL E env s → MemoL E env s'
  keep : ∀ p i a, s.table p i = some a → s'.table p i = some a
  busy : ∀ p i a, s'.table p i = some a → 1 ≤ (s'.heap a).loopstage →
    s.table p i = some a ∧ 1 ≤ (s.heap a).loopstage

/-- The memo entry holds the seed. -/
def SeedOk (f : Frame V) : Seed V → Prop
  | .unknown => False
  | .known none => (f.loopstage = 1 ∨ f.loopstage = 2) ∧ f.result = none ∧ f.endpos = none
  | .known (some (v, e)) => f.loopstage = 3 ∧ f.result = some v ∧ f.endpos = some e

/-- The rule being parsed started at `q`, and is the one of the context. -/
def TopCtx (env : Env V H) (s : St V H) (c : Ctx V) (q : Nat) : Prop :=
  ∃ top rest, s.stack = top :: rest ∧ (s.heap top).pos = q ∧
    match c with
    | none => True
    | some (id, x) => (s.heap top).id = id ∧ s.table q id = some top ∧ SeedOk (s.heap top) x ∧
        ∃ body, env.g.rules[id]? = some body ∧ body.info.skipCache = false

/-- The context in which left recursive calls have no answer. -/
def Ctx.low : Ctx V → Ctx V
  | none => none
  | some (id, _) => some (id, .unknown)

theorem Ctx.low_le : ∀ c : Ctx V, Ctx.le c.low c
  | none => trivial
  | some (_, x) => ⟨rfl, Seed.unknown_le x⟩

/-- The invariant while a rule is parsed. -/
structure ML (E : PegEnv V) (env : Env V H) (B : Prop) (k d : Nat) (c : Ctx V) (q : Nat) (s : St V H) : Prop where
  memo : MemoL E env s
  busy : BusyOof E k d s
  top : TopCtx env s c q
  depth : B ∨ s.stack.length + d ≤ stackCap

/-- The rule being parsed was called left recursively. -/
def HitTop (s : St V H) : Prop := ∃ a l, s.stack = a :: l ∧ (s.heap a).loopstage ≠ 1

section
variable {E : PegEnv V} {env : Env V H} {B : Prop} {k d q : Nat} {c : Ctx V}

theorem BusyOof.mono {k' d' : Nat} {s : St V H} (hk : k' ≤ k) (hd : d' ≤ d) (h : BusyOof E k d s) :
    BusyOof E k' d' s := fun p i a ha h1 => by
  rcases lpeg_mono E k' k d' d none none hk hd trivial (.rule i) 0 p with h' | h'
  · exact h'
  · rw [h']; exact h p i a ha h1

theorem NextL.refl (s : St V H) : NextL E env s s :=
  ⟨Ext.refl _ _, fun h => h, fun _ _ _ h => h, fun _ _ _ h h' => ⟨h, h'⟩⟩

theorem NextL.trans {s t u : St V H} (a : NextL E env s t) (b : NextL E env t u) : NextL E env s u :=
  ⟨a.ext.trans b.ext, fun h => b.memo (a.memo h), fun p i x h => b.keep p i x (a.keep p i x h),
    fun p i x h h' => by obtain ⟨h, h'⟩ := b.busy p i x h h'; exact a.busy p i x h h'⟩

theorem NextL.reset {s s' : St V H} (a : NextL E env s s') {p : Nat} (hp : s.pos ≤ p) (hl : p ≤ env.st.len) :
    NextL E env s { s' with pos := p } := by
  refine ⟨⟨a.ext.next, hp, a.ext.stack, a.ext.loop, a.ext.frame⟩, fun h => ?_, a.keep, a.busy⟩
  have hm := a.memo h
  exact ⟨(h.inv.reset hm.inv a.ext hp hl).1, hm.mask, hm.good⟩

theorem NextL.aux (s : St V H) (n : Nat) (h : H) (l : List Call) :
    NextL E env s { s with counter := n, h := h, calls := l } :=
  ⟨⟨Nat.le_refl _, Nat.le_refl _, rfl, fun _ => rfl, fun _ _ => FrameExt.refl _⟩,
    fun h => ⟨⟨h.inv.pos, h.inv.table, h.inv.frame, h.inv.stack, h.inv.sorted⟩, h.mask, h.good⟩,
    fun _ _ _ h => h, fun _ _ _ h h' => ⟨h, h'⟩⟩

theorem BusyOof.next {s s' : St V H} (h : BusyOof E k d s) (hn : NextL E env s s') : BusyOof E k d s' :=
  fun p i a ha h1 => by
    obtain ⟨h2, h3⟩ := hn.busy p i a ha h1
    exact h p i a h2 h3

theorem SeedOk.ext {f f' : Frame V} {x : Seed V} (h : SeedOk f x) (e : FrameExt f f') : SeedOk f' x := by
  match x, h with
  | .known none, ⟨h1, h2, h3⟩ =>
    have hb := e.busy (by omega)
    refine ⟨?_, hb.1.trans h2, hb.2.trans h3⟩
    rcases h1 with h | h
    · exact e.st1 h
    · exact Or.inr (e.st2 h)
  | .known (some (v, p)), ⟨h1, h2, h3⟩ =>
    have hb := e.busy (by omega)
    exact ⟨e.st3 h1, hb.1.trans h2, hb.2.trans h3⟩

theorem TopCtx.next {s s' : St V H} (h : TopCtx env s c q) (hm : MemoL E env s) (hn : NextL E env s s') :
    TopCtx env s' c q := by
  obtain ⟨top, rest, h1, h2, h3⟩ := h
  have he := hn.ext.frame top (hm.inv.stack top (by rw [h1]; simp)).1
  refine ⟨top, rest, hn.ext.stack.trans h1, he.pos.trans h2, ?_⟩
  match c, h3 with
  | none, _ => trivial
  | some (id, x), ⟨h4, h5, h6, h7⟩ => exact ⟨he.id.trans h4, hn.keep _ _ _ h5, h6.ext he, h7⟩

theorem ML.next {s s' : St V H} (h : ML E env B k d c q s) (hn : NextL E env s s') : ML E env B k d c q s' :=
  ⟨hn.memo h.memo, h.busy.next hn, h.top.next h.memo hn, by rw [hn.ext.stack]; exact h.depth⟩

theorem ML.mono {k' : Nat} {s : St V H} (hk : k' ≤ k) (h : ML E env B k d c q s) : ML E env B k' d c q s :=
  ⟨h.memo, h.busy.mono hk (Nat.le_refl _), h.top, h.depth⟩

theorem HitTop.next {s s' : St V H} (hi : Inv env (fun _ => False) s) (h : HitTop s) (hn : NextL E env s s') :
    HitTop s' := by
  obtain ⟨a, l, h1, h2⟩ := h
  have ha := (hi.stack a (by rw [h1]; simp)).1
  have he := hn.ext.frame a ha
  refine ⟨a, l, hn.ext.stack.trans h1, ?_⟩
  have hf := hi.frame a ha
  have hlo := hf.lo
  have hhi := hf.hi
  by_cases h0 : (s.heap a).loopstage ≤ 0
  · have := he.st0 h0; omega
  · rcases (by omega : (s.heap a).loopstage = 2 ∨ (s.heap a).loopstage = 3) with h | h
    · rw [he.st2 h]; omega
    · rw [he.st3 h]; omega

/-- The setting for the operators inside a rule. -/
theorem ML.setup : SimSetup env (ML E env B k d c q) (NextL E env) HitTop where
  refl := NextL.refl
  trans := NextL.trans
  reset _ hn hp hl := hn.reset hp hl
  aux s n h l := NextL.aux s n h l
  keep h hn := h.next hn
  pos h := h.memo.inv.pos
  hit h hh hn := hh.next h.memo.inv hn
  hitPos h := h

theorem ML.topPos {s : St V H} (h : ML E env B k d c q s) : TopPos s q := by
  obtain ⟨top, rest, h1, h2, -⟩ := h.top
  exact ⟨top, rest, h1, h2⟩

/-- Creating the memo entry. -/
theorem getFrame_nextL {s : St V H} (hi : Inv env (fun _ => False) s) {id : Nat} (hid : id < env.g.numRules) :
    ∃ a s1, getFrame env id s = .ok (a, s1) ∧ NextL E env s s1 ∧ s1.pos = s.pos ∧
      s1.table s.pos id = some a ∧ s1.stack = s.stack := by
  have h0 := fun (h : Inv env (fun _ => False) s) => getFrame_ok h hid
  unfold getFrame at *
  rw [if_pos ⟨hi.pos, hid⟩] at *
  cases ht : s.table s.pos id with
  | some a => exact ⟨a, s, rfl, NextL.refl _, rfl, ht, rfl⟩
  | none =>
    rw [ht] at h0
    refine ⟨_, _, rfl, ?_, rfl, by simp [setTable], rfl⟩
    obtain ⟨a, s1, h1, h2, h3, h4, h5⟩ := h0 hi
    have hlt : ∀ p i b, s.table p i = some b →
        setHeap s.heap s.next (newFrame V s.pos id) b = s.heap b := fun p i b hb =>
      setHeap_ne _ _ (by have := (hi.table p i b hb).1; omega)
    have hne : ∀ p i b, s.table p i = some b → setTable s.table s.pos id (some s.next) p i = some b := by
      intro p i b hb
      unfold setTable
      rw [if_neg]
      · exact hb
      · rintro ⟨rfl, rfl⟩; rw [ht] at hb; cases hb
    have hcase : ∀ p i b, setTable s.table s.pos id (some s.next) p i = some b →
        setHeap s.heap s.next (newFrame V s.pos id) b = newFrame V s.pos id ∨
        (s.table p i = some b ∧ setHeap s.heap s.next (newFrame V s.pos id) b = s.heap b) := by
      intro p i b hb
      simp only [setTable] at hb
      split at hb
      · injection hb with hb
        subst hb
        exact Or.inl (setHeap_self _ _ _)
      · exact Or.inr ⟨hb, hlt p i b hb⟩
    refine ⟨by cases h1; exact h3, fun hm => ⟨?_, ?_, ?_⟩, hne, ?_⟩
    · obtain ⟨a, s1, h1, h2, -⟩ := h0 hm.inv
      cases h1; exact h2
    · intro p i b hb
      dsimp only at hb ⊢
      rcases hcase p i b hb with h | ⟨h, h'⟩
      · rw [h]; intro m hm'; cases hm'
      · rw [h']; exact hm.mask p i b h
    · intro p i b hb
      dsimp only at hb ⊢
      rcases hcase p i b hb with h | ⟨h, h'⟩
      · rw [h]; intro _ e he; cases he
      · rw [h']; exact hm.good p i b h
    · intro p i b hb hst
      dsimp only at hb hst
      rcases hcase p i b hb with h | ⟨h, h'⟩
      · rw [h] at hst; simp [newFrame] at hst
      · rw [h'] at hst; exact ⟨h, hst⟩

/-- Pushing a memo entry on the rule stack. -/
theorem MemoL.push {s : St V H} (hm : MemoL E env s) {id a : Nat} (ha : s.table s.pos id = some a) :
    MemoL E env { s with stack := a :: s.stack } := by
  have h := hm.inv.table _ _ _ ha
  refine ⟨⟨hm.inv.pos, hm.inv.table, hm.inv.frame, ?_, ?_⟩, hm.mask, hm.good⟩
  · intro b hb
    rcases List.mem_cons.mp hb with rfl | hb
    · exact ⟨h.1, Nat.le_of_eq h.2.1⟩
    · exact hm.inv.stack b hb
  · refine List.pairwise_cons.mpr ⟨fun b hb => ?_, hm.inv.sorted⟩
    dsimp only
    rw [h.2.1]
    exact (hm.inv.stack b hb).2

/-- Popping it. -/
theorem NextL.pop {s t : St V H} {id a : Nat} (ha : s.table s.pos id = some a)
    (hn : NextL E env { s with stack := a :: s.stack } t) : NextL E env s (stackPop t) := by
  have hstk : t.stack.tail = s.stack := by rw [hn.ext.stack]; rfl
  refine ⟨⟨hn.ext.next, hn.ext.pos, hstk, hn.ext.loop, hn.ext.frame⟩, fun hm => ?_, hn.keep, hn.busy⟩
  have h := hn.memo (hm.push ha)
  refine ⟨⟨h.inv.pos, h.inv.table, h.inv.frame, ?_, ?_⟩, h.mask, h.good⟩
  · intro b hb
    exact h.inv.stack b (List.mem_of_mem_tail hb)
  · exact List.Pairwise.sublist (List.tail_sublist _) h.inv.sorted

/-! ## A rule in progress -/

/-- From the state `s` in which rule `a` is entered to a state `t` in the middle of it. -/
structure Mid (E : PegEnv V) (env : Env V H) (a : Nat) (s t : St V H) : Prop where
  memo : MemoL E env t
  next : s.next ≤ t.next
  pos : s.pos ≤ t.pos
  stack : t.stack = s.stack
  frame : ∀ b, b < s.next → (t.heap b).pos = (s.heap b).pos
  keep : ∀ p i b, s.table p i = some b → t.table p i = some b
  busy : ∀ p i b, t.table p i = some b → b ≠ a → 1 ≤ (t.heap b).loopstage →
    s.table p i = some b ∧ 1 ≤ (s.heap b).loopstage

theorem Mid.step {a : Nat} {s t u : St V H} (h : Mid E env a s t) (hn : NextL E env t u) : Mid E env a s u where
  memo := hn.memo h.memo
  next := Nat.le_trans h.next hn.ext.next
  pos := Nat.le_trans h.pos hn.ext.pos
  stack := hn.ext.stack.trans h.stack
  frame b hb := (hn.ext.frame b (Nat.lt_of_lt_of_le hb h.next)).pos.trans (h.frame b hb)
  keep p i b hb := hn.keep p i b (h.keep p i b hb)
  busy p i b hb hne h1 := by
    obtain ⟨h2, h3⟩ := hn.busy p i b hb h1
    exact h.busy p i b h2 hne h3

/-- Setting the entry of the rule, and moving the cursor. -/
theorem Mid.upd {a id : Nat} {s t : St V H} (hi : Inv env (fun _ => False) s) (h : Mid E env a s t) (ha : s.table s.pos id = some a)
    (f : Frame V → Frame V) (hp : (f (t.heap a)).pos = (t.heap a).pos) (hid : (f (t.heap a)).id = (t.heap a).id)
    (hw : (f (t.heap a)).wipemask = (t.heap a).wipemask)
    (hok : FrameOk env.st.len (fun _ => False) (f (t.heap a))) {p : Nat} (h1 : s.pos ≤ p) (h2 : p ≤ env.st.len)
    (hgood : (f (t.heap a)).loopstage ≤ 0 → ∀ e, (f (t.heap a)).endpos = some e →
      ∃ k d, lpeg E k d none (.rule id) 0 s.pos = .ok ((f (t.heap a)).result.map (·, e)))
    {u : St V H} (hu : u = { t with heap := setHeap t.heap a (f (t.heap a)), pos := p }) :
    Mid E env a s u := by
  have hat := h.keep _ _ _ ha
  have hia := h.memo.inv.table _ _ _ hat
  have hup := Inv.upd h.memo.inv a f hp hid hok
  have hself : u.heap a = f (t.heap a) := by rw [hu]; exact setHeap_self _ _ _
  have hne : ∀ b, b ≠ a → u.heap b = t.heap b := fun b hb => by rw [hu]; exact setHeap_ne _ _ hb
  have htab : u.table = t.table := by rw [hu]
  have hfp : ∀ b, (u.heap b).pos = (t.heap b).pos := by
    intro b
    by_cases hb : b = a
    · subst hb; rw [hself]; exact hp
    · rw [hne b hb]
  refine ⟨⟨?_, ?_, ?_⟩, ?_, ?_, ?_, ?_, ?_, ?_⟩
  · rw [hu]
    refine ⟨h2, hup.table, hup.frame, ?_, hup.sorted⟩
    intro b hb
    have hbs : b ∈ s.stack := by rw [← h.stack]; exact hb
    refine ⟨(hup.stack b hb).1, ?_⟩
    have := hfp b
    rw [hu] at this
    rw [this, h.frame b (hi.stack b hbs).1]
    exact Nat.le_trans (hi.stack b hbs).2 h1
  · intro p' i b hb
    rw [htab] at hb
    by_cases hba : b = a
    · subst hba
      rw [hself]
      intro m hm
      rw [hw] at hm
      exact h.memo.mask _ _ _ hb m hm
    · rw [hne b hba]; exact h.memo.mask _ _ _ hb
  · intro p' i b hb
    rw [htab] at hb
    by_cases hba : b = a
    · subst hba
      have h' := h.memo.inv.table _ _ _ hb
      obtain rfl : p' = s.pos := h'.2.1.symm.trans hia.2.1
      obtain rfl : i = id := h'.2.2.1.symm.trans hia.2.2.1
      rw [hself]
      exact hgood
    · rw [hne b hba]; exact h.memo.good _ _ _ hb
  · rw [hu]; exact h.next
  · rw [hu]; exact h1
  · rw [hu]; exact h.stack
  · intro b hb; rw [hfp b]; exact h.frame b hb
  · rw [htab]; exact h.keep
  · intro p' i b hb hba h1
    rw [htab] at hb
    rw [hne b hba] at h1
    exact h.busy p' i b hb hba h1

theorem Mid.refl {a : Nat} {s : St V H} (hm : MemoL E env s) : Mid E env a s s :=
  ⟨hm, Nat.le_refl _, Nat.le_refl _, rfl, fun _ _ => rfl, fun _ _ _ h => h, fun _ _ _ h _ h' => ⟨h, h'⟩⟩

/-- The rule is finished. -/
theorem Mid.toNext {a : Nat} {s u : St V H} (h : Mid E env a s u) (he : Ext env s u)
    (hst : (u.heap a).loopstage ≤ 0) : NextL E env s u :=
  ⟨he, fun _ => h.memo, h.keep, fun p i b hb h1 => h.busy p i b hb (by rintro rfl; omega) h1⟩

/-- Inside the body of the rule. -/
theorem Mid.ml {a id d1 : Nat} {s t : St V H} {x : Seed V} (h : Mid E env a s t) (ha : s.table s.pos id = some a)
    (hbz : BusyOof E k d1 s) (hoof : lpeg E k d1 none (.rule id) 0 s.pos = .oof) {l : List Nat}
    (hstk : s.stack = a :: l) (hx : SeedOk (t.heap a) x) {body : Node} (hb : env.g.rules[id]? = some body)
    (hsk : body.info.skipCache = false) (hd : B ∨ s.stack.length + d1 ≤ stackCap) :
    ML E env B k d1 (some (id, x)) s.pos t := by
  have hat := h.keep _ _ _ ha
  have hia := h.memo.inv.table _ _ _ hat
  refine ⟨h.memo, ?_, ⟨a, l, h.stack.trans hstk, hia.2.1, hia.2.2.1, hat, hx, body, hb, hsk⟩, by rw [h.stack]; exact hd⟩
  intro p i b hb' h1
  by_cases hba : b = a
  · subst hba
    have h' := h.memo.inv.table _ _ _ hb'
    obtain rfl : p = s.pos := h'.2.1.symm.trans hia.2.1
    obtain rfl : i = id := h'.2.2.1.symm.trans hia.2.2.1
    exact hoof
  · obtain ⟨h2, h3⟩ := h.busy p i b hb' hba h1
    exact hbz p i b h2 h3

/-- With nothing to wipe. -/
theorem wipeWith_noMask {a : Nat} {s : St V H} (h : NoMask (s.heap a)) (hs : (s.heap a).wipemask.isSome) :
    wipeWith a s = .ok (fun _ => none, s) := by
  unfold wipeWith
  obtain ⟨m, hm⟩ := Option.isSome_iff_exists.mp hs
  rw [hm]
  have hf := h m hm
  dsimp only
  have h1 : (fun i => if m i = true then s.table (s.heap a).pos i else none) = fun _ => none := by
    funext i; rw [hf i]; rfl
  have h2 : (fun p' i => if p' = (s.heap a).pos ∧ m i = true then none else s.table p' i) = s.table := by
    funext p i; rw [hf i]; simp
  rw [h1, h2]

end
end Joeson
