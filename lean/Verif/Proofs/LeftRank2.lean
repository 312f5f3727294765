import Verif.Proofs.LeftRec2
import Verif.Proofs.LeftRank
/-! # The engine refines `gpeg`: the memo table with private rules -/

namespace Joeson
variable {V H : Type}

/-- The seed that a memo entry holds. -/
def seedOf (f : Frame V) : Option (V × Nat) :=
  if f.loopstage = 3 then (match f.result, f.endpos with
    | some v, some e => some (v, e)
    | _, _ => none) else none

/-- The seed of rule `b` at `p`. -/
def seedAt (s : St V H) (p b : Nat) : Option (V × Nat) := match s.table p b with
  | some a => seedOf (s.heap a)
  | none => none

/-- The context of the alternatives of rule `b` at `p`. -/
def ctxAt (E : PegEnv V) (s : St V H) (p b : Nat) : Ctx V :=
  if E.g.cached b then some (b, .known (seedAt s p b)) else none

/-- The memo entry answers further calls. -/
def DoneF (f : Frame V) : Prop := f.loopstage ≤ 0 ∧ f.endpos ≠ none

/-- The body of rule `b` may be parsed at `p`. -/
def Opened (E : PegEnv V) (s : St V H) (p b : Nat) : Prop :=
  E.g.cached b = false ∨ ∀ a, s.table p b = some a → ¬ DoneF (s.heap a)

/-- Rule `b` is in progress at `p`. -/
def Active (E : PegEnv V) (s : St V H) (p b : Nat) : Prop :=
  E.g.cached b = true → ∃ a, s.table p b = some a ∧ 1 ≤ (s.heap a).loopstage

/-- Rule `i` is wiped when the rule of this entry grows. -/
def Masked (f : Frame V) (i : Nat) : Prop := ∃ m, f.wipemask = some m ∧ m i = true

def MaskAt (s : St V H) (p b i : Nat) : Prop := ∃ a, s.table p b = some a ∧ Masked (s.heap a) i

/-- The memo entry of private rule `i` at `p` is correct: it does not depend on the seed, or it is that of the present
seed and will be wiped. -/
def PrivOk (X : Privacy) (E : PegEnv V) (s : St V H) (p i : Nat) (f : Frame V) : Prop :=
  f.loopstage ≤ 0 → ∀ e, f.endpos = some e → Opened E s p (X.boss i) →
    ∃ c k d, (c = (ctxAt E s p (X.boss i)).low ∨ (MaskAt s p (X.boss i) i ∧ c = ctxAt E s p (X.boss i))) ∧
      gpeg X.pv E k d c (.rule i) p p = .ok (f.result.map (·, e))

/-- The memo table is correct. -/
structure MemoG (X : Privacy) (E : PegEnv V) (env : Env V H) (s : St V H) : Prop where
  inv : Inv env (fun _ => False) s
  mask : ∀ a, a < s.next → ∀ i, Masked (s.heap a) i → X.pv i = true ∧ X.boss i = (s.heap a).id
  up : ∀ a, a < s.next → ∀ i, Masked (s.heap a) i → X.pv (X.owner i) = true → Masked (s.heap a) (X.owner i)
  low : ∀ a, a < s.next → X.pv (s.heap a).id = true → (s.heap a).loopstage ≤ 1
  good : ∀ p i a, X.pv i = false → s.table p i = some a → (s.heap a).loopstage ≤ 0 → ∀ e, (s.heap a).endpos = some e →
    ∃ k d, gpeg X.pv E k d none (.rule i) 0 p = .ok ((s.heap a).result.map (·, e))
  nil : ∀ p i a, X.pv i = false → s.table p i = some a → (s.heap a).loopstage ≤ 0 → (s.heap a).endpos = none →
    (s.heap a).wipemask.isSome → ∃ k d, gpeg X.pv E k d none (.rule i) 0 p = .ok none
  priv : ∀ p i a, X.pv i = true → s.table p i = some a → PrivOk X E s p i (s.heap a)

/-- The rules in progress have no meaning within the bounds. -/
structure BusyG (X : Privacy) (E : PegEnv V) (k d : Nat) (s : St V H) : Prop where
  pub : ∀ p i a, X.pv i = false → s.table p i = some a → 1 ≤ (s.heap a).loopstage →
    gpeg X.pv E k d none (.rule i) 0 p = .oof
  priv : ∀ p i a, X.pv i = true → s.table p i = some a → 1 ≤ (s.heap a).loopstage →
    gpeg X.pv E k d (ctxAt E s p (X.boss i)) (.rule i) p p = .oof ∧ Active E s p (X.boss i)

/-- What a parser call does to the memo table. -/
structure NextG (X : Privacy) (E : PegEnv V) (env : Env V H) (s s' : St V H) : Prop where
  ext : Ext env s s'
  memo : MemoG X E env s → MemoG X E env s'
  keep : ∀ p i a, s.table p i = some a → X.pv i = false ∨ 1 ≤ (s.heap a).loopstage → s'.table p i = some a
  stay : ∀ p i a, s.table p i = some a → 1 ≤ (s.heap a).loopstage → 1 ≤ (s'.heap a).loopstage
  busy : ∀ p i a, s'.table p i = some a → 1 ≤ (s'.heap a).loopstage →
    s.table p i = some a ∧ 1 ≤ (s.heap a).loopstage
  grow : ∀ a, a < s.next → ∀ i, Masked (s.heap a) i → Masked (s'.heap a) i
  same : ∀ a, a < s.next → (s.heap a).loopstage = 1 → (s'.heap a).loopstage = 1 →
    (s'.heap a).wipemask = (s.heap a).wipemask

/-- The top of the stack: frames of private rules, each above that of its owner, all starting at `q`; rule `j` is on
top, rule `b` is the first that is not private, with memo entry `ab`. -/
inductive Under (X : Privacy) (heap : Nat → Frame V) (q : Nat) : List Nat → Nat → Nat → Nat → Prop
  | pub {a l b} : X.pv b = false → (heap a).id = b → (heap a).pos = q → Under X heap q (a :: l) b b a
  | priv {a l i j b ab} : Under X heap q l j b ab → X.pv i = true → (heap a).id = i → (heap a).pos = q →
      X.owner i = j → Under X heap q (a :: l) i b ab

/-- The rule being parsed is `j` and started at `q`; `c` is its context. -/
def TopG (X : Privacy) (E : PegEnv V) (s : St V H) (c : Ctx V) (q j : Nat) : Prop :=
  ∃ b ab, Under X s.heap q s.stack j b ab ∧ c = ctxAt E s q b ∧
    (E.g.cached b = true → s.table q b = some ab ∧ SeedOk (s.heap ab) (.known (seedAt s q b)))

/-- The invariant while a rule is parsed. -/
structure MG (X : Privacy) (E : PegEnv V) (env : Env V H) (B : Prop) (k d : Nat) (c : Ctx V) (q j : Nat) (s : St V H) :
    Prop where
  memo : MemoG X E env s
  busy : BusyG X E k d s
  top : TopG X E s c q j
  depth : B ∨ s.stack.length + d ≤ stackCap

/-- The rule being parsed was called left recursively, at some time. -/
def HitG (X : Privacy) (s : St V H) : Prop := ∃ q j b ab, Under X s.heap q s.stack j b ab ∧
  (s.heap ab).wipemask.isSome ∧ (X.pv j = true → Masked (s.heap ab) j)

/-! ## The stack -/

section
variable {X : Privacy} {heap : Nat → Frame V} {q : Nat}

theorem Under.head {l : List Nat} {j b ab : Nat} (h : Under X heap q l j b ab) :
    ∃ a l', l = a :: l' ∧ (heap a).pos = q ∧ (heap a).id = j := by
  cases h with
  | pub h1 h2 h3 => exact ⟨_, _, rfl, h3, h2⟩
  | priv _ _ h2 h3 _ => exact ⟨_, _, rfl, h3, h2⟩

theorem Under.of_eq {heap' : Nat → Frame V} {l : List Nat} {j b ab : Nat} (h : Under X heap q l j b ab)
    (he : ∀ a ∈ l, (heap' a).id = (heap a).id ∧ (heap' a).pos = (heap a).pos) : Under X heap' q l j b ab := by
  induction h with
  | pub h1 h2 h3 =>
    have := he _ (List.mem_cons_self ..)
    exact .pub h1 (this.1.trans h2) (this.2.trans h3)
  | priv _ h1 h2 h3 h4 ih =>
    have := he _ (List.mem_cons_self ..)
    exact .priv (ih fun a ha => he a (List.mem_cons_of_mem _ ha)) h1 (this.1.trans h2) (this.2.trans h3) h4

theorem Under.boss_mem {l : List Nat} {j b ab : Nat} (h : Under X heap q l j b ab) :
    ab ∈ l ∧ (heap ab).id = b ∧ (heap ab).pos = q ∧ X.pv b = false := by
  induction h with
  | pub h1 h2 h3 => exact ⟨List.mem_cons_self .., h2, h3, h1⟩
  | priv _ _ _ _ _ ih => exact ⟨List.mem_cons_of_mem _ ih.1, ih.2⟩

theorem Under.boss_eq {g : Grammar} (hX : X.Ok g) {l : List Nat} {j b ab : Nat} (h : Under X heap q l j b ab) :
    (X.pv j = true ∧ X.boss j = b) ∨ (X.pv j = false ∧ j = b) := by
  induction h with
  | pub h1 h2 h3 => exact Or.inr ⟨h1, rfl⟩
  | @priv a l i j b ab _ h1 h2 h3 h4 ih =>
    refine Or.inl ⟨h1, ?_⟩
    rw [hX.boss i h1, h4]
    rcases ih with ⟨h5, h6⟩ | ⟨h5, h6⟩
    · rw [if_pos h5, h6]
    · rw [if_neg (by rw [h5]; simp), h6]

theorem Under.det {q' : Nat} {l : List Nat} {j b ab j' b' ab' : Nat} (h : Under X heap q l j b ab)
    (h' : Under X heap q' l j' b' ab') : q = q' ∧ j = j' ∧ b = b' ∧ ab = ab' := by
  induction h generalizing j' b' ab' with
  | pub h1 h2 h3 =>
    cases h' with
    | pub h4 h5 h6 =>
      refine ⟨h3.symm.trans h6, ?_, ?_, rfl⟩ <;> exact h2.symm.trans h5
    | priv _ h4 h5 _ _ => rw [← h2, h5, h4] at h1; cases h1
  | priv _ h1 h2 h3 h4 ih =>
    cases h' with
    | pub h5 h6 _ => rw [← h6, h2, h1] at h5; cases h5
    | priv h5 h6 h7 h8 h9 =>
      obtain ⟨-, h10, h11, h12⟩ := ih h5
      exact ⟨h3.symm.trans h8, h2.symm.trans h7, h11, h12⟩

end

/-! ## Contexts -/

section
variable {X : Privacy} {E : PegEnv V} {env : Env V H} {B : Prop} {k d q j : Nat} {c : Ctx V}

theorem SeedOk.seedOf {f : Frame V} {x : Option (V × Nat)} (h : SeedOk f (.known x)) : seedOf f = x := by
  match x, h with
  | none, ⟨h1, h2, h3⟩ =>
    unfold Joeson.seedOf
    rw [if_neg (by omega)]
  | some (v, e), ⟨h1, h2, h3⟩ =>
    unfold Joeson.seedOf
    rw [if_pos h1, h2, h3]

theorem seedOf_ext {f f' : Frame V} (h1 : 1 ≤ f.loopstage) (h3 : f.loopstage ≤ 3) (e : FrameExt f f') :
    seedOf f' = seedOf f := by
  have hb := e.busy h1
  unfold seedOf
  rw [hb.1, hb.2]
  rcases (by omega : f.loopstage = 1 ∨ f.loopstage = 2 ∨ f.loopstage = 3) with h | h | h
  · have := e.st1 h
    rw [if_neg (by omega), if_neg (by omega)]
  · have := e.st2 h
    rw [if_neg (by omega), if_neg (by omega)]
  · have := e.st3 h
    rw [if_pos this, if_pos h]

/-- Nothing changes for the alternatives of `b` at `p`. -/
structure SameAt (E : PegEnv V) (s t : St V H) (p b : Nat) : Prop where
  opened : Opened E t p b → Opened E s p b
  ctx : ctxAt E t p b = ctxAt E s p b
  mask : ∀ i, MaskAt s p b i → MaskAt t p b i

theorem SameAt.of_entry {s t : St V H} {p b : Nat} (h : t.table p b = s.table p b)
    (h' : ∀ a, s.table p b = some a → t.heap a = s.heap a) : SameAt E s t p b := by
  cases hs : s.table p b with
  | none =>
    rw [hs] at h
    refine ⟨fun _ => Or.inr fun a ha => (by rw [hs] at ha; cases ha), ?_, fun i ⟨a, ha, _⟩ => (by rw [hs] at ha; cases ha)⟩
    unfold ctxAt seedAt
    rw [h, hs]
  | some a =>
    have ha := h' a hs
    rw [hs] at h
    refine ⟨?_, ?_, ?_⟩
    · rintro (h1 | h1)
      · exact Or.inl h1
      · refine Or.inr fun a' ha' => ?_
        rw [hs] at ha'
        cases ha'
        rw [← ha]
        exact h1 a h
    · unfold ctxAt seedAt
      rw [h, hs]
      dsimp only
      rw [ha]
    · rintro i ⟨a', ha', hm⟩
      rw [hs] at ha'
      cases ha'
      exact ⟨a, h, by rw [ha]; exact hm⟩

theorem PrivOk.same {s t : St V H} {p i : Nat} {f : Frame V} (hs : SameAt E s t p (X.boss i)) (h : PrivOk X E s p i f) :
    PrivOk X E t p i f := by
  intro h1 e h2 h3
  obtain ⟨c, k, d, h4, h5⟩ := h h1 e h2 (hs.opened h3)
  refine ⟨c, k, d, ?_, h5⟩
  rw [hs.ctx]
  exact h4.imp_right fun h => ⟨hs.mask _ h.1, h.2⟩

theorem ctxAt_next {s s' : St V H} (hi : Inv env (fun _ => False) s) (hn : NextG X E env s s') {p b : Nat}
    (hb : X.pv b = false) (ha : Active E s p b) : ctxAt E s' p b = ctxAt E s p b := by
  unfold ctxAt
  by_cases hc : E.g.cached b = true
  · obtain ⟨a, h1, h2⟩ := ha hc
    rw [if_pos hc, if_pos hc]
    have ht := hi.table _ _ _ h1
    unfold seedAt
    rw [hn.keep _ _ _ h1 (Or.inl hb), h1]
    dsimp only
    rw [seedOf_ext h2 (hi.frame a ht.1).hi (hn.ext.frame a ht.1)]
  · rw [if_neg hc, if_neg hc]

theorem Active.next {s s' : St V H} (hn : NextG X E env s s') {p b : Nat}
    (hb : X.pv b = false) (ha : Active E s p b) : Active E s' p b := fun hc => by
  obtain ⟨a, h1, h2⟩ := ha hc
  exact ⟨a, hn.keep _ _ _ h1 (Or.inl hb), hn.stay _ _ _ h1 h2⟩

theorem BusyG.mono {k' d' : Nat} {s : St V H} (hk : k' ≤ k) (hd : d' ≤ d) (h : BusyG X E k d s) : BusyG X E k' d' s := by
  constructor
  · intro p i a h1 h2 h3
    rcases gpeg_mono X.pv E k' k d' d none none hk hd trivial (.rule i) 0 p with h' | h'
    · exact h'
    · rw [h']; exact h.pub p i a h1 h2 h3
  · intro p i a h1 h2 h3
    obtain ⟨h4, h5⟩ := h.priv p i a h1 h2 h3
    refine ⟨?_, h5⟩
    rcases gpeg_mono X.pv E k' k d' d _ _ hk hd (Ctx.le_refl (ctxAt E s p (X.boss i))) (.rule i) p p with h' | h'
    · exact h'
    · rw [h']; exact h4

theorem NextG.refl (s : St V H) : NextG X E env s s :=
  ⟨Ext.refl _ _, fun h => h, fun _ _ _ h _ => h, fun _ _ _ _ h => h, fun _ _ _ h h' => ⟨h, h'⟩, fun _ _ _ h => h,
    fun _ _ _ _ => rfl⟩

theorem NextG.trans {s t u : St V H} (a : NextG X E env s t) (b : NextG X E env t u) : NextG X E env s u where
  ext := a.ext.trans b.ext
  memo h := b.memo (a.memo h)
  keep p i x h h' := b.keep p i x (a.keep p i x h h') (h'.imp_right fun h' => a.stay p i x h h')
  stay p i x h h' := b.stay p i x (a.keep p i x h (Or.inr h')) (a.stay p i x h h')
  busy p i x h h' := by obtain ⟨h, h'⟩ := b.busy p i x h h'; exact a.busy p i x h h'
  grow x hx i h := b.grow x (Nat.lt_of_lt_of_le hx a.ext.next) i (a.grow x hx i h)
  same x hx h1 h2 := by
    have hx' := Nat.lt_of_lt_of_le hx a.ext.next
    rcases (a.ext.frame x hx).st1 h1 with h | h
    · exact (b.same x hx' h h2).trans (a.same x hx h1 h)
    · have := (b.ext.frame x hx').st2 h
      omega

theorem NextG.reset {s s' : St V H} (a : NextG X E env s s') {p : Nat} (hp : s.pos ≤ p) (hl : p ≤ env.st.len) :
    NextG X E env s { s' with pos := p } := by
  refine ⟨⟨a.ext.next, hp, a.ext.stack, a.ext.loop, a.ext.frame⟩, fun h => ?_, a.keep, a.stay, a.busy, a.grow, a.same⟩
  have hm := a.memo h
  exact ⟨(h.inv.reset hm.inv a.ext hp hl).1, hm.mask, hm.up, hm.low, hm.good, hm.nil, hm.priv⟩

theorem NextG.aux (s : St V H) (n : Nat) (h : H) (l : List Call) :
    NextG X E env s { s with counter := n, h := h, calls := l } :=
  ⟨⟨Nat.le_refl _, Nat.le_refl _, rfl, fun _ => rfl, fun _ _ => FrameExt.refl _⟩,
    fun h => ⟨⟨h.inv.pos, h.inv.table, h.inv.frame, h.inv.stack, h.inv.sorted⟩, h.mask, h.up, h.low, h.good, h.nil, h.priv⟩,
    fun _ _ _ h _ => h, fun _ _ _ _ h => h, fun _ _ _ h h' => ⟨h, h'⟩, fun _ _ _ h => h, fun _ _ _ _ => rfl⟩

theorem BusyG.next (hX : X.Ok E.g) {s s' : St V H} (hi : Inv env (fun _ => False) s) (h : BusyG X E k d s)
    (hn : NextG X E env s s') : BusyG X E k d s' := by
  constructor
  · intro p i a h1 h2 h3
    obtain ⟨h4, h5⟩ := hn.busy p i a h2 h3
    exact h.pub p i a h1 h4 h5
  · intro p i a h1 h2 h3
    obtain ⟨h4, h5⟩ := hn.busy p i a h2 h3
    obtain ⟨h6, h7⟩ := h.priv p i a h1 h4 h5
    have hb := hX.last i h1
    rw [ctxAt_next hi hn hb h7]
    exact ⟨h6, h7.next hn hb⟩

theorem SeedOk.ge1 {f : Frame V} {x : Option (V × Nat)} (h : SeedOk f (.known x)) : 1 ≤ f.loopstage := by
  match x, h with
  | none, ⟨h1, h2, h3⟩ => omega
  | some (v, e), ⟨h1, h2, h3⟩ => omega

theorem TopG.next {s s' : St V H} (h : TopG X E s c q j) (hm : MemoG X E env s) (hn : NextG X E env s s') :
    TopG X E s' c q j := by
  obtain ⟨b, ab, h1, h2, h3⟩ := h
  have hb := h1.boss_mem
  have hctx : ctxAt E s' q b = ctxAt E s q b := ctxAt_next hm.inv hn hb.2.2.2 fun hc =>
    ⟨ab, (h3 hc).1, (h3 hc).2.ge1⟩
  refine ⟨b, ab, ?_, h2.trans hctx.symm, ?_⟩
  · rw [hn.ext.stack]
    refine h1.of_eq fun a ha => ?_
    have := hn.ext.frame a (hm.inv.stack a ha).1
    exact ⟨this.id, this.pos⟩
  · intro hc
    obtain ⟨h4, h5⟩ := h3 hc
    refine ⟨hn.keep _ _ _ h4 (Or.inl hb.2.2.2), ?_⟩
    have : seedAt s' q b = seedAt s q b := by
      unfold ctxAt at hctx
      rw [if_pos hc, if_pos hc] at hctx
      simpa using hctx
    rw [this]
    exact h5.ext (hn.ext.frame ab (hm.inv.stack ab hb.1).1)

theorem MG.next (hX : X.Ok E.g) {s s' : St V H} (h : MG X E env B k d c q j s) (hn : NextG X E env s s') :
    MG X E env B k d c q j s' :=
  ⟨hn.memo h.memo, h.busy.next hX h.memo.inv hn, h.top.next h.memo hn, by rw [hn.ext.stack]; exact h.depth⟩

theorem MG.mono {k' : Nat} {s : St V H} (hk : k' ≤ k) (h : MG X E env B k d c q j s) : MG X E env B k' d c q j s :=
  ⟨h.memo, h.busy.mono hk (Nat.le_refl _), h.top, h.depth⟩

theorem HitG.next {s s' : St V H} (hi : Inv env (fun _ => False) s) (h : HitG X s) (hn : NextG X E env s s') :
    HitG X s' := by
  obtain ⟨q, j, b, ab, h1, h2, h3⟩ := h
  have hab := (hi.stack ab h1.boss_mem.1).1
  refine ⟨q, j, b, ab, ?_, (hn.ext.frame ab hab).mask h2, fun hp => hn.grow ab hab j (h3 hp)⟩
  rw [hn.ext.stack]
  refine h1.of_eq fun a ha => ?_
  have := hn.ext.frame a (hi.stack a ha).1
  exact ⟨this.id, this.pos⟩

/-- The setting for the operators inside a rule. -/
theorem MG.setup (hX : X.Ok E.g) : SimSetup env (MG X E env B k d c q j) (NextG X E env) (HitG X) where
  refl := NextG.refl
  trans := NextG.trans
  reset _ hn hp hl := hn.reset hp hl
  aux s n h l := NextG.aux s n h l
  keep h hn := h.next hX hn
  pos h := h.memo.inv.pos
  hit h hh hn := hh.next h.memo.inv hn
  hitPos h := h

theorem MG.topPos {s : St V H} (h : MG X E env B k d c q j s) : TopPos s q := by
  obtain ⟨b, ab, h1, -⟩ := h.top
  obtain ⟨a, l, h2, h3, -⟩ := h1.head
  exact ⟨a, l, h2, h3⟩

/-- Creating the memo entry. -/
theorem getFrame_nextG (hX : X.Ok E.g) {s : St V H} (hi : Inv env (fun _ => False) s) {id : Nat}
    (hid : id < env.g.numRules) :
    ∃ a s1, getFrame env id s = .ok (a, s1) ∧ NextG X E env s s1 ∧ s1.pos = s.pos ∧
      s1.table s.pos id = some a ∧ s1.stack = s.stack ∧ (∀ p b, SameAt E s s1 p b) ∧
      (∀ b, b ∈ s.stack → s1.heap b = s.heap b) ∧ (∀ p b x, s.table p b = some x → s1.table p b = some x ∧ s1.heap x = s.heap x) := by
  have h0 := fun (h : Inv env (fun _ => False) s) => getFrame_ok h hid
  unfold getFrame at *
  rw [if_pos ⟨hi.pos, hid⟩] at *
  cases ht : s.table s.pos id with
  | some a =>
    exact ⟨a, s, rfl, NextG.refl _, rfl, ht, rfl, fun p b => SameAt.of_entry rfl fun _ _ => rfl, fun _ _ => rfl,
      fun _ _ _ h => ⟨h, rfl⟩⟩
  | none =>
    rw [ht] at h0
    have hlt : ∀ b, b < s.next →
        setHeap s.heap s.next (newFrame V s.pos id) b = s.heap b := fun b hb =>
      setHeap_ne _ _ (by omega)
    have hne : ∀ p i b, s.table p i = some b → setTable s.table s.pos id (some s.next) p i = some b := by
      intro p i b hb
      unfold setTable
      rw [if_neg]
      · exact hb
      · rintro ⟨rfl, rfl⟩; rw [ht] at hb; cases hb
    have hcase : ∀ p i b, setTable s.table s.pos id (some s.next) p i = some b →
        setHeap s.heap s.next (newFrame V s.pos id) b = newFrame V s.pos id ∨
        (s.table p i = some b ∧ setHeap s.heap s.next (newFrame V s.pos id) b = s.heap b) := by
      intro p i b hb
      simp only [setTable] at hb
      split at hb
      · injection hb with hb
        subst hb
        exact Or.inl (setHeap_self _ _ _)
      · exact Or.inr ⟨hb, hlt b (hi.table p i b hb).1⟩
    have hcell : ∀ b, b < s.next + 1 → setHeap s.heap s.next (newFrame V s.pos id) b = newFrame V s.pos id ∨
        (b < s.next ∧ setHeap s.heap s.next (newFrame V s.pos id) b = s.heap b) := by
      intro b hb
      by_cases h : b = s.next
      · subst h; exact Or.inl (setHeap_self _ _ _)
      · exact Or.inr ⟨by omega, hlt b (by omega)⟩
    have hsame : ∀ p b, SameAt E s { s with
        heap := setHeap s.heap s.next (newFrame V s.pos id), next := s.next + 1,
        table := setTable s.table s.pos id (some s.next) } p b := by
      intro p b
      by_cases hpb : p = s.pos ∧ b = id
      · obtain ⟨rfl, rfl⟩ := hpb
        have h1 : setTable s.table s.pos b (some s.next) s.pos b = some s.next := by simp [setTable]
        refine ⟨fun _ => Or.inr fun a ha => (by rw [ht] at ha; cases ha), ?_, fun i ⟨a, ha, _⟩ => (by rw [ht] at ha; cases ha)⟩
        unfold ctxAt seedAt
        dsimp only
        rw [h1, ht]
        dsimp only
        rw [setHeap_self]
        rfl
      · refine SameAt.of_entry ?_ ?_
        · show setTable _ _ _ _ _ _ = _
          unfold setTable
          rw [if_neg hpb]
        · intro a ha
          exact hlt a (hi.table _ _ _ ha).1
    refine ⟨_, _, rfl, ?_, rfl, by simp [setTable], rfl, hsame, fun b hb => hlt b (hi.stack b hb).1,
      fun p b x hx => ⟨hne p b x hx, hlt x (hi.table _ _ _ hx).1⟩⟩
    obtain ⟨a, s1, h1, h2, h3, h4, h5⟩ := h0 hi
    refine ⟨by cases h1; exact h3, fun hm => ⟨?_, ?_, ?_, ?_, ?_, ?_, ?_⟩, fun p i b hb _ => hne p i b hb, ?_, ?_, ?_, ?_⟩
    · obtain ⟨a, s1, h1, h2, -⟩ := h0 hm.inv
      cases h1; exact h2
    · intro b hb i
      dsimp only at hb ⊢
      rcases hcell b hb with h | ⟨h, h'⟩
      · rw [h]; rintro ⟨m, hm', _⟩; cases hm'
      · rw [h']; exact hm.mask b h i
    · intro b hb i
      dsimp only at hb ⊢
      rcases hcell b hb with h | ⟨h, h'⟩
      · rw [h]; rintro ⟨m, hm', _⟩; cases hm'
      · rw [h']; exact hm.up b h i
    · intro b hb
      dsimp only at hb ⊢
      rcases hcell b hb with h | ⟨h, h'⟩
      · rw [h]; intro _; show (-1 : Int) ≤ 1; omega
      · rw [h']; exact hm.low b h
    · intro p i b hpv hb
      dsimp only at hb ⊢
      rcases hcase p i b hb with h | ⟨h, h'⟩
      · rw [h]; intro _ e he; cases he
      · rw [h']; exact hm.good p i b hpv h
    · intro p i b hpv hb
      dsimp only at hb ⊢
      rcases hcase p i b hb with h | ⟨h, h'⟩
      · rw [h]; intro _ _ he; cases he
      · rw [h']; exact hm.nil p i b hpv h
    · intro p i b hpv hb
      dsimp only at hb
      rcases hcase p i b hb with h | ⟨h, h'⟩
      · show PrivOk X E _ p i (setHeap s.heap s.next (newFrame V s.pos id) b)
        rw [h]; intro _ e he; cases he
      · show PrivOk X E _ p i (setHeap s.heap s.next (newFrame V s.pos id) b)
        rw [h']; exact (hm.priv p i b hpv h).same (hsame _ _)
    · intro p i b hb hst
      dsimp only
      rw [hlt b (hi.table _ _ _ hb).1]
      exact hst
    · intro p i b hb hst
      dsimp only at hb hst
      rcases hcase p i b hb with h | ⟨h, h'⟩
      · rw [h] at hst; simp [newFrame] at hst
      · rw [h'] at hst; exact ⟨h, hst⟩
    · intro b hb i hm
      dsimp only
      rw [hlt b hb]; exact hm
    · intro b hb _ _
      dsimp only
      rw [hlt b hb]

/-- Pushing a memo entry on the rule stack. -/
theorem MemoG.push {s : St V H} (hm : MemoG X E env s) {id a : Nat} (ha : s.table s.pos id = some a) :
    MemoG X E env { s with stack := a :: s.stack } := by
  have h := hm.inv.table _ _ _ ha
  refine ⟨⟨hm.inv.pos, hm.inv.table, hm.inv.frame, ?_, ?_⟩, hm.mask, hm.up, hm.low, hm.good, hm.nil, hm.priv⟩
  · intro b hb
    rcases List.mem_cons.mp hb with rfl | hb
    · exact ⟨h.1, Nat.le_of_eq h.2.1⟩
    · exact hm.inv.stack b hb
  · refine List.pairwise_cons.mpr ⟨fun b hb => ?_, hm.inv.sorted⟩
    dsimp only
    rw [h.2.1]
    exact (hm.inv.stack b hb).2

/-- Popping it. -/
theorem NextG.pop {s t : St V H} {id a : Nat} (ha : s.table s.pos id = some a)
    (hn : NextG X E env { s with stack := a :: s.stack } t) : NextG X E env s (stackPop t) := by
  have hstk : t.stack.tail = s.stack := by rw [hn.ext.stack]; rfl
  refine ⟨⟨hn.ext.next, hn.ext.pos, hstk, hn.ext.loop, hn.ext.frame⟩, fun hm => ?_, hn.keep, hn.stay, hn.busy, hn.grow,
    hn.same⟩
  have h := hn.memo (hm.push ha)
  refine ⟨⟨h.inv.pos, h.inv.table, h.inv.frame, ?_, ?_⟩, h.mask, h.up, h.low, h.good, h.nil, h.priv⟩
  · intro b hb
    exact h.inv.stack b (List.mem_of_mem_tail hb)
  · exact List.Pairwise.sublist (List.tail_sublist _) h.inv.sorted

end
end Joeson
