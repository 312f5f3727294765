import Verif.Proofs.LeftRank2
/-! # The engine refines `gpeg`: a rule in progress -/

namespace Joeson
variable {V H : Type}

/-- From the state `s` in which rule `id`, with memo entry `a`, is entered to a state `t` in the middle of it. -/
structure MidG (X : Privacy) (E : PegEnv V) (env : Env V H) (id a : Nat) (s t : St V H) : Prop where
  memo : MemoG X E env t
  idle : (s.heap a).loopstage ≤ 0
  next : s.next ≤ t.next
  pos : s.pos ≤ t.pos
  stack : t.stack = s.stack
  here : t.table s.pos id = some a
  frame : ∀ b, b < s.next → (t.heap b).pos = (s.heap b).pos ∧ (t.heap b).id = (s.heap b).id
  ext : ∀ b, b < s.next → b ≠ a → FrameExt (s.heap b) (t.heap b)
  keep : ∀ p i b, s.table p i = some b → X.pv i = false ∨ 1 ≤ (s.heap b).loopstage → t.table p i = some b
  busy : ∀ p i b, t.table p i = some b → b ≠ a → 1 ≤ (t.heap b).loopstage →
    s.table p i = some b ∧ 1 ≤ (s.heap b).loopstage
  grow : ∀ b, b < s.next → ∀ i, Masked (s.heap b) i → Masked (t.heap b) i
  same : ∀ b, b < s.next → b ≠ a → (s.heap b).loopstage = 1 → (t.heap b).loopstage = 1 →
    (t.heap b).wipemask = (s.heap b).wipemask

section
variable {X : Privacy} {E : PegEnv V} {env : Env V H} {B : Prop} {k d q j id a : Nat} {c : Ctx V}

theorem MidG.refl {s : St V H} (hm : MemoG X E env s) (ha : s.table s.pos id = some a)
    (hi : (s.heap a).loopstage ≤ 0) : MidG X E env id a s s :=
  ⟨hm, hi, Nat.le_refl _, Nat.le_refl _, rfl, ha, fun _ _ => ⟨rfl, rfl⟩, fun _ _ _ => FrameExt.refl _, fun _ _ _ h _ => h,
    fun _ _ _ h _ h' => ⟨h, h'⟩, fun _ _ _ h => h, fun _ _ _ _ _ => rfl⟩

theorem MidG.step {s t u : St V H} (h : MidG X E env id a s t) (hs : Inv env (fun _ => False) s)
    (hb : X.pv id = false ∨ 1 ≤ (t.heap a).loopstage)
    (hn : NextG X E env t u) : MidG X E env id a s u where
  memo := hn.memo h.memo
  idle := h.idle
  next := Nat.le_trans h.next hn.ext.next
  pos := Nat.le_trans h.pos hn.ext.pos
  stack := hn.ext.stack.trans h.stack
  here := hn.keep _ _ _ h.here hb
  frame b hb := by
    have := hn.ext.frame b (Nat.lt_of_lt_of_le hb h.next)
    exact ⟨this.pos.trans (h.frame b hb).1, this.id.trans (h.frame b hb).2⟩
  ext b hb hba := (h.ext b hb hba).trans (hn.ext.frame b (Nat.lt_of_lt_of_le hb h.next))
  keep p i b hb' hc := by
    refine hn.keep p i b (h.keep p i b hb' hc) (hc.imp_right fun hc => ?_)
    have hba : b ≠ a := by rintro rfl; have := h.idle; omega
    exact (h.ext b (hs.table _ _ _ hb').1 hba).ge1 hc
  busy p i b hb hne h1 := by
    obtain ⟨h2, h3⟩ := hn.busy p i b hb h1
    exact h.busy p i b h2 hne h3
  grow b hb i hm := hn.grow b (Nat.lt_of_lt_of_le hb h.next) i (h.grow b hb i hm)
  same b hb hba h1 h2 := by
    have hb' := Nat.lt_of_lt_of_le hb h.next
    rcases (h.ext b hb hba).st1 h1 with h3 | h3
    · exact (hn.same b hb' h3 h2).trans (h.same b hb hba h1 h3)
    · have := (hn.ext.frame b hb').st2 h3
      omega

/-- What happens to the alternatives when the entry `f` of their rule becomes `f'`: they are not needed any more, or the
seed is the same, or those that depend on it are gone. -/
def AltsOk (X : Privacy) (id : Nat) (t : St V H) (p : Nat) (f f' : Frame V) : Prop :=
  DoneF f' ∨ (¬ DoneF f ∧ (seedOf f' = seedOf f ∨
    ∀ i, X.pv i = true → X.boss i = id → Masked f i → t.table p i = none))

/-- Setting the entry of the rule, and moving the cursor. -/
theorem MidG.upd (hX : X.Ok E.g) {s t : St V H} (hi : Inv env (fun _ => False) s) (h : MidG X E env id a s t)
    (ha : s.table s.pos id = some a) (hca : E.g.cached id = true)
    (f : Frame V → Frame V) (hp : (f (t.heap a)).pos = (t.heap a).pos) (hid : (f (t.heap a)).id = (t.heap a).id)
    (hw : (f (t.heap a)).wipemask = (t.heap a).wipemask)
    (hok : FrameOk env.st.len (fun _ => False) (f (t.heap a))) {p : Nat} (h1 : s.pos ≤ p) (h2 : p ≤ env.st.len)
    (hlow : X.pv id = true → (f (t.heap a)).loopstage ≤ 1)
    (hgood : X.pv id = false → (f (t.heap a)).loopstage ≤ 0 → ∀ e, (f (t.heap a)).endpos = some e →
      ∃ k d, gpeg X.pv E k d none (.rule id) 0 s.pos = .ok ((f (t.heap a)).result.map (·, e)))
    (hnil : X.pv id = false → (f (t.heap a)).loopstage ≤ 0 → (f (t.heap a)).endpos = none →
      (t.heap a).wipemask.isSome → ∃ k d, gpeg X.pv E k d none (.rule id) 0 s.pos = .ok none)
    (hpriv : X.pv id = true → PrivOk X E t s.pos id (f (t.heap a)))
    (halts : X.pv id = false → AltsOk X id t s.pos (t.heap a) (f (t.heap a)))
    {u : St V H} (hu : u = { t with heap := setHeap t.heap a (f (t.heap a)), pos := p }) :
    MidG X E env id a s u := by
  have hat := h.here
  have hia := h.memo.inv.table _ _ _ hat
  have hup := Inv.upd h.memo.inv a f hp hid hok
  have hself : u.heap a = f (t.heap a) := by rw [hu]; exact setHeap_self _ _ _
  have hne : ∀ b, b ≠ a → u.heap b = t.heap b := fun b hb => by rw [hu]; exact setHeap_ne _ _ hb
  have htab : u.table = t.table := by rw [hu]
  have hnx : u.next = t.next := by rw [hu]
  have hfp : ∀ b, (u.heap b).pos = (t.heap b).pos ∧ (u.heap b).id = (t.heap b).id := by
    intro b
    by_cases hb : b = a
    · subst hb; rw [hself]; exact ⟨hp, hid⟩
    · rw [hne b hb]; exact ⟨rfl, rfl⟩
  have hmk : ∀ b, (u.heap b).wipemask = (t.heap b).wipemask := by
    intro b
    by_cases hb : b = a
    · subst hb; rw [hself]; exact hw
    · rw [hne b hb]
  have hmsk : ∀ b i, Masked (u.heap b) i ↔ Masked (t.heap b) i := fun b i => by unfold Masked; rw [hmk b]
  -- the entries of rule `id` at this position
  have hent : ∀ p' i b, t.table p' i = some b → b = a → p' = s.pos ∧ i = id := by
    intro p' i b hb hba
    subst hba
    have h' := h.memo.inv.table _ _ _ hb
    exact ⟨h'.2.1.symm.trans hia.2.1, h'.2.2.1.symm.trans hia.2.2.1⟩
  have hsame : ∀ p' b, ¬ (p' = s.pos ∧ b = id) → SameAt E t u p' b := by
    intro p' b hpb
    refine SameAt.of_entry (by rw [htab]) fun x hx => hne x fun hxa => ?_
    exact hpb (hent p' b x hx hxa)
  refine ⟨⟨?_, ?_, ?_, ?_, ?_, ?_, ?_⟩, h.idle, ?_, ?_, ?_, ?_, ?_, ?_, ?_, ?_, ?_, ?_⟩
  · rw [hu]
    refine ⟨h2, hup.table, hup.frame, ?_, hup.sorted⟩
    intro b hb
    have hbs : b ∈ s.stack := by rw [← h.stack]; exact hb
    refine ⟨(hup.stack b hb).1, ?_⟩
    have := (hfp b).1
    rw [hu] at this
    rw [this, (h.frame b (hi.stack b hbs).1).1]
    exact Nat.le_trans (hi.stack b hbs).2 h1
  · intro b hb i hm
    rw [hnx] at hb
    rw [(hfp b).2]
    exact h.memo.mask b hb i ((hmsk b i).mp hm)
  · intro b hb i hm hpv
    rw [hnx] at hb
    exact (hmsk b _).mpr (h.memo.up b hb i ((hmsk b i).mp hm) hpv)
  · intro b hb hpv
    rw [hnx] at hb
    by_cases hba : b = a
    · subst hba
      rw [hself] at hpv ⊢
      rw [hid, hia.2.2.1] at hpv
      exact hlow hpv
    · rw [hne b hba] at hpv ⊢
      exact h.memo.low b hb hpv
  · intro p' i b hpv hb
    rw [htab] at hb
    by_cases hba : b = a
    · obtain ⟨rfl, rfl⟩ := hent p' i b hb hba
      subst hba
      rw [hself]
      exact hgood hpv
    · rw [hne b hba]; exact h.memo.good _ _ _ hpv hb
  · intro p' i b hpv hb
    rw [htab] at hb
    by_cases hba : b = a
    · obtain ⟨rfl, rfl⟩ := hent p' i b hb hba
      subst hba
      rw [hself, hw]
      exact hnil hpv
    · rw [hne b hba]; exact h.memo.nil _ _ _ hpv hb
  · intro p' i b hpv hb
    rw [htab] at hb
    by_cases hba : b = a
    · obtain ⟨rfl, rfl⟩ := hent p' i b hb hba
      subst hba
      rw [hself]
      refine (hpriv hpv).same (hsame _ _ ?_)
      rintro ⟨-, h3⟩
      have := hX.last i hpv
      rw [h3, hpv] at this
      cases this
    · rw [hne b hba]
      have hold := h.memo.priv p' i b hpv hb
      by_cases hpb : p' = s.pos ∧ X.boss i = id
      · obtain ⟨rfl, h3⟩ := hpb
        have hbpv : X.pv id = false := by rw [← h3]; exact hX.last i hpv
        have hua : u.table s.pos id = some a := by rw [htab]; exact hat
        rcases halts hbpv with hd | ⟨hd, hs⟩
        · intro _ _ _ ho
          rw [h3] at ho
          rcases ho with ho | ho
          · rw [hca] at ho; cases ho
          · exact absurd (by rw [hself]; exact hd) (ho a hua)
        · intro h4 e h5 _
          have hopen : Opened E t s.pos (X.boss i) := by
            rw [h3]
            refine Or.inr fun x hx => ?_
            rw [hat] at hx
            cases hx
            exact hd
          obtain ⟨c, k, d, h6, h7⟩ := hold h4 e h5 hopen
          refine ⟨c, k, d, ?_, h7⟩
          rw [h3] at h6 ⊢
          have hlow' : (ctxAt E u s.pos id).low = (ctxAt E t s.pos id).low := by
            unfold ctxAt
            rw [if_pos hca, if_pos hca]
            rfl
          rcases h6 with h6 | ⟨⟨x, hx, h6⟩, h6'⟩
          · exact Or.inl (h6.trans hlow'.symm)
          · rw [hat] at hx
            cases hx
            rcases hs with hs | hs
            · refine Or.inr ⟨⟨a, hua, (hmsk a i).mpr h6⟩, ?_⟩
              rw [h6']
              unfold ctxAt seedAt
              rw [if_pos hca, if_pos hca, hua, hat]
              dsimp only
              rw [hself, hs]
            · have := hs i hpv h3 h6
              rw [this] at hb
              cases hb
      · exact hold.same (hsame _ _ hpb)
  · rw [hnx]; exact h.next
  · rw [hu]; exact h1
  · rw [hu]; exact h.stack
  · rw [htab]; exact hat
  · intro b hb; exact ⟨(hfp b).1.trans (h.frame b hb).1, (hfp b).2.trans (h.frame b hb).2⟩
  · intro b hb hba; rw [hne b hba]; exact h.ext b hb hba
  · rw [htab]; exact h.keep
  · intro p' i b hb hba h1
    rw [htab] at hb
    rw [hne b hba] at h1
    exact h.busy p' i b hb hba h1
  · intro b hb i hm; exact (hmsk b i).mpr (h.grow b hb i hm)
  · intro b hb hba h3 h4
    rw [hmk b]
    rw [hne b hba] at h4
    exact h.same b hb hba h3 h4

/-- The rule is finished. -/
theorem MidG.toNext {s u : St V H} (h : MidG X E env id a s u) (hi : Inv env (fun _ => False) s) (he : Ext env s u)
    (hst : (u.heap a).loopstage ≤ 0) : NextG X E env s u where
  ext := he
  memo _ := h.memo
  keep := h.keep
  stay p i b hb h1 := (he.frame b (hi.table _ _ _ hb).1).ge1 h1
  busy p i b hb h1 := h.busy p i b hb (by rintro rfl; omega) h1
  grow := h.grow
  same b hb h1 h2 := h.same b hb (by rintro rfl; have := h.idle; omega) h1 h2

/-- Private rules of `id` are not in progress where `id` is not. -/
theorem BusyG.idle {s : St V H} (hbz : BusyG X E k d s) {p : Nat} (ha : s.table p id = some a)
    (hst : (s.heap a).loopstage ≤ 0) (hca : E.g.cached id = true) {i b : Nat} (hpv : X.pv i = true) (hb : X.boss i = id)
    (hib : s.table p i = some b) : (s.heap b).loopstage ≤ 0 := by
  by_cases h : (s.heap b).loopstage ≤ 0
  · exact h
  · obtain ⟨-, h1⟩ := hbz.priv p i b hpv hib (by omega)
    rw [hb] at h1
    obtain ⟨x, hx, h2⟩ := h1 hca
    rw [ha] at hx
    cases hx
    omega

/-- parsectx.go:107-135: the table without the rules of the mask. -/
def wiped (s : St V H) (p : Nat) (m : Nat → Bool) : St V H :=
  { s with table := fun p' i => if p' = p ∧ m i = true then none else s.table p' i }

theorem wipeWith_eq {s : St V H} {m : Nat → Bool} (hm : (s.heap a).wipemask = some m) : wipeWith a s =
    .ok (fun i => if m i then s.table (s.heap a).pos i else none, wiped s (s.heap a).pos m) := by
  unfold wipeWith
  rw [hm]
  rfl

theorem wiped_some {s : St V H} {p p' i b : Nat} {m : Nat → Bool} (h : (wiped s p m).table p' i = some b) :
    s.table p' i = some b ∧ ¬ (p' = p ∧ m i = true) := by
  unfold wiped at h
  dsimp only at h
  split at h
  · cases h
  · rename_i hn; exact ⟨h, hn⟩

theorem wiped_of {s : St V H} {p p' i : Nat} {m : Nat → Bool} (h : ¬ (p' = p ∧ m i = true)) :
    (wiped s p m).table p' i = s.table p' i := by
  unfold wiped
  dsimp only
  rw [if_neg h]

/-- Wiping the private rules that depend on the seed. -/
theorem MidG.wipe (hX : X.Ok E.g) {s t : St V H} (h : MidG X E env id a s t) (hpub : X.pv id = false)
    (hnb : ∀ i b, X.pv i = true → X.boss i = id → s.table s.pos i = some b → (s.heap b).loopstage ≤ 0)
    {m : Nat → Bool} (hm : (t.heap a).wipemask = some m) : MidG X E env id a s (wiped t s.pos m) := by
  have hia := h.memo.inv.table _ _ _ h.here
  have hmp : ∀ i, m i = true → X.pv i = true ∧ X.boss i = id := fun i hi => by
    have := h.memo.mask a hia.1 i ⟨m, hm, hi⟩
    rw [hia.2.2.1] at this
    exact this
  have hpubt : ∀ p' i, X.pv i = false → (wiped t s.pos m).table p' i = t.table p' i := fun p' i hi =>
    wiped_of fun hc => by
      have := (hmp i hc.2).1
      rw [hi] at this
      cases this
  have hsame : ∀ p' b, X.pv b = false → SameAt E t (wiped t s.pos m) p' b := fun p' b hb =>
    SameAt.of_entry (hpubt p' b hb) fun _ _ => rfl
  refine ⟨⟨⟨h.memo.inv.pos, ?_, h.memo.inv.frame, h.memo.inv.stack, h.memo.inv.sorted⟩, h.memo.mask, h.memo.up, h.memo.low,
    ?_, ?_, ?_⟩, h.idle, h.next, h.pos, h.stack, ?_, h.frame, h.ext, ?_, ?_, h.grow, h.same⟩
  · intro p' i b hb
    exact h.memo.inv.table _ _ _ (wiped_some hb).1
  · intro p' i b hpv hb
    exact h.memo.good p' i b hpv (wiped_some hb).1
  · intro p' i b hpv hb
    exact h.memo.nil p' i b hpv (wiped_some hb).1
  · intro p' i b hpv hb
    exact (h.memo.priv p' i b hpv (wiped_some hb).1).same (hsame _ _ (hX.last i hpv))
  · rw [hpubt _ _ hpub]; exact h.here
  · intro p' i b hb hc
    rw [wiped_of]
    · exact h.keep p' i b hb hc
    · rintro ⟨rfl, hi⟩
      obtain ⟨h1, h2⟩ := hmp i hi
      rcases hc with hc | hc
      · rw [h1] at hc; cases hc
      · have := hnb i b h1 h2 hb
        omega
  · intro p' i b hb hba h1
    exact h.busy p' i b (wiped_some hb).1 hba h1

/-- The end of the growth: the entries of the private rules that were stashed with the best result come back, and are not
needed any more. -/
theorem MidG.finish (hX : X.Ok E.g) {s t : St V H} (h : MidG X E env id a s t) (hpub : X.pv id = false)
    (hca : E.g.cached id = true)
    (hnb : ∀ i b, X.pv i = true → X.boss i = id → s.table s.pos i = some b → (s.heap b).loopstage ≤ 0)
    {m : Nat → Bool} (hm : (t.heap a).wipemask = some m) {stash : Nat → Option Nat}
    (hstash : ∀ i b, stash i = some b → X.pv i = true ∧ X.boss i = id ∧ (t.heap b).pos = s.pos ∧ (t.heap b).loopstage ≤ 0)
    (f : Frame V → Frame V) (hid : (f (t.heap a)).id = (t.heap a).id) (hp : (f (t.heap a)).pos = (t.heap a).pos)
    (hw : (f (t.heap a)).wipemask = (t.heap a).wipemask) {p : Nat} (h1 : s.pos ≤ p)
    (hdone : DoneF (f (t.heap a)))
    (hgood : ∀ e, (f (t.heap a)).endpos = some e →
      ∃ k d, gpeg X.pv E k d none (.rule id) 0 s.pos = .ok ((f (t.heap a)).result.map (·, e)))
    {u : St V H} (hinv : Inv env (fun _ => False) u)
    (hu : u = { t with
      heap := setHeap t.heap a (f (t.heap a)), pos := p, table := (restoreWith stash (wiped t s.pos m)).table }) : MidG X E env id a s u := by
  have hat := h.here
  have hia := h.memo.inv.table _ _ _ hat
  have hself : u.heap a = f (t.heap a) := by rw [hu]; exact setHeap_self _ _ _
  have hne : ∀ b, b ≠ a → u.heap b = t.heap b := fun b hb => by rw [hu]; exact setHeap_ne _ _ hb
  have hnx : u.next = t.next := by rw [hu]
  have hfp : ∀ b, (u.heap b).pos = (t.heap b).pos ∧ (u.heap b).id = (t.heap b).id := by
    intro b
    by_cases hb : b = a
    · subst hb; rw [hself]; exact ⟨hp, hid⟩
    · rw [hne b hb]; exact ⟨rfl, rfl⟩
  have hmk : ∀ b, (u.heap b).wipemask = (t.heap b).wipemask := by
    intro b
    by_cases hb : b = a
    · subst hb; rw [hself]; exact hw
    · rw [hne b hb]
  have hmsk : ∀ b i, Masked (u.heap b) i ↔ Masked (t.heap b) i := fun b i => by unfold Masked; rw [hmk b]
  have hmp : ∀ i, m i = true → X.pv i = true ∧ X.boss i = id := fun i hi => by
    have := h.memo.mask a hia.1 i ⟨m, hm, hi⟩
    rw [hia.2.2.1] at this
    exact this
  -- the table
  have htab : ∀ p' i, ¬ (p' = s.pos ∧ X.pv i = true ∧ X.boss i = id) → u.table p' i = t.table p' i := by
    intro p' i hc
    rw [hu]
    show (restoreWith stash (wiped t s.pos m)).table p' i = _
    unfold restoreWith
    dsimp only
    have hwp : (wiped t s.pos m).table p' i = t.table p' i :=
      wiped_of fun hc' => hc ⟨hc'.1, hmp i hc'.2⟩
    cases hst : stash i with
    | none => exact hwp
    | some b =>
      obtain ⟨h2, h3, h4, -⟩ := hstash i b hst
      dsimp only
      rw [if_neg]
      · exact hwp
      · intro h5
        exact hc ⟨h5.trans h4, h2, h3⟩
  have hcase : ∀ p' i b, u.table p' i = some b → t.table p' i = some b ∨
      (p' = s.pos ∧ X.pv i = true ∧ X.boss i = id ∧ (t.heap b).loopstage ≤ 0) := by
    intro p' i b hb
    rw [hu] at hb
    have hb : (restoreWith stash (wiped t s.pos m)).table p' i = some b := hb
    unfold restoreWith at hb
    dsimp only at hb
    cases hst : stash i with
    | none => rw [hst] at hb; exact Or.inl (wiped_some hb).1
    | some x =>
      rw [hst] at hb
      dsimp only at hb
      obtain ⟨h2, h3, h4, h5⟩ := hstash i x hst
      split at hb
      · rename_i hpx
        cases hb
        exact Or.inr ⟨hpx.trans h4, h2, h3, h5⟩
      · exact Or.inl (wiped_some hb).1
  have hpubt : ∀ p' i, X.pv i = false → u.table p' i = t.table p' i := fun p' i hi => htab p' i fun hc => by
    rw [hi] at hc
    cases hc.2.1
  have hent : ∀ p' i b, t.table p' i = some b → b = a → p' = s.pos ∧ i = id := by
    intro p' i b hb hba
    subst hba
    have h' := h.memo.inv.table _ _ _ hb
    exact ⟨h'.2.1.symm.trans hia.2.1, h'.2.2.1.symm.trans hia.2.2.1⟩
  have hua : u.table s.pos id = some a := by rw [hpubt _ _ hpub]; exact hat
  refine ⟨⟨hinv, ?_, ?_, ?_, ?_, ?_, ?_⟩, h.idle, ?_, ?_, ?_, hua, ?_, ?_, ?_, ?_, ?_, ?_⟩
  · intro b hb i hm
    rw [hnx] at hb
    rw [(hfp b).2]
    exact h.memo.mask b hb i ((hmsk b i).mp hm)
  · intro b hb i hm hpv
    rw [hnx] at hb
    exact (hmsk b _).mpr (h.memo.up b hb i ((hmsk b i).mp hm) hpv)
  · intro b hb hpv
    rw [hnx] at hb
    by_cases hba : b = a
    · subst hba
      rw [hself, hid, hia.2.2.1, hpub] at hpv
      cases hpv
    · rw [hne b hba] at hpv ⊢
      exact h.memo.low b hb hpv
  · intro p' i b hpv hb
    rw [hpubt _ _ hpv] at hb
    by_cases hba : b = a
    · obtain ⟨rfl, rfl⟩ := hent p' i b hb hba
      subst hba
      rw [hself]
      exact fun _ => hgood
    · rw [hne b hba]; exact h.memo.good _ _ _ hpv hb
  · intro p' i b hpv hb
    rw [hpubt _ _ hpv] at hb
    by_cases hba : b = a
    · subst hba
      rw [hself]
      exact fun _ he => absurd he hdone.2
    · rw [hne b hba]; exact h.memo.nil _ _ _ hpv hb
  · intro p' i b hpv hb
    by_cases hpb : p' = s.pos ∧ X.boss i = id
    · obtain ⟨rfl, h3⟩ := hpb
      intro _ _ _ ho
      rw [h3] at ho
      rcases ho with ho | ho
      · rw [hca] at ho; cases ho
      · exact absurd (by rw [hself]; exact hdone) (ho a hua)
    · have hbt : t.table p' i = some b := by
        rw [← htab p' i fun hc => hpb ⟨hc.1, hc.2.2⟩]; exact hb
      have hba : b ≠ a := by
        intro hba
        obtain ⟨-, rfl⟩ := hent p' i b hbt hba
        rw [hpub] at hpv
        cases hpv
      rw [hne b hba]
      have hbp := hX.last i hpv
      refine (h.memo.priv p' i b hpv hbt).same (SameAt.of_entry (hpubt _ _ hbp) fun x hx => hne x fun hxa => ?_)
      exact hpb (hent _ _ _ hx hxa)
  · rw [hnx]; exact h.next
  · rw [hu]; exact h1
  · rw [hu]; exact h.stack
  · intro b hb; exact ⟨(hfp b).1.trans (h.frame b hb).1, (hfp b).2.trans (h.frame b hb).2⟩
  · intro b hb hba; rw [hne b hba]; exact h.ext b hb hba
  · intro p' i b hb hc
    rw [htab]
    · exact h.keep p' i b hb hc
    · rintro ⟨rfl, h2, h3⟩
      rcases hc with hc | hc
      · rw [h2] at hc; cases hc
      · have := hnb i b h2 h3 hb
        omega
  · intro p' i b hb hba h2
    rw [hne b hba] at h2
    rcases hcase p' i b hb with h3 | ⟨-, -, -, h3⟩
    · exact h.busy p' i b h3 hba h2
    · omega
  · intro b hb i hm; exact (hmsk b i).mpr (h.grow b hb i hm)
  · intro b hb hba h3 h4
    rw [hmk b]
    rw [hne b hba] at h4
    exact h.same b hb hba h3 h4

/-- The contexts of the rules in progress stay. -/
theorem MidG.ctx {s t : St V H} (hi : Inv env (fun _ => False) s) (h : MidG X E env id a s t)
    {p b : Nat} (hb : X.pv b = false) (hac : Active E s p b) : ctxAt E t p b = ctxAt E s p b ∧ Active E t p b := by
  by_cases hc : E.g.cached b = true
  · obtain ⟨x, h1, h2⟩ := hac hc
    have hxa : x ≠ a := by rintro rfl; have := h.idle; omega
    have hx := (hi.table _ _ _ h1).1
    have hk := h.keep _ _ _ h1 (Or.inl hb)
    have he := h.ext x hx hxa
    refine ⟨?_, fun _ => ⟨x, hk, he.ge1 h2⟩⟩
    unfold ctxAt seedAt
    rw [if_pos hc, if_pos hc, hk, h1]
    dsimp only
    rw [seedOf_ext h2 (hi.frame x hx).hi he]
  · refine ⟨?_, fun h => absurd h hc⟩
    unfold ctxAt
    rw [if_neg hc, if_neg hc]

/-- The rules in progress, among them this one. -/
theorem MidG.busyG (hX : X.Ok E.g) {d1 : Nat} {s t : St V H} (hi : Inv env (fun _ => False) s) (h : MidG X E env id a s t)
    (hbz : BusyG X E k d1 s)
    (hpub : X.pv id = false → gpeg X.pv E k d1 none (.rule id) 0 s.pos = .oof)
    (hprv : X.pv id = true → gpeg X.pv E k d1 (ctxAt E s s.pos (X.boss id)) (.rule id) s.pos s.pos = .oof ∧
      Active E s s.pos (X.boss id)) : BusyG X E k d1 t := by
  have hia := h.memo.inv.table _ _ _ h.here
  have hent : ∀ p' i b, t.table p' i = some b → b = a → p' = s.pos ∧ i = id := by
    intro p' i b hb hba
    subst hba
    have h' := h.memo.inv.table _ _ _ hb
    exact ⟨h'.2.1.symm.trans hia.2.1, h'.2.2.1.symm.trans hia.2.2.1⟩
  constructor
  · intro p i b hpv hb h1
    by_cases hba : b = a
    · obtain ⟨rfl, rfl⟩ := hent p i b hb hba
      exact hpub hpv
    · obtain ⟨h2, h3⟩ := h.busy p i b hb hba h1
      exact hbz.pub p i b hpv h2 h3
  · intro p i b hpv hb h1
    have hbp := hX.last i hpv
    by_cases hba : b = a
    · obtain ⟨rfl, rfl⟩ := hent p i b hb hba
      obtain ⟨h2, h3⟩ := hprv hpv
      have := h.ctx hi hbp h3
      rw [this.1]
      exact ⟨h2, this.2⟩
    · obtain ⟨h2, h3⟩ := h.busy p i b hb hba h1
      obtain ⟨h4, h5⟩ := hbz.priv p i b hpv h2 h3
      have := h.ctx hi hbp h5
      rw [this.1]
      exact ⟨h4, this.2⟩

end
end Joeson
