import Verif.Proofs.TraceLog3
/-!
# An attempt at a rule, noted

It begins with its opening line and ends with a line that shows its value. What is between is a whole part of a trace.
-/

namespace Joeson
variable {V H : Type}

/-- Between the two states, whole attempts were noted. -/
def Noted (s t : LSt V H) : Prop :=
  t.stack.length = s.stack.length ∧
    ∃ l, t.h.2 = s.h.2 ++ l ∧ ∀ o : List OpenAttempt, o.length = s.stack.length → readLines everyDepth o l = some o

/-- Between the two states, whole attempts were noted, and iterations of the rule that is being attempted. -/
def NotedIn (id : Nat) (s t : LSt V H) : Prop :=
  t.stack.length = s.stack.length ∧
    ∃ l, t.h.2 = s.h.2 ++ l ∧ ∀ (q : Nat) (o : List OpenAttempt), o.length + 1 = s.stack.length →
      readLines everyDepth (⟨id, q, s.stack.length⟩ :: o) l = some (⟨id, q, s.stack.length⟩ :: o)

theorem noted_carry : CarryL (Noted (V := V) (H := H)) where
  refl s := ⟨rfl, [], (List.append_nil _).symm, fun _ _ => rfl⟩
  trans := by
    rintro s t u ⟨h1, l, h2, h3⟩ ⟨k1, l', k2, k3⟩
    refine ⟨k1.trans h1, l ++ l', by rw [k2, h2, List.append_assoc], fun o ho => ?_⟩
    rw [readLines_append, h3 o ho]
    exact k3 o (ho.trans h1.symm)
  aux := by
    rintro s t t' e1 e2 ⟨h1, l, h2, h3⟩
    exact ⟨by rw [e1, h1], l, by rw [e2, h2], h3⟩

theorem inside_carry (id : Nat) : CarryL (NotedIn (V := V) (H := H) id) where
  refl s := ⟨rfl, [], (List.append_nil _).symm, fun _ _ _ => rfl⟩
  trans := by
    rintro s t u ⟨h1, l, h2, h3⟩ ⟨k1, l', k2, k3⟩
    refine ⟨k1.trans h1, l ++ l', by rw [k2, h2, List.append_assoc], fun q o ho => ?_⟩
    rw [readLines_append, h3 q o ho]
    have := k3 q o (ho.trans h1.symm)
    rw [h1] at this
    exact this
  aux := by
    rintro s t t' e1 e2 ⟨h1, l, h2, h3⟩
    exact ⟨by rw [e1, h1], l, by rw [e2, h2], h3⟩

theorem Noted.inside {s t : LSt V H} (h : Noted s t) (id : Nat) : NotedIn id s t := by
  obtain ⟨h1, l, h2, h3⟩ := h
  exact ⟨h1, l, h2, fun q o ho => h3 _ ho⟩

theorem iteration_inside (id : Nat) (s : LSt V H) : NotedIn id s (addLine id .iteration s) := by
  refine ⟨rfl, _, rfl, fun q o _ => ?_⟩
  simp [readLines, Msg.closes, Msg.atStart]

theorem recordSay_gets (env : Env V (H × List LogLine)) (sh : Bool) (id : Nat) (m : Msg) (s : LSt V H) :
    Gets (recordSay env sh id m s) (fun t => t = addLine id m s) := by
  unfold recordSay
  exact (gets_any (logIf env sh s)).bind fun _ _ => rfl

theorem getFrame_getsL (env : Env V H) (id : Nat) (s : St V H) :
    Gets (getFrame env id s) (fun x => x.2.stack = s.stack ∧ x.2.h = s.h ∧ x.2.pos = s.pos) := by
  unfold getFrame
  split
  · split <;> exact ⟨rfl, rfl, rfl⟩
  · trivial

theorem wipeWith_getsL (a : Nat) (s : St V H) :
    Gets (wipeWith a s) (fun x => x.2.stack = s.stack ∧ x.2.h = s.h ∧ x.2.pos = s.pos) := by
  unfold wipeWith
  split
  · trivial
  · exact ⟨rfl, rfl, rfl⟩

theorem growLoopT_noted (env : Env V (H × List LogLine)) (sh : Bool) (id : Nat) {f : Run V (H × List LogLine)}
    (hf : ∀ s, Gets (f s) (fun x => Noted s x.2)) (a p : Nat) : ∀ (k : Nat) (r : V) (s : LSt V H),
    Gets (growLoopT env (recordSay env) sh id f a p k r s) (fun x => NotedIn id s x.2)
  | 0, _, _ => trivial
  | k + 1, r, s => by
    have c := inside_carry (V := V) (H := H) id
    unfold growLoopT
    refine (wipeWith_getsL a s).bind ?_
    rintro ⟨st, s1⟩ ⟨e1, e2, e3⟩
    dsimp only at *
    refine (recordSay_gets env sh id .iteration (cacheSet a (some r) (some s1.pos) s1)).bind ?_
    rintro _ rfl
    refine (setPos_gets env p _).bind ?_
    rintro _ rfl
    have i1 : NotedIn id s (addLine id .iteration (cacheSet a (some r) (some s1.pos) s1)) :=
      c.trans (c.aux (t := s) (cacheSet a (some r) (some s1.pos) s1) e1 (by show s1.h.2 = _; rw [e2]) (c.refl s)) (iteration_inside id _)
    have i2 := c.pos p i1
    refine (hf _).bind ?_
    rintro ⟨r', s2⟩ h2
    have i3 := c.trans i2 (h2.inside id)
    dsimp only
    split
    · exact i3
    · cases r' with
      | none => exact i3
      | some r' => exact (growLoopT_noted env sh id hf a p k r' s2).imp fun x hx => c.trans i3 hx

/-- What an attempt at rule `id` in the state `s` (the rule is on the stack already) notes. -/
def Attempt (text : V → H → Bytes) (id : Nat) (s : LSt V H) (x : Option V × LSt V H) : Prop :=
  x.2.stack.length = s.stack.length ∧
    ∃ (inner : List LogLine) (m : Msg) (q : Nat),
      x.2.h.2 = s.h.2 ++ (⟨id, s.pos, s.stack.length, .enter s.counter⟩ :: (inner ++ [⟨id, q, s.stack.length, m⟩])) ∧
      m.closes = true ∧ (m.atStart = true → q = s.pos ∧ inner = []) ∧ m.shows = x.1.map (fun v => text v x.2.h.1) ∧
      ∀ (p : Nat) (o : List OpenAttempt), o.length + 1 = s.stack.length →
        readLines everyDepth (⟨id, p, s.stack.length⟩ :: o) inner = some (⟨id, p, s.stack.length⟩ :: o)

/-- The end of an attempt. -/
theorem attempt_end {text : V → H → Bytes} {id : Nat} {s t u : LSt V H} {r : Option V} {m : Msg}
    (h : NotedIn id (addLine id (.enter s.counter) s) t) (hm : m.closes = true) (hat : m.atStart = false)
    (hshow : m.shows = r.map fun v => text v t.h.1) (hu : u.stack = t.stack) (hh : u.h = (addLine id m t).h) : Attempt text id s (r, u) := by
  obtain ⟨h1, l, h2, h3⟩ := h
  have h1 : t.stack.length = s.stack.length := h1
  refine ⟨by show u.stack.length = _; rw [hu, h1], l, m, t.pos, ?_, hm, (fun h => by rw [hat] at h; cases h), ?_, h3⟩
  · show u.h.2 = _
    rw [hh]
    show t.h.2 ++ [_] = _
    rw [h2, h1]
    show (s.h.2 ++ [_]) ++ l ++ [_] = _
    simp
  · show m.shows = r.map fun v => text v u.h.1
    rw [hh]
    exact hshow

/-- The end of an attempt that is answered from the memo table. -/
theorem attempt_at {text : V → H → Bytes} {id : Nat} {s t u : LSt V H} {r : Option V} {m : Msg}
    (h1 : t.stack = s.stack) (h2 : t.h = (addLine id (.enter s.counter) s).h) (hp : t.pos = s.pos) (hm : m.closes = true)
    (hshow : m.shows = r.map fun v => text v t.h.1) (hu : u.stack = t.stack) (hh : u.h = (addLine id m t).h) : Attempt text id s (r, u) := by
  refine ⟨by show u.stack.length = _; rw [hu, h1], [], m, t.pos, ?_, hm, (fun _ => ⟨hp, rfl⟩), ?_, fun _ _ _ => rfl⟩
  · show u.h.2 = _
    rw [hh]
    show t.h.2 ++ [_] = _
    rw [h2, h1]
    show (s.h.2 ++ [_]) ++ [_] = _
    simp
  · show m.shows = r.map fun v => text v u.h.1
    rw [hh]
    exact hshow

theorem loopifyT_noted (env : Env V (H × List LogLine)) (text : V → H → Bytes) (k id : Nat) (i : Info) {f : Run V (H × List LogLine)}
    (hf : ∀ s, Gets (f s) (fun x => Noted s x.2)) (s : LSt V H) :
    Gets (loopifyT env (recordSay env) (fun v h => text v h.1) k id i f s) (Attempt text id s) := by
  have c := inside_carry (V := V) (H := H) id
  unfold loopifyT
  dsimp only
  refine (recordSay_gets env _ id _ s).bind ?_
  rintro _ rfl
  generalize hs0 : addLine id (.enter s.counter) s = s0
  have p0 : s0.pos = s.pos := by rw [← hs0]; rfl
  have k0 : s0.stack = s.stack := by rw [← hs0]; rfl
  split
  · refine (hf s0).bind ?_
    rintro ⟨r, t⟩ h1
    have h1 := h1.inside id
    rw [← hs0] at h1
    cases r with
    | none =>
      dsimp only
      split
      · trivial
      · refine (recordSay_gets env _ id _ t).bind ?_
        rintro _ rfl
        exact attempt_end h1 rfl rfl rfl rfl rfl
    | some v =>
      dsimp only
      refine (recordSay_gets env _ id _ t).bind ?_
      rintro _ rfl
      exact attempt_end h1 rfl rfl rfl rfl rfl
  · refine (getFrame_getsL env id s0).bind ?_
    rintro ⟨a, s1⟩ ⟨e1, e2, e3⟩
    dsimp only at *
    have e4 : ∀ s2, s2 = (if (s1.heap a).loopstage < 0 then setStage a 0 s1 else s1) → s2.stack = s0.stack ∧ s2.h = s0.h ∧ s2.pos = s0.pos := by
      rintro _ rfl
      split <;> exact ⟨e1, e2, e3⟩
    generalize (if (s1.heap a).loopstage < 0 then setStage a 0 s1 else s1) = s2 at *
    obtain ⟨f1, f2, f3⟩ := e4 s2 rfl
    split
    · split
      · refine (recordSay_gets env _ id _ s2).bind ?_
        rintro _ rfl
        refine (setPos_gets env _ _).bind ?_
        rintro _ rfl
        exact attempt_at (t := s2) (m := .hit _) (f1.trans k0) (by rw [f2, hs0]) (f3.trans p0) rfl rfl rfl rfl
      · refine (hf _).bind ?_
        rintro ⟨r, s3⟩ h3
        replace h3 : NotedIn id (addLine id (.enter s.counter) s) s3 := by
          rw [hs0]
          exact c.trans (c.aux (t := s0) (cacheSet a none none (setStage a 1 s2)) f1 (by show s2.h.2 = _; rw [f2]) (c.refl s0)) (h3.inside id)
        dsimp only
        split
        · refine (recordSay_gets env _ id _ _).bind ?_
          rintro _ rfl
          exact attempt_end (t := cacheSet a r (some s3.pos) (setStage a 0 s3)) (m := .set _) (c.aux (t := s3) _ rfl rfl h3) rfl rfl rfl rfl rfl
        · split
          · cases r with
            | none =>
              dsimp only
              refine (recordSay_gets env _ id _ _).bind ?_
              rintro _ rfl
              exact attempt_end (m := .loopNil) h3 rfl rfl rfl rfl rfl
            | some r =>
              dsimp only
              have h4 : ∀ s4, s4 = (if (env.trace.loop && (decide (env.trace.filterLine < 0) ||
                  env.st.line (setStage a 3 s3).pos == env.trace.filterLine)) = true
                  then { setStage a 3 s3 with loopStack := i.name :: (setStage a 3 s3).loopStack } else setStage a 3 s3) →
                  NotedIn id (addLine id (.enter s.counter) s) s4 := by
                rintro _ rfl
                split <;> exact c.aux (t := s3) _ rfl rfl h3
              generalize (if (env.trace.loop && (decide (env.trace.filterLine < 0) ||
                  env.st.line (setStage a 3 s3).pos == env.trace.filterLine)) = true
                  then { setStage a 3 s3 with loopStack := i.name :: (setStage a 3 s3).loopStack } else setStage a 3 s3) = s4 at *
              refine (growLoopT_noted env _ id hf a s1.pos k r s4).bind ?_
              rintro ⟨⟨bs, be, br⟩, s5⟩ h5
              have h5 := c.trans (h4 s4 rfl) h5
              dsimp only at *
              refine Out.Holds.bind (Q := fun x => x.stack = s5.stack ∧ x.h = s5.h) ?_ ?_
              · split
                · split
                  · trivial
                  · exact ⟨rfl, rfl⟩
                · exact ⟨rfl, rfl⟩
              · rintro s6 ⟨g1, g2⟩
                refine (wipeWith_getsL a s6).bind ?_
                rintro ⟨_, s7⟩ ⟨j1, j2, _⟩
                dsimp only at *
                refine (setPos_gets env be (restoreWith bs s7)).bind ?_
                rintro _ rfl
                refine (recordSay_gets env _ id _ _).bind ?_
                rintro _ rfl
                exact attempt_end (t := { restoreWith bs s7 with pos := be }) (m := .done _)
                  (c.aux (t := s5) _ (j1.trans g1) (by show s7.h.2 = _; rw [j2, g2]) h5) rfl rfl rfl rfl rfl
          · trivial
    · split
      · have e5 : ∀ s3, s3 = (if (s2.heap a).loopstage = 1 then setStage a 2 s2 else s2) → s3.stack = s0.stack ∧ s3.h = s0.h ∧ s3.pos = s0.pos := by
          rintro _ rfl
          split <;> exact ⟨f1, f2, f3⟩
        generalize (if (s2.heap a).loopstage = 1 then setStage a 2 s2 else s2) = s3 at *
        obtain ⟨g1, g2, g3⟩ := e5 s3 rfl
        refine (recordSay_gets env _ id _ s3).bind ?_
        rintro _ rfl
        refine (gets_any (collectMask _ _ _ _ _)).bind fun m _ => ?_
        have hr : ((updFrame a (fun f => { f with wipemask := some m }) (addLine id (.base ((s3.heap a).result.map fun v => text v s3.h.1)) s3)).heap a).result = (s3.heap a).result := by
          simp [updFrame, setHeap, addLine]
        rw [hr]
        split
        · refine (setPos_gets env _ _).bind ?_
          rintro _ rfl
          exact attempt_at (t := s3) (m := .base _) (g1.trans k0) (by rw [g2, hs0]) (g3.trans p0) rfl rfl rfl rfl
        · exact attempt_at (t := s3) (m := .base _) (g1.trans k0) (by rw [g2, hs0]) (g3.trans p0) rfl rfl rfl rfl
      · trivial

/-- The lines of an attempt, read. -/
theorem Attempt.noted {text : V → H → Bytes} {id : Nat} {s : LSt V H} {x : Option V × LSt V H} (h : Attempt text id s x) {l : List LogLine}
    (hl : x.2.h.2 = s.h.2 ++ l) (o : List OpenAttempt) (ho : o.length + 1 = s.stack.length) : readLines everyDepth o l = some o := by
  obtain ⟨-, inner, m, q, h1, h2, h3, -, h5⟩ := h
  have := List.append_cancel_left (hl.symm.trans h1)
  rw [this, readLines]
  have hd : everyDepth o s.stack.length = true := by simp [everyDepth, ho]
  simp only [hd, if_true]
  rw [readLines_append, h5 s.pos o ho]
  show readLines everyDepth _ [_] = _
  cases m <;> first | (cases h2) | skip
  all_goals
    simp only [readLines, Msg.closes, if_true]
    rw [if_pos ⟨trivial, trivial, fun ha => (h3 ha).1⟩]

theorem wrapT_noted (env : Env V (H × List LogLine)) (K : Silent env.ops) (text : V → H → Bytes) {rec_ : Node → Run V (H × List LogLine)}
    (hrec : ∀ n s, Gets (rec_ n s) (fun x => Noted s x.2)) (k : Nat) (n : Node) (s : LSt V H) :
    Gets (wrapT env (recordSay env) (fun v h => text v h.1) rec_ k n s) (fun x => Noted s x.2) := by
  have hk := parseKind_getsL noted_carry K hrec k
  unfold wrapT
  split
  · rename_i id
    split
    · trivial
    · rename_i body _
      have hpush : Gets (stackPush env id s) (fun t => t.stack.length = s.stack.length + 1 ∧ t.h = s.h) := by
        unfold stackPush
        refine (getFrame_getsL env id s).bind ?_
        rintro ⟨a, s1⟩ ⟨e1, e2, _⟩
        dsimp only at *
        split
        · exact ⟨by show (a :: s1.stack).length = _; rw [e1]; rfl, e2⟩
        · trivial
      refine hpush.bind ?_
      rintro t ⟨h1, h2⟩
      refine (loopifyT_noted env text k id body.info (fun u => prepareResult_getsL noted_carry K true body.info (hk body) u) t).bind ?_
      rintro ⟨r, u⟩ hu
      have hu' := hu
      obtain ⟨e, inner, m, q, e2, -⟩ := hu'
      refine ⟨?_, _, ?_, fun o ho => hu.noted e2 o ?_⟩
      · show u.stack.tail.length = _
        rw [List.length_tail]
        have : u.stack.length = t.stack.length := e
        omega
      · show u.h.2 = _
        rw [← h2]
        exact e2
      · rw [h1, ho]
  · split
    · exact prepareResult_getsL noted_carry K false _ (hk _) s
    · exact hk _ s

theorem parseT_noted (env : Env V (H × List LogLine)) (K : Silent env.ops) (text : V → H → Bytes) : ∀ (k : Nat) (n : Node) (s : LSt V H),
    Gets (parseT env (recordSay env) (fun v h => text v h.1) k n s) (fun x => Noted s x.2)
  | 0, _, _ => trivial
  | k + 1, n, s => wrapT_noted env K text (parseT_noted env K text k) k n s

end Joeson
