import Verif.Proofs.TraceLog5
import Verif.Spec.Report
/-!
# What is printed

The printed lines are those noted that the options let through; the rest of the parse is as without printing.
-/

namespace Joeson
variable {V H : Type}

/-- Nothing is remembered yet. -/
theorem newState_log (ops : Ops V H) (h : H) (l : List LogLine) (p : Nat) : (logSim ops).SR () (newState h p) (newState (h, l) p) :=
  ⟨rfl, rfl, rfl, rfl, rfl, rfl, rfl, rfl, fun _ => ⟨rfl, rfl, rfl, rfl, rfl, .none⟩⟩

/-- **Printing changes nothing else**: `Model/TraceLog` does what `Model/Engine` does. -/
theorem parseT_same (env : Env V H) (text : V → H → Bytes) (k : Nat) (n : Node) (h : H) (l : List LogLine) (p : Nat) :
    match parse env k n (newState h p), parseT env.logged (printSay env.logged) (fun v h => text v h.1) k n (newState (h, l) p) with
    | .ok (r, s), .ok (r', s') => r' = r ∧ s'.h.1 = s.h ∧ s'.pos = s.pos ∧ s'.counter = s.counter ∧ s'.calls = s.calls
    | .panic e, .panic e' => e = e'
    | .oof, .oof => True
    | _, _ => False := by
  have key := (logSim env.ops).parseT_rel (env := env) rfl (say := quietSay env) (say' := printSay env.logged) (P := fun _ _ => True)
    (tx := text) (tx' := fun v h => text v h.1) (printSay_rel env) (by rintro w h h' v v' rfl rfl; rfl)
    (fun n => all_of_every (logSim_ok _ _) n) (fun _ _ _ => trivial) k n (all_of_every (logSim_ok _ _) n) () (newState h p) (newState (h, l) p)
    (newState_log env.ops h l p)
  rw [parseT_quiet] at key
  replace key : OutRel _ _ (parseT env.logged (printSay env.logged) (fun v h => text v h.1) k n (newState (h, l) p)) := key
  revert key
  generalize parse env k n (newState h p) = x
  generalize parseT env.logged (printSay env.logged) (fun v h => text v h.1) k n (newState (h, l) p) = y
  intro key
  cases x <;> cases y <;> first | exact key.elim | skip
  · obtain ⟨k1, -, k3⟩ := key
    exact ⟨(orel_eq k3).symm, k1.inv, k1.pos, k1.counter, k1.calls⟩
  · exact key
  · trivial

/-- The printed lines are those noted that are let through. -/
theorem parseT_filter (env : Env V H) (text : V → H → Bytes) (k : Nat) (n : Node) {s s' : LSt V H} (hs : (keepSim env.ops env.lets).SR () s s')
    {r : Option V} {t : LSt V H} (ht : parseT env.logged (printSay env.logged) (fun v h => text v h.1) k n s = .ok (r, t)) :
    ∃ t', parseT env.logged (recordSay env.logged) (fun v h => text v h.1) k n s' = .ok (r, t') ∧ (keepSim env.ops env.lets).SR () t t' := by
  have key := (keepSim env.ops env.lets).parseT_rel (env := env.logged) rfl (say := printSay env.logged) (say' := recordSay env.logged)
    (P := fun b id => ∃ body, env.g.rules[id]? = some body ∧ b = (env.trace.stack || body.info.debug))
    (tx := fun v h => text v h.1) (tx' := fun v h => text v h.1) (recordSay_rel env) (by rintro w h h' v v' rfl rfl; rfl)
    (fun n => all_of_every (keepSim_ok _ _ _) n) (fun id body hb => ⟨body, hb, rfl⟩) k n (all_of_every (keepSim_ok _ _ _) n) () s s' hs
  rw [ht] at key
  replace key : OutRel _ _ (parseT env.logged (recordSay env.logged) (fun v h => text v h.1) k n s') := key
  revert key
  generalize parseT env.logged (recordSay env.logged) (fun v h => text v h.1) k n s' = y
  intro key
  cases y <;> first | exact key.elim | skip
  obtain ⟨k1, -, k3⟩ := key
  rename_i x
  exact ⟨x.2, by have : r = x.1 := orel_eq k3; rw [this], k1⟩

theorem newState_keep (ops : Ops V H) (keep : LogLine → Bool) (h : H) (p : Nat) : (keepSim ops keep).SR () (newState (h, []) p) (newState (h, []) p) :=
  ⟨rfl, rfl, rfl, rfl, rfl, rfl, rfl, rfl, fun _ => ⟨rfl, rfl, rfl, rfl, rfl, .none⟩⟩

/-- The environment without what is traced. -/
theorem traced_logged {env env0 : Env V H} {f : Nat → Bool} (T : Traced env env0 f) : Traced env.logged env0.logged f where
  ops := by show env.ops.logged = env0.ops.logged; rw [T.ops]
  len := T.len
  string := T.string
  regexp := T.regexp
  line := T.line.imp id fun h v o x l => by
    show (_, _, _) = (_, _, _)
    rw [h v o x.1 l]
  g := T.g
  stack := T.stack
  loop := T.loop
  debug := T.debug

/-- `Line()` at any offset. -/
theorem ofText_line (text : Bytes) (p : Nat) : (Stream.ofText text).line p = (Spec.lineAt text p : Int) := by
  show ((bisectRight (lineStartsOf text) (p : Int) : Int) - 1) = _
  unfold Spec.lineAt
  by_cases hp : p ≤ text.length
  · rw [bisectRight_lineStarts text p hp]
    omega
  · obtain ⟨a1, a2, a3⟩ := bisectRight_spec (lineStartsOf_sorted text) (text.length : Int)
    obtain ⟨b1, b2, b3⟩ := bisectRight_spec (lineStartsOf_sorted text) (p : Int)
    have e := bisectRight_lineStarts text text.length (Nat.le_refl _)
    rw [List.take_length] at e
    rw [List.take_of_length_le (by omega)]
    have hl : (lineStartsOf text).length = Spec.newlines text + 1 := by
      rw [lineStartsOf_eq, List.length_cons, List.length_map, newlineEnds_length]
    have : ¬ bisectRight (lineStartsOf text) (p : Int) < (lineStartsOf text).length := by
      intro hlt
      have hg := List.getElem?_eq_getElem hlt
      have h1 := b3 _ _ (Nat.le_refl _) hg
      have h2 := a2 _ _ (by omega) hg
      omega
    omega

/-- Attempts that are open, each one column to the right of the one before. -/
def Steps : List OpenAttempt → Prop
  | [] => True
  | t :: o => t.depth = o.length + 1 ∧ Steps o

theorem Steps.le : ∀ {o : List OpenAttempt}, Steps o → ∀ t ∈ o, t.depth ≤ o.length
  | [], _, _, h => by cases h
  | t :: o, ⟨h1, h2⟩, u, hu => by
    rcases List.mem_cons.1 hu with rfl | hu
    · exact Nat.le_of_eq h1
    · exact Nat.le_succ_of_le (h2.le u hu)

/-- Leaving out rules keeps the nesting. -/
theorem readLines_rules (keep : Nat → Bool) : ∀ (l : List LogLine) (o o' : List OpenAttempt), Steps o → readLines everyDepth o l = some o' →
    readLines deeper (o.filter fun t => keep t.rule) (l.filter fun t => keep t.rule) = some (o'.filter fun t => keep t.rule)
  | [], o, o', _, h => by
    cases h
    rfl
  | x :: l, o, o', hs, h => by
    obtain ⟨id, q, d, m⟩ := x
    by_cases hm : ∃ c, m = .enter c
    · obtain ⟨c, rfl⟩ := hm
      rw [readLines] at h
      dsimp only at h
      split at h
      · rename_i hd
        have hd : d = o.length + 1 := by simpa [everyDepth] using hd
        have ih := readLines_rules keep l (⟨id, q, d⟩ :: o) o' ⟨hd, hs⟩ h
        cases hk : keep id with
        | true =>
          rw [List.filter_cons_of_pos (by exact hk)] at ih ⊢
          rw [readLines]
          dsimp only
          have : deeper (o.filter fun t => keep t.rule) d = true := by
            unfold deeper
            rw [List.all_eq_true]
            intro t ht
            have := hs.le t (List.mem_filter.1 ht).1
            simp only [decide_eq_true_eq]
            omega
          rw [if_pos this]
          exact ih
        | false =>
          rw [List.filter_cons_of_neg (by simp [hk])] at ih ⊢
          exact ih
      · cases h
    · have hr : ∀ ok o ls, readLines ok o (⟨id, q, d, m⟩ :: ls) = match o with
          | [] => none
          | t :: o' => if id = t.rule ∧ d = t.depth ∧ (m.atStart = true → q = t.start) then readLines ok (if m.closes then o' else t :: o') ls else none := by
        intro ok o ls
        cases m <;> first | exact absurd ⟨_, rfl⟩ hm | (cases o <;> rfl)
      rw [hr] at h
      cases o with
      | nil => cases h
      | cons t o =>
        dsimp only at h
        split at h
        · rename_i hc
          have hs' : Steps (if m.closes then o else t :: o) := by
            split
            · exact hs.2
            · exact hs
          have ih := readLines_rules keep l _ o' hs' h
          cases hk : keep id with
          | true =>
            have hk' : keep t.rule = true := by rw [← hc.1]; exact hk
            rw [List.filter_cons_of_pos (a := t) (by exact hk'), List.filter_cons_of_pos (by exact hk), hr]
            dsimp only
            rw [if_pos hc]
            rw [← ih]
            congr 1
            split
            · rfl
            · rw [List.filter_cons_of_pos (by exact hk')]
          | false =>
            have hk' : ¬ keep t.rule = true := by rw [← hc.1, hk]; simp
            rw [List.filter_cons_of_neg (a := t) (by exact hk'), List.filter_cons_of_neg (by simp [hk]), ← ih]
            congr 1
            split
            · rfl
            · rw [List.filter_cons_of_neg (by exact hk')]
        · cases h

/-- A whole trace without some rules is nested. -/
theorem WholeTrace.rules {l : List LogLine} (h : WholeTrace l) (keep : Nat → Bool) : NestedTrace (l.filter fun t => keep t.rule) :=
  readLines_rules keep l [] [] trivial h

/-- The environment of a call, traced and not. -/
theorem parseEnv_traced (ops : Ops V H) (st : Stream) (g : Grammar) (f : Nat → Bool) (tr : Trace) (o : CtxOptions) :
    Traced (parseEnv ops st (g.setDebug f) tr o) (parseEnv ops st (g.setDebug fun _ => false) {} {}) f := by
  have hg : g.setDebug f = (g.setDebug fun _ => false).setDebug f := by
    unfold Grammar.setDebug
    congr 1
    dsimp only
    rw [List.mapIdx_mapIdx]
    congr 1
    funext id n
    cases n <;> rfl
  refine ⟨rfl, rfl, rfl, rfl, Or.inl rfl, hg, rfl, rfl, ?_⟩
  intro n hn
  have hn : n ∈ (g.setDebug fun _ => false).rules := hn
  obtain ⟨i, hi, he⟩ := List.getElem_of_mem hn
  have : (g.setDebug fun _ => false).rules[i]? = some n := by rw [List.getElem?_eq_getElem hi, he]
  rw [Grammar.setDebug_rules] at this
  cases hb : g.rules[i]? with
  | none => rw [hb] at this; cases this
  | some b =>
    rw [hb] at this
    cases this
    cases b <;> rfl

/-- What an attempt at a rule notes. -/
theorem parseT_rule_attempt (env : Env V (H × List LogLine)) (K : Silent env.ops) (text : V → H → Bytes) (k id : Nat) (s : LSt V H) :
    Gets (parseT env (recordSay env) (fun v h => text v h.1) k (.rule id) s) (fun x =>
      ∃ (inner : List LogLine) (m : Msg) (q : Nat),
        x.2.h.2 = s.h.2 ++ (⟨id, s.pos, s.stack.length + 1, .enter s.counter⟩ :: (inner ++ [⟨id, q, s.stack.length + 1, m⟩])) ∧
        m.closes = true ∧ (m.atStart = true → q = s.pos ∧ inner = []) ∧ m.shows = x.1.map (fun v => text v x.2.h.1)) := by
  cases k with
  | zero => trivial
  | succ k =>
    show Gets (wrapT env (recordSay env) _ (parseT env (recordSay env) _ k) k (.rule id) s) _
    unfold wrapT
    dsimp only
    split
    · trivial
    · rename_i body _
      have hpush : Gets (stackPush env id s) (fun t => t.stack.length = s.stack.length + 1 ∧ t.h = s.h ∧ t.pos = s.pos ∧ t.counter = s.counter) := by
        unfold stackPush
        have hfr : Gets (getFrame env id s) (fun x => x.2.stack = s.stack ∧ x.2.h = s.h ∧ x.2.pos = s.pos ∧ x.2.counter = s.counter) := by
          unfold getFrame
          split
          · split <;> exact ⟨rfl, rfl, rfl, rfl⟩
          · trivial
        refine hfr.bind ?_
        rintro ⟨a, s1⟩ ⟨e1, e2, e3, e4⟩
        dsimp only at *
        split
        · exact ⟨by show (a :: s1.stack).length = _; rw [e1]; rfl, e2, e3, e4⟩
        · trivial
      refine hpush.bind ?_
      rintro t ⟨h1, h2, h3, h4⟩
      refine (loopifyT_noted env text k id body.info (fun u => prepareResult_getsL noted_carry K true body.info
        (fun u => parseKind_getsL noted_carry K (parseT_noted env K text k) k body u) u) t).bind ?_
      rintro ⟨r, u⟩ ⟨-, inner, m, q, e1, e2, e3, e4, -⟩
      refine ⟨inner, m, q, ?_, e2, ?_, e4⟩
      · rw [← h1, ← h2, ← h3, ← h4]
        exact e1
      · rw [← h3]
        exact e3

end Joeson
