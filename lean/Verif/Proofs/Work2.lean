import Verif.Proofs.RuleText
import Verif.Proofs.Peg2
import Verif.Spec.WorkSample
/-!
# Failures of a left recursive rule are found again and again
-/

namespace Joeson.Sample
open RuleText
variable {V H : Type}

/-- The text: `n` times `a`. -/
def as (n : Nat) : Bytes := List.replicate n 0x61

theorem as_length (n : Nat) : (as n).length = n := List.length_replicate

theorem as_split {n p m : Nat} (h : p + m = n) : as n = as p ++ as m := by
  unfold as; rw [← h, List.replicate_append_replicate]

theorem match_a {n p m : Nat} (h : p + (m + 1) = n) : (Stream.ofText (as n)).matchString p (asc "a") = .ok (some (asc "a"), p + 1) := by
  have h1 := matchString_hit (as p) (asc "a") (as m)
  have h2 : as p ++ (asc "a" ++ as m) = as n := by rw [as_split h]; rfl
  rw [h2, as_length] at h1
  exact h1

theorem match_end (n : Nat) : (Stream.ofText (as n)).matchString n (asc "a") = .ok (none, n) := by
  have h1 := matchString_miss (as n) (asc "a") [] (by decide)
  rw [List.append_nil, as_length] at h1
  exact h1

theorem match_x {n p m : Nat} (h : p + m = n) : (Stream.ofText (as n)).matchString p (asc "x") = .ok (none, p) := by
  have h1 := matchString_miss (as p) (asc "x") (as m) (by
    cases m with
    | zero => decide
    | succ m => rintro ⟨t, ht⟩; cases ht)
  rw [← as_split h, as_length] at h1
  exact h1

/-- The memo table: no failure of `E` is remembered from `p` on. -/
structure Forgets (p : Nat) (s : St V H) : Prop where
  table : ∀ q a, s.table q 0 = some a → a < s.next ∧ (s.heap a).pos = q ∧ (s.heap a).id = 0
  clean : ∀ q a, p ≤ q → s.table q 0 = some a → (s.heap a).endpos = none ∧ (s.heap a).loopstage ≤ 0 ∧ -1 ≤ (s.heap a).loopstage

/-- Nothing changed before `p`. -/
structure Untouched (p : Nat) (s s' : St V H) : Prop where
  table : ∀ q, q < p → s'.table q 0 = s.table q 0
  heap : ∀ b, b < s.next → (s.heap b).pos < p → s'.heap b = s.heap b
  next : s.next ≤ s'.next
  stack : s'.stack = s.stack

theorem Untouched.trans {p : Nat} {s t u : St V H} (h : Untouched p s t) (h' : Untouched p t u) : Untouched p s u := by
  refine ⟨fun q hq => (h'.table q hq).trans (h.table q hq), fun b hb hp => ?_, Nat.le_trans h.next h'.next, h'.stack.trans h.stack⟩
  have h1 := h.heap b hb hp
  rw [h'.heap b (Nat.lt_of_lt_of_le hb h.next) (by rw [h1]; exact hp), h1]

theorem getFrame_forgets {env : Env V H} (hg : env.g = twice) {p : Nat} {s : St V H} (hs : Forgets p s) (hp : s.pos = p) (hl : p ≤ env.st.len) :
    ∃ a s1, getFrame env 0 s = .ok (a, s1) ∧ Forgets p s1 ∧ Untouched p s s1 ∧ s1.table p 0 = some a ∧ s1.counter = s.counter ∧ s1.pos = p := by
  unfold getFrame
  rw [if_pos ⟨by rw [hp]; exact hl, by rw [hg]; decide⟩]
  cases ht : s.table s.pos 0 with
  | some a => exact ⟨a, s, rfl, hs, ⟨fun _ _ => rfl, fun _ _ _ => rfl, Nat.le_refl _, rfl⟩, by rw [← hp]; exact ht, rfl, hp⟩
  | none =>
    have hlt : ∀ b, b < s.next → setHeap s.heap s.next (newFrame V s.pos 0) b = s.heap b := fun b hb => setHeap_ne _ _ (by omega)
    refine ⟨_, _, rfl, ⟨?_, ?_⟩, ⟨?_, fun b hb _ => hlt b hb, Nat.le_succ _, rfl⟩, by simp [setTable, hp], rfl, hp⟩
    · intro q a ha
      simp only [setTable] at ha
      split at ha
      · rename_i hq
        injection ha with ha
        subst ha
        dsimp only
        rw [setHeap_self, hq.1]
        exact ⟨by omega, rfl, rfl⟩
      · have := hs.table q a ha
        dsimp only
        rw [hlt a this.1]
        exact ⟨by omega, this.2⟩
    · intro q a hq ha
      simp only [setTable] at ha
      split at ha
      · injection ha with ha
        subst ha
        dsimp only
        rw [setHeap_self]
        simp [newFrame]
      · dsimp only
        rw [hlt a (hs.table q a ha).1]
        exact hs.clean q a hq ha
    · intro q hq
      dsimp only
      unfold setTable
      rw [if_neg (by omega)]

/-- The body of `E`. -/
def body : Node := .choice (ri "E") [
    .seq { parent := some false } .array [ref "E", lit "+"],
    .seq { parent := some false } .array [lit "a", ref "E", lit "b"],
    .seq { parent := some false } .array [lit "a", ref "E", lit "c"],
    .str {} (asc "x")]

theorem parse_seq (env : Env V H) (k : Nat) (l : List Node) (s : St V H) :
    parse env (k + 1) (.seq { parent := some false } .array l) s = parseItems env (parse env k) .array l {} s := rfl

theorem parse_ref (env : Env V H) (hg : env.g = twice) (k : Nat) (s : St V H) {a : Nat} {l : List Nat} (hs : s.stack = a :: l) :
    parse env (k + 1) (ref "E") s = parse env k (.rule 0) s := by
  show (match env.g.lookup "E" with | none => _ | some id => _) = _
  rw [show env.g.lookup "E" = some 0 by rw [hg]; rfl]
  show (stackPeek s >>= fun _ => parse env k (.rule 0) s) = _
  unfold stackPeek
  rw [hs]
  rfl

theorem parse_lit (env : Env V H) (k : Nat) (b : String) (s : St V H) {m : Option Bytes} {p : Nat}
    (h : env.st.matchString s.pos (asc b) = .ok (m, p)) : parse env (k + 1) (lit b) s = .ok (m.map env.ops.str, { s with pos := p }) := by
  show (Out.ofExcept (env.st.matchString s.pos (asc b)) >>= _) = _
  rw [h]
  cases m <;> rfl

theorem parse_rule {env : Env V H} (hg : env.g = twice) (k : Nat) (s : St V H) : parse env (k + 1) (.rule 0) s =
    (stackPush env 0 s >>= fun s => loopify env k 0 (ri "E") (prepareResult env true (ri "E") (parseAlts env (parse env k) [
      .seq { parent := some false } .array [ref "E", lit "+"],
      .seq { parent := some false } .array [lit "a", ref "E", lit "b"],
      .seq { parent := some false } .array [lit "a", ref "E", lit "c"],
      .str {} (asc "x")])) s >>= fun x => .ok (x.1, stackPop x.2)) := by
  rw [parse]
  unfold wrap
  dsimp only
  rw [show env.g.rules[0]? = some body by rw [hg]; rfl]
  rfl

theorem getFrame_hit {env : Env V H} (hg : env.g = twice) {s : St V H} {a : Nat} (ht : s.table s.pos 0 = some a) (hl : s.pos ≤ env.st.len) :
    getFrame env 0 s = .ok (a, s) := by
  unfold getFrame
  rw [if_pos ⟨hl, by rw [hg]; decide⟩, ht]

/-- `E` while it is being evaluated at the same place: a failure. -/
theorem parse_again {env : Env V H} (hg : env.g = twice) (htr : env.trace.stack = false) (k : Nat) (s : St V H) {a : Nat} {l : List Nat}
    (hs : s.stack = a :: l) (hl : l.length + 1 < stackCap) (ht : s.table s.pos 0 = some a) (h1 : (s.heap a).loopstage = 1)
    (h2 : (s.heap a).endpos = none) (h3 : (s.heap a).result = none)
    (hp : (s.heap a).pos = s.pos) (hid : (s.heap a).id = 0) (hlen : s.pos ≤ env.st.len) :
    parse env (k + 1) (.rule 0) s =
      .ok (none, { s with heap := setHeap s.heap a { s.heap a with loopstage := 2, wipemask := some ((s.heap a).wipemask.getD fun _ => false) } }) := by
  rw [parse_rule hg]
  unfold stackPush
  rw [getFrame_hit hg ht hlen, Out.bind_ok]
  dsimp only
  rw [if_pos (by rw [hs]; exact hl), Out.bind_ok]
  unfold loopify
  rw [show (env.trace.stack || (ri "E").debug) = false by rw [htr]; rfl]
  have hlog : ∀ t : St V H, logIf env false t = .ok () := fun _ => rfl
  dsimp only
  rw [hlog, Out.bind_ok, if_neg (by decide), getFrame_hit hg (s := { s with stack := a :: s.stack }) ht hlen, Out.bind_ok]
  dsimp only
  have hno : ∀ x y : St V H, (if (s.heap a).loopstage < 0 then x else y) = y := fun x y => if_neg (by rw [h1]; decide)
  rw [hno]
  dsimp only
  rw [if_neg (by rw [h1]; decide), if_pos (Or.inl h1), if_pos h1]
  have hst : setStage a 2 ({ s with stack := a :: s.stack } : St V H) = { s with stack := a :: s.stack, heap := setHeap s.heap a { s.heap a with loopstage := 2 } } := rfl
  rw [hst]
  rw [hlog, Out.bind_ok]
  dsimp only
  rw [show (a :: s.stack).tail = a :: l from hs]
  unfold collectMask
  simp only [setHeap_self]
  rw [if_neg (by rw [hp]; omega), if_pos (Or.inr hid), Out.bind_ok]
  unfold updFrame
  simp only [setHeap_self, h2, h3, Out.bind_ok]
  unfold stackPop
  simp only [List.tail_cons]
  congr 3
  funext b
  unfold setHeap
  by_cases hb : b = a <;> simp [hb]

/-- The alternatives of `E`. -/
def alts : List Node := [
  .seq { parent := some false } .array [ref "E", lit "+"],
  .seq { parent := some false } .array [lit "a", ref "E", lit "b"],
  .seq { parent := some false } .array [lit "a", ref "E", lit "c"],
  .str {} (asc "x")]

/-- The state in which the alternatives are tried. -/
def enter (a : Nat) (s : St V H) : St V H :=
  { s with stack := a :: s.stack, heap := setHeap s.heap a (busyFrame (s.heap a)), counter := s.counter + 1 }

/-- `E` fails when its alternatives fail after a left recursive call, and this is not remembered. -/
theorem parse_fail {env : Env V H} (hg : env.g = twice) (htr : env.trace.stack = false) (k : Nat) {s s1 t : St V H} {a : Nat}
    (hf : getFrame env 0 s = .ok (a, s1)) (hl : s1.stack.length < stackCap) (ht : s1.table s1.pos 0 = some a) (hlen : s1.pos ≤ env.st.len)
    (h1 : (s1.heap a).loopstage ≤ 0) (h2 : (s1.heap a).endpos = none)
    (hb : parseAlts env (parse env k) alts (enter a s1) = .ok (none, t)) (h3 : (t.heap a).loopstage = 2) :
    parse env (k + 1) (.rule 0) s = .ok (none, stackPop (setStage a 0 t)) := by
  rw [parse_rule hg]
  unfold stackPush
  rw [hf, Out.bind_ok]
  dsimp only
  rw [if_pos hl, Out.bind_ok]
  unfold loopify
  rw [show (env.trace.stack || (ri "E").debug) = false by rw [htr]; rfl]
  have hlog : ∀ t : St V H, logIf env false t = .ok () := fun _ => rfl
  dsimp only
  rw [hlog, Out.bind_ok, if_neg (by decide), getFrame_hit hg (s := { s1 with stack := a :: s1.stack }) ht hlen, Out.bind_ok]
  dsimp only
  have hst0 : (if (s1.heap a).loopstage < 0 then setStage a 0 { s1 with stack := a :: s1.stack } else { s1 with stack := a :: s1.stack }) =
      { s1 with stack := a :: s1.stack, heap := setHeap s1.heap a (idleFrame (s1.heap a)) } := by
    split
    · rfl
    · have h0 : (s1.heap a).loopstage = 0 := by omega
      have : setHeap s1.heap a (idleFrame (s1.heap a)) = s1.heap := by
        funext b
        unfold setHeap
        split
        · rename_i hba
          subst hba
          unfold idleFrame
          rw [← h0]
        · rfl
      rw [this]
  rw [hst0]
  dsimp only
  simp only [setHeap_self, idleFrame_loopstage, idleFrame_endpos, if_true, h2]
  have hs2 : cacheSet a none none (setStage a 1 { s1 with stack := a :: s1.stack, heap := setHeap s1.heap a (idleFrame (s1.heap a)) }) =
      { s1 with stack := a :: s1.stack, heap := setHeap s1.heap a (busyFrame (s1.heap a)) } := by
    unfold cacheSet setStage updFrame busyFrame idleFrame
    dsimp only
    congr 1
    funext b
    unfold setHeap
    by_cases hba : b = a <;> simp [hba]
  rw [hs2]
  have hprep : prepareResult env true (ri "E") (parseAlts env (parse env k) alts) { s1 with stack := a :: s1.stack, heap := setHeap s1.heap a (busyFrame (s1.heap a)) } =
      .ok (none, t) := by
    unfold prepareResult
    show (parseAlts env (parse env k) alts (enter a s1) >>= _) = _
    rw [hb]
    rfl
  unfold alts at hprep
  rw [hprep, Out.bind_ok]
  dsimp only
  rw [if_neg (by rw [h3]; decide), if_pos h3, hlog, Out.bind_ok]
  rfl

theorem alts_skip {env : Env V H} {rc : Node → Run V H} {c : Node} {cs : List Node} {s s' : St V H} (h : rc c s = .ok (none, s')) (hl : s.pos ≤ env.st.len) :
    parseAlts env rc (c :: cs) s = parseAlts env rc cs { s' with pos := s.pos } := by
  rw [parseAlts, h, Out.bind_ok]
  dsimp only
  rw [setPos_eq env hl, Out.bind_ok]

theorem items_fail {env : Env V H} {rc : Node → Run V H} {c : Node} {cs : List Node} {r : SeqRepr} {acc : SeqAcc V} {s s' : St V H} (h : rc c s = .ok (none, s')) :
    parseItems env rc r (c :: cs) acc s = .ok (none, s') := by
  rw [parseItems, h, Out.bind_ok]

theorem items_lit {env : Env V H} {rc : Node → Run V H} {b : String} {cs : List Node} {acc : SeqAcc V} {s s' : St V H} {v : V} (h : rc (lit b) s = .ok (some v, s')) :
    parseItems env rc .array (lit b :: cs) acc s = parseItems env rc .array cs acc s' := by
  rw [parseItems, h, Out.bind_ok]
  rfl

/-- The state after the left recursive call. -/
def again (a : Nat) (s : St V H) : St V H :=
  { enter a s with heap := setHeap s.heap a { busyFrame (s.heap a) with loopstage := 2, wipemask := some ((s.heap a).wipemask.getD fun _ => false) } }

/-- Evaluating `E` once, given what its other alternatives do. -/
theorem twice_step {env : Env V H} (hg : env.g = twice) (htr : env.trace.stack = false) {p N K : Nat} {s : St V H} (hF : Forgets p s) (hp : s.pos = p)
    (hlen : p ≤ env.st.len) (hcap : s.stack.length + 2 ≤ stackCap)
    (hrest : ∀ t1 : St V H, Forgets (p + 1) t1 → t1.pos = p → t1.stack.length = s.stack.length + 1 → ∃ t, (∀ k, K ≤ k → parseAlts env (parse env k) alts.tail t1 = .ok (none, t)) ∧
      t.counter + 2 = t1.counter + N ∧ Forgets (p + 1) t ∧ Untouched (p + 1) t1 t) :
    ∃ s', (∀ k, max K 3 + 1 ≤ k → parse env k (.rule 0) s = .ok (none, s')) ∧ s'.counter + 1 = s.counter + N ∧ Forgets p s' ∧ Untouched p s s' := by
  obtain ⟨a, s1, hf, F1, U1, ht1, hc1, hp1⟩ := getFrame_forgets hg hF hp hlen
  obtain ⟨he, hs0, hs1⟩ := F1.clean p a (Nat.le_refl _) ht1
  obtain ⟨han, hap, hai⟩ := F1.table p a ht1
  have hl1 : s1.stack.length < stackCap := by rw [U1.stack]; omega
  have hta : (again a s1).heap a = { busyFrame (s1.heap a) with loopstage := 2, wipemask := some ((s1.heap a).wipemask.getD fun _ => false) } := setHeap_self _ _ _
  have htb : ∀ b, b ≠ a → (again a s1).heap b = s1.heap b := fun b hb => setHeap_ne _ _ hb
  have Ft : Forgets (p + 1) (again a s1) := by
    constructor
    · intro q b hb
      have := F1.table q b hb
      by_cases hba : b = a
      · subst hba; rw [hta]; exact this
      · rw [htb b hba]; exact this
    · intro q b hq hb
      have h1 := F1.table q b hb
      have hba : b ≠ a := by rintro rfl; omega
      rw [htb b hba]
      exact F1.clean q b (by omega) hb
  obtain ⟨t, h1, h2, h3, h4⟩ := hrest (again a s1) Ft hp1 (by show (a :: s1.stack).length = _; rw [U1.stack]; rfl)
  have htA : t.heap a = (again a s1).heap a := h4.heap a han (by rw [hta]; show (s1.heap a).pos < _; omega)
  refine ⟨stackPop (setStage a 0 t), fun k hk => ?_, ?_, ⟨?_, ?_⟩, ?_⟩
  · obtain ⟨k', rfl⟩ : ∃ k', k = k' + 4 := ⟨k - 4, by omega⟩
    refine parse_fail hg htr (k' + 3) hf hl1 (by rw [hp1]; exact ht1) (by rw [hp1]; exact hlen) hs0 he ?_ (by rw [htA, hta])
    have hseq : parse env (k' + 3) (.seq { parent := some false } .array [ref "E", lit "+"]) (enter a s1) = .ok (none, again a s1) := by
      rw [parse_seq]
      refine items_fail ?_
      rw [parse_ref env hg (k' + 1) _ (a := a) (l := s1.stack) rfl]
      have hself : (enter a s1).heap a = busyFrame (s1.heap a) := setHeap_self _ _ _
      rw [parse_again hg htr k' (enter a s1) (a := a) (l := s1.stack) rfl (by rw [U1.stack]; omega) (by show s1.table s1.pos 0 = _; rw [hp1]; exact ht1)
        (by rw [hself]; rfl) (by rw [hself]; rfl) (by rw [hself]; rfl) (by rw [hself]; show (s1.heap a).pos = s1.pos; omega) (by rw [hself]; exact hai)
        (by show s1.pos ≤ _; omega)]
      have : setHeap (enter a s1).heap a { (enter a s1).heap a with loopstage := 2, wipemask := some (((enter a s1).heap a).wipemask.getD fun _ => false) } = (again a s1).heap := by
        rw [hself]
        funext b
        show setHeap (setHeap _ _ _) _ _ b = setHeap _ _ _ b
        unfold setHeap
        by_cases hb : b = a <;> simp [hb, busyFrame]
      rw [this]
      rfl
    unfold alts
    rw [alts_skip hseq (by show s1.pos ≤ _; omega)]
    exact h1 (k' + 3) (by omega)
  · show t.counter + 1 = _
    have : (again a s1).counter = s1.counter + 1 := rfl
    omega
  · intro q b hb
    have := h3.table q b hb
    show b < t.next ∧ (setHeap t.heap a _ b).pos = q ∧ (setHeap t.heap a _ b).id = 0
    by_cases hba : b = a
    · subst hba; rw [setHeap_self]; exact this
    · rw [setHeap_ne _ _ hba]; exact this
  · intro q b hq hb
    show (setHeap t.heap a _ b).endpos = none ∧ (setHeap t.heap a _ b).loopstage ≤ 0 ∧ -1 ≤ (setHeap t.heap a _ b).loopstage
    by_cases hba : b = a
    · subst hba
      rw [setHeap_self, htA, hta]
      exact ⟨rfl, Int.le_refl _, by show (-1 : Int) ≤ 0; decide⟩
    · rw [setHeap_ne _ _ hba]
      refine h3.clean q b ?_ hb
      rcases Nat.eq_or_lt_of_le hq with rfl | h
      · exfalso
        have hb' : t.table p 0 = some b := hb
        rw [h4.table p (by omega)] at hb'
        have : (again a s1).table p 0 = some a := ht1
        rw [this] at hb'
        injection hb' with hb'
        exact hba hb'.symm
      · exact h
  · refine U1.trans ⟨fun q hq => ?_, fun b hb hbp => ?_, ?_, ?_⟩
    · show t.table q 0 = _
      rw [h4.table q (by omega)]
      rfl
    · have hba : b ≠ a := by rintro rfl; omega
      show setHeap t.heap a _ b = _
      rw [setHeap_ne _ _ hba, h4.heap b hb (by rw [htb b hba]; omega), htb b hba]
    · exact h4.next
    · show t.stack.tail = _
      rw [h4.stack]
      rfl

/-- One evaluation of `E` on the rest of the text, from a table that remembers no failure: it fails, evaluating `E` so many times,
and remembers nothing. -/
theorem twice_fails {env : Env V H} (hg : env.g = twice) (htr : env.trace.stack = false) {n : Nat} (hst : env.st = Stream.ofText (as n)) :
    ∀ (m p : Nat), p + m = n → ∀ s : St V H, Forgets p s → s.pos = p → s.stack.length + m + 2 ≤ stackCap →
      ∃ s', (∀ k, 3 * m + 6 ≤ k → parse env k (.rule 0) s = .ok (none, s')) ∧ s'.counter + 1 = s.counter + 2 ^ (m + 1) ∧ Forgets p s' ∧ Untouched p s s' := by
  have hlen : env.st.len = n := by rw [hst]; exact as_length n
  have hx : ∀ (p m : Nat) (s : St V H) (k : Nat), p + m = n → s.pos = p → parseAlts env (parse env (k + 1)) [.str {} (asc "x")] s = .ok (none, s) := by
    intro p m s k h hp
    have h1 : parse env (k + 1) (.str {} (asc "x")) s = .ok (none, s) := by
      show (Out.ofExcept (env.st.matchString s.pos (asc "x")) >>= _) = _
      rw [hst, hp, match_x h]
      show Out.ok (none, { s with pos := p }) = _
      rw [← hp]
    rw [alts_skip h1 (by omega)]
    rfl
  intro m
  induction m with
  | zero =>
    intro p h s hF hp hcap
    have hpn : p = n := by omega
    obtain ⟨s', h1, h2⟩ := twice_step (N := 2 ^ 1) (K := 3) hg htr hF hp (by omega) (by omega) (fun t1 hF1 hp1 _ => by
      refine ⟨t1, fun k hk => ?_, rfl, hF1, ⟨fun _ _ => rfl, fun _ _ _ => rfl, Nat.le_refl _, rfl⟩⟩
      obtain ⟨k', rfl⟩ : ∃ k', k = k' + 3 := ⟨k - 3, by omega⟩
      have hal : ∀ c, parse env (k' + 3) (.seq { parent := some false } .array [lit "a", ref "E", lit c]) t1 = .ok (none, t1) := by
        intro c
        rw [parse_seq]
        refine items_fail ?_
        rw [parse_lit env (k' + 1) "a" t1 (m := none) (p := n) (by rw [hst, hp1, hpn]; exact match_end n)]
        show Out.ok (none, { t1 with pos := n }) = _
        rw [← hpn, ← hp1]
      show parseAlts env _ [_, _, _] t1 = _
      rw [alts_skip (hal "b") (by omega)]
      rw [alts_skip (s := { t1 with pos := t1.pos }) (hal "c") (by show t1.pos ≤ _; omega)]
      exact hx p 0 t1 (k' + 2) h hp1)
    exact ⟨s', fun k hk => h1 k (by omega), h2⟩
  | succ m ih =>
    intro p h s hF hp hcap
    obtain ⟨s', h1, h2⟩ := twice_step (N := 2 ^ (m + 2)) (K := 3 * m + 8) hg htr hF hp (by omega) (by omega) (fun t1 hF1 hp1 hl1 => by
      obtain ⟨u1, a1, a2, a3, a4⟩ := ih (p + 1) (by omega) { t1 with pos := p + 1 } ⟨hF1.table, hF1.clean⟩ rfl (by show t1.stack.length + _ + _ ≤ _; omega)
      have hl2 : u1.stack.length = t1.stack.length := by rw [a4.stack]
      obtain ⟨u2, b1, b2, b3, b4⟩ := ih (p + 1) (by omega) { u1 with pos := p + 1 } ⟨a3.table, a3.clean⟩ rfl (by show u1.stack.length + _ + _ ≤ _; omega)
      have hc : ({ t1 with pos := p + 1 } : St V H).counter = t1.counter := rfl
      have hc' : ({ u1 with pos := p + 1 } : St V H).counter = u1.counter := rfl
      refine ⟨{ u2 with pos := p }, fun k hk => ?_, ?_, ⟨b3.table, b3.clean⟩, ?_⟩
      · obtain ⟨k', rfl⟩ : ∃ k', k = k' + 3 := ⟨k - 3, by omega⟩
        have hal : ∀ c (t u : St V H), t.pos = p → (∃ a l, t.stack = a :: l) → parse env (k' + 1) (.rule 0) { t with pos := p + 1 } = .ok (none, u) →
            parse env (k' + 3) (.seq { parent := some false } .array [lit "a", ref "E", lit c]) t = .ok (none, u) := by
          intro c t u ht hstk hu
          rw [parse_seq]
          rw [items_lit (parse_lit env (k' + 1) "a" t (m := some (asc "a")) (p := p + 1) (by rw [hst, ht]; exact match_a (m := m) (by omega)))]
          obtain ⟨a, l, hal⟩ := hstk
          exact items_fail (by rw [parse_ref env hg (k' + 1) { t with pos := p + 1 } (a := a) (l := l) hal]; exact hu)
        have hst1 : ∃ a l, t1.stack = a :: l := by
          cases hx : t1.stack with
          | nil => rw [hx] at hl1; simp at hl1
          | cons a l => exact ⟨a, l, rfl⟩
        show parseAlts env _ [_, _, _] t1 = _
        rw [alts_skip (hal "b" t1 u1 hp1 hst1 (a1 _ (by omega))) (by omega), hp1]
        rw [alts_skip (hal "c" { u1 with pos := p } u2 rfl (by obtain ⟨a, l, h⟩ := hst1; exact ⟨a, l, a4.stack.trans h⟩) (b1 _ (by omega))) (by show p ≤ _; omega)]
        exact hx p (m + 1) _ (k' + 2) h rfl
      · show u2.counter + 2 = _
        have : 2 ^ (m + 2) = 2 ^ (m + 1) + 2 ^ (m + 1) := by rw [Nat.pow_succ]; omega
        omega
      · have h5 : Untouched (p + 1) t1 u1 := ⟨a4.table, a4.heap, a4.next, a4.stack⟩
        have h6 : Untouched (p + 1) u1 { u2 with pos := p } := ⟨b4.table, b4.heap, b4.next, b4.stack⟩
        exact h5.trans h6)
    exact ⟨s', fun k hk => h1 k (by omega), h2⟩

end Joeson.Sample
