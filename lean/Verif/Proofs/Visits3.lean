import Verif.Proofs.Visits2
import Verif.Proofs.Work2
import Verif.Spec.VisitsSample
/-!
# The work of `S: ('a'* 'b' | 'a')*`
-/

namespace Joeson.Sample
open RuleText
variable {V H : Type}

theorem match_b {n p m : Nat} (h : p + m = n) : (Stream.ofText (as n)).matchString p (asc "b") = .ok (none, p) := by
  have h1 := matchString_miss (as p) (asc "b") (as m) (by
    cases m with
    | zero => decide
    | succ m => rintro ⟨t, ht⟩; cases ht)
  rw [← as_split h, as_length] at h1
  exact h1

/-- Another position, store, and number of calls. -/
def went (s : St V (H × Nat)) (p c : Nat) (h : H) : St V (H × Nat) := { s with pos := p, h := (h, s.h.2 + c) }

variable {env : Env V (H × Nat)} {n : Nat}

theorem visit_lit (k : Nat) (b : String) (s : St V (H × Nat)) {m : Option Bytes} {p : Nat}
    (h : env.st.matchString s.pos (asc b) = .ok (m, p)) : parseV env (k + 1) (lit b) s = .ok (m.map env.ops.str, went s p 1 s.h.1) := by
  show (Out.ofExcept (env.st.matchString s.pos (asc b)) >>= _) = _
  rw [h]
  cases m <;> rfl

/-- `'a'*` after its first match, with `m` letters left. -/
theorem visit_rep (K : Keeps env.ops) (hst : env.st = Stream.ofText (as n)) (k start : Nat) : ∀ (m p f : Nat) (s : St V (H × Nat)) (ms : List V), p + m = n → s.pos = p → m < f →
    ∃ v h, parseRep env (parseV env (k + 1)) (lit "a") none (-1) (-1) start f ms s = .ok (some v, went s n (m + 1) h)
  | m, p, 0, s, ms, hp, hs, hf => absurd hf (by omega)
  | 0, p, f + 1, s, ms, hp, hs, hf => by
    have h1 : parseV env (k + 1) (lit "a") s = .ok (none, went s n 1 s.h.1) :=
      visit_lit k "a" s (m := none) (by rw [hst, hs, show p = n by omega]; exact match_end n)
    have hlen : env.st.len = n := by rw [hst]; exact as_length n
    rw [parseRep]
    simp only [Out.bind_ok, Bool.not_true, Bool.false_eq_true, if_false, h1]
    rw [setPos_eq env (by rw [hs, hlen]; omega), Out.bind_ok]
    rw [if_neg (by omega)]
    refine ⟨(env.ops.arr ms (s.h.1, s.h.2 + 1)).1, (env.ops.arr ms (s.h.1, s.h.2 + 1)).2.1, ?_⟩
    have := K.arr ms (s.h.1, s.h.2 + 1)
    simp only [went] at this ⊢
    congr 3
    · omega
    · exact Prod.ext rfl this
  | m + 1, p, f + 1, s, ms, hp, hs, hf => by
    have h1 : parseV env (k + 1) (lit "a") s = .ok (some (env.ops.str (asc "a")), went s (p + 1) 1 s.h.1) :=
      visit_lit k "a" s (m := some (asc "a")) (by rw [hst, hs]; exact match_a hp)
    obtain ⟨v, h, ih⟩ := visit_rep K hst k start m (p + 1) f (went s (p + 1) 1 s.h.1) (ms ++ [env.ops.str (asc "a")]) (by omega) rfl (by omega)
    rw [parseRep]
    simp only [Out.bind_ok, Bool.not_true, Bool.false_eq_true, if_false, h1]
    rw [if_neg (by omega), ih]
    refine ⟨v, h, ?_⟩
    simp only [went]
    congr 4
    omega

/-- `'a'*` -/
def star : Node := .pattern { parent := some false } (lit "a") none (-1) (-1)

theorem visit_star (K : Keeps env.ops) (hst : env.st = Stream.ofText (as n)) (k m p : Nat) (s : St V (H × Nat)) (hp : p + m = n) (hs : s.pos = p) (hk : m ≤ k) :
    ∃ v h, parseV env (k + 2) star s = .ok (some v, went s n (m + 2) h) := by
  have hlen : env.st.len = n := by rw [hst]; exact as_length n
  have hw : parseV env (k + 2) star s = parseKind env (parseV env (k + 1)) (k + 1) star (tick s) := rfl
  rw [hw, star, parseKind]
  cases m with
  | zero =>
    have h1 : parseV env (k + 1) (lit "a") (tick s) = .ok (none, went (tick s) n 1 s.h.1) :=
      visit_lit k "a" (tick s) (m := none) (by rw [hst, show (tick s).pos = p from hs, show p = n by omega]; exact match_end n)
    simp only [Out.bind_ok, h1]
    rw [setPos_eq env (show (tick s).pos ≤ _ by rw [show (tick s).pos = p from hs, hlen]; omega), Out.bind_ok]
    rw [if_neg (by omega)]
    refine ⟨(env.ops.arr [] (s.h.1, s.h.2 + 1 + 1)).1, (env.ops.arr [] (s.h.1, s.h.2 + 1 + 1)).2.1, ?_⟩
    have := K.arr [] (s.h.1, s.h.2 + 1 + 1)
    simp only [went, tick] at this ⊢
    congr 3
    · omega
    · exact Prod.ext rfl this
  | succ m =>
    have h1 : parseV env (k + 1) (lit "a") (tick s) = .ok (some (env.ops.str (asc "a")), went (tick s) (p + 1) 1 s.h.1) :=
      visit_lit k "a" (tick s) (m := some (asc "a")) (by rw [hst, show (tick s).pos = p from hs]; exact match_a hp)
    obtain ⟨v, h, ih⟩ := visit_rep K hst k (tick s).pos m (p + 1) (k + 1) (went (tick s) (p + 1) 1 s.h.1) [env.ops.str (asc "a")] (by omega) rfl (by omega)
    simp only [Out.bind_ok, h1]
    rw [ih]
    refine ⟨v, h, ?_⟩
    simp only [went, tick]
    congr 4
    omega

/-- `'a'* 'b'` -/
def lead : Node := .seq { parent := some false } .single [star, lit "b"]

theorem visit_lead (K : Keeps env.ops) (hst : env.st = Stream.ofText (as n)) (k m p : Nat) (s : St V (H × Nat)) (hp : p + m = n) (hs : s.pos = p) (hk : m ≤ k) :
    ∃ h, parseV env (k + 3) lead s = .ok (none, went s n (m + 4) h) := by
  have hw : parseV env (k + 3) lead s = parseItems env (parseV env (k + 2)) .single [star, lit "b"] {} (tick s) := rfl
  obtain ⟨v, h, h1⟩ := visit_star K hst k m p (tick s) hp hs hk
  refine ⟨h, ?_⟩
  rw [hw, parseItems, h1, Out.bind_ok]
  simp only [seqAdd, Out.ofExcept, Out.bind_ok]
  refine (items_fail (visit_lit (k + 1) "b" _ (m := none) (p := n) ?_)).trans ?_
  · rw [hst]
    exact match_b (m := 0) (by simp only [went]; omega)
  · simp only [went, tick]
    congr 4
    omega

/-- `'a'* 'b' | 'a'` -/
def item : Node := .choice { parent := some false } [lead, lit "a"]

theorem visit_item (K : Keeps env.ops) (hst : env.st = Stream.ofText (as n)) (k m p : Nat) (s : St V (H × Nat)) (hp : p + (m + 1) = n) (hs : s.pos = p) (hk : m + 1 ≤ k) :
    ∃ v h, parseV env (k + 4) item s = .ok (some v, went s (p + 1) (m + 7) h) := by
  have hlen : env.st.len = n := by rw [hst]; exact as_length n
  have hw : parseV env (k + 4) item s = parseAlts env (parseV env (k + 3)) [lead, lit "a"] (tick s) := rfl
  obtain ⟨h, h1⟩ := visit_lead K hst k (m + 1) p (tick s) hp hs hk
  refine ⟨env.ops.str (asc "a"), h, ?_⟩
  rw [hw, alts_skip h1 (by rw [show (tick s).pos = p from hs, hlen]; omega), parseAlts,
    visit_lit (k + 2) "a" _ (m := some (asc "a")) (p := p + 1) (by rw [hst]; exact (congrArg (fun q => (Stream.ofText (as n)).matchString q (asc "a")) hs).trans (match_a hp)), Out.bind_ok]
  simp only [went, tick, Option.map_some]
  congr 4
  omega

theorem visit_item_end (K : Keeps env.ops) (hst : env.st = Stream.ofText (as n)) (k : Nat) (s : St V (H × Nat)) (hs : s.pos = n) :
    ∃ h, parseV env (k + 4) item s = .ok (none, went s n 6 h) := by
  have hlen : env.st.len = n := by rw [hst]; exact as_length n
  have hw : parseV env (k + 4) item s = parseAlts env (parseV env (k + 3)) [lead, lit "a"] (tick s) := rfl
  obtain ⟨h, h1⟩ := visit_lead K hst k 0 n (tick s) rfl hs (Nat.zero_le _)
  refine ⟨h, ?_⟩
  have h2 := visit_lit (env := env) (k + 2) "a" { went (tick s) n (0 + 4) h with pos := (tick s).pos } (m := none) (p := n)
    (by rw [hst]; exact (congrArg (fun q => (Stream.ofText (as n)).matchString q (asc "a")) hs).trans (match_end n))
  rw [hw, alts_skip h1 (by rw [show (tick s).pos = n from hs, hlen]), alts_skip h2 (by
    show s.pos ≤ _
    rw [hs, hlen]), parseAlts]
  simp only [went, tick, hs]

/-- The calls for `m` letters: one lookahead from each. -/
def effort : Nat → Nat
  | 0 => 6
  | m + 1 => m + 7 + effort m

theorem effort_eq : ∀ m, 2 * effort m = m * m + 13 * m + 12
  | 0 => rfl
  | m + 1 => by
    have ih := effort_eq m
    have : (m + 1) * (m + 1) = m * m + 2 * m + 1 := by rw [Nat.add_mul, Nat.mul_add]; omega
    rw [effort, this]
    omega

theorem visit_items (K : Keeps env.ops) (hst : env.st = Stream.ofText (as n)) (k start : Nat) : ∀ (m p f : Nat) (s : St V (H × Nat)) (ms : List V), p + m = n → s.pos = p → m < f → m ≤ k →
    ∃ v h, parseRep env (parseV env (k + 4)) item none (-1) (-1) start f ms s = .ok (some v, went s n (effort m) h)
  | m, p, 0, s, ms, hp, hs, hf, _ => absurd hf (by omega)
  | 0, p, f + 1, s, ms, hp, hs, hf, _ => by
    obtain ⟨h, h1⟩ := visit_item_end K hst k s (by omega)
    have hlen : env.st.len = n := by rw [hst]; exact as_length n
    rw [parseRep]
    simp only [Out.bind_ok, Bool.not_true, Bool.false_eq_true, if_false, h1]
    rw [setPos_eq env (by rw [hs, hlen]; omega), Out.bind_ok]
    rw [if_neg (by omega)]
    refine ⟨(env.ops.arr ms (h, s.h.2 + 6)).1, (env.ops.arr ms (h, s.h.2 + 6)).2.1, ?_⟩
    have := K.arr ms (h, s.h.2 + 6)
    simp only [went, effort] at this ⊢
    congr 3
    · omega
    · exact Prod.ext rfl this
  | m + 1, p, f + 1, s, ms, hp, hs, hf, hk => by
    obtain ⟨v1, h1, h2⟩ := visit_item K hst k m p s hp hs hk
    obtain ⟨v, h, ih⟩ := visit_items K hst k start m (p + 1) f (went s (p + 1) (m + 7) h1) (ms ++ [v1]) (by omega) rfl (by omega) (by omega)
    rw [parseRep]
    simp only [Out.bind_ok, Bool.not_true, Bool.false_eq_true, if_false, h2]
    rw [if_neg (by omega), ih]
    refine ⟨v, h, ?_⟩
    simp only [went, effort]
    congr 4
    omega

/-- The body of `S`. -/
def bodyS : Node := .pattern (ri "S") item none (-1) (-1)

theorem visit_body (K : Keeps env.ops) (hst : env.st = Stream.ofText (as n)) (k : Nat) (s : St V (H × Nat)) (hs : s.pos = 0) (hk : n ≤ k) :
    ∃ v h, parseKind env (parseV env (k + 4)) (k + 4) bodyS s = .ok (some v, went s n (effort n) h) := by
  have hlen : env.st.len = n := by rw [hst]; exact as_length n
  rw [bodyS, parseKind]
  cases n with
  | zero =>
    obtain ⟨h, h1⟩ := visit_item_end K hst k s hs
    simp only [Out.bind_ok, h1]
    rw [setPos_eq env (by rw [hs]; omega), Out.bind_ok]
    rw [if_neg (by omega)]
    refine ⟨(env.ops.arr [] (h, s.h.2 + 6)).1, (env.ops.arr [] (h, s.h.2 + 6)).2.1, ?_⟩
    have := K.arr [] (h, s.h.2 + 6)
    simp only [went, effort] at this ⊢
    congr 3
    exact Prod.ext rfl this
  | succ m =>
    obtain ⟨v1, h1, h2⟩ := visit_item K hst k m 0 s (by omega) hs (by omega)
    obtain ⟨v, h, ih⟩ := visit_items K hst k s.pos m 1 (k + 4) (went s 1 (m + 7) h1) [v1] (by omega) rfl (by omega) (by omega)
    simp only [Out.bind_ok, h2]
    refine ⟨v, h, ih.trans ?_⟩
    simp only [went, effort]
    congr 4
    omega

/-- The whole parse. -/
theorem visit_all (K : Keeps env.ops) (hg : env.g = ahead) (htr : env.trace.stack = false) (hst : env.st = Stream.ofText (as n)) (k : Nat) (h : H) (hk : n ≤ k) :
    ∃ v s, parseV env (k + 6) ahead.root (newState (h, 0) 0) = .ok (some v, s) ∧ s.h.2 = effort n + 2 ∧ s.pos = n ∧ s.counter = 1 := by
  have hw : parseV env (k + 6) ahead.root (newState (h, 0) 0) = parseAlts env (parseV env (k + 5)) [.rule 0] (tick (newState (h, 0) 0)) := rfl
  let s1 : St V (H × Nat) := tick (tick (newState (h, 0) 0))
  let s2 : St V (H × Nat) := { s1 with heap := setHeap s1.heap 0 (newFrame V 0 0), next := 1, table := setTable s1.table 0 0 (some 0), stack := [0] }
  have hp : stackPush env 0 s1 = .ok s2 := by
    unfold stackPush getFrame
    rw [if_pos ⟨Nat.zero_le _, by rw [hg]; decide⟩]
    rfl
  have hr : parseV env (k + 5) (.rule 0) (tick (newState (h, 0) 0)) = (stackPush env 0 s1 >>= fun s => loopify env (k + 4) 0 (ri "S")
      (prepareResult env true (ri "S") (parseKind env (parseV env (k + 4)) (k + 4) bodyS)) s >>= fun x => .ok (x.1, stackPop x.2)) := by
    rw [parseV]
    unfold wrap
    dsimp only
    rw [show env.g.rules[0]? = some bodyS by rw [hg]; rfl]
    rfl
  let s3 : St V (H × Nat) := cacheSet 0 none none (setStage 0 1 (setStage 0 0 s2))
  obtain ⟨v, h', hb⟩ := visit_body K hst k { s3 with counter := s3.counter + 1 } rfl hk
  let t : St V (H × Nat) := went { s3 with counter := s3.counter + 1 } n (effort n) h'
  let o := env.ops.origin v ⟨(t.heap 0).pos, t.pos, env.st.line t.pos, "S"⟩ t.h
  have hprep : prepareResult env true (ri "S") (parseKind env (parseV env (k + 4)) (k + 4) bodyS) s3 = .ok (some o.1, { t with h := o.2 }) := by
    unfold prepareResult
    show (parseKind env (parseV env (k + 4)) (k + 4) bodyS { s3 with counter := s3.counter + 1 } >>= _) = _
    rw [hb]
    rfl
  have hl : loopify env (k + 4) 0 (ri "S") (prepareResult env true (ri "S") (parseKind env (parseV env (k + 4)) (k + 4) bodyS)) s2 =
      .ok (some o.1, cacheSet 0 (some o.1) (some n) (setStage 0 0 { t with h := o.2 })) := by
    unfold loopify
    rw [show (env.trace.stack || (ri "S").debug) = false by rw [htr]; rfl]
    have hlog : ∀ t : St V (H × Nat), logIf env false t = .ok () := fun _ => rfl
    have hf : getFrame env 0 s2 = .ok (0, s2) := by
      unfold getFrame
      rw [if_pos ⟨Nat.zero_le _, by rw [hg]; decide⟩]
      rfl
    dsimp only
    rw [hlog, Out.bind_ok, if_neg (by decide), hf, Out.bind_ok]
    have h0 : ((setStage 0 0 s2).heap 0).loopstage = 0 := rfl
    have h1 : ((setStage 0 0 s2).heap 0).endpos = none := rfl
    rw [if_pos (show (s2.heap 0).loopstage < 0 by show (-1 : Int) < 0; decide), if_pos h0, h1]
    dsimp only
    rw [hprep, Out.bind_ok]
    rfl
  have ho : o.2.2 = effort n + 2 := by
    have := K.origin v ⟨(t.heap 0).pos, t.pos, env.st.line t.pos, "S"⟩ t.h
    show o.2.2 = _
    rw [this]
    show 0 + 1 + 1 + effort n = _
    omega
  rw [hw, parseAlts, hr, hp, Out.bind_ok, hl]
  exact ⟨o.1, _, rfl, ho, rfl, rfl⟩

end Joeson.Sample
