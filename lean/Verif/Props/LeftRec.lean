import Verif.Props.Operators
import Verif.Props.Parse
/-!
# C33: growing the seed of a left recursion
-/

namespace Joeson
open Spec
variable {V H : Type} {env : Env V H}

/-- The body `f` of the rule, run at `start` while the memo entry `a` of the rule holds value `v`
ending at `e`, finishes with `r` at `q`. -/
def RunWith (f : Run V H) (a start : Nat) (v : V) (e : Nat) (r : Option V) (q : Nat) : Prop :=
  ∃ t t', t.pos = start ∧ (t.heap a).result = some v ∧ (t.heap a).endpos = some e ∧ f t = .ok (r, t') ∧ t'.pos = q

/-- Successive results: each is what the body gives when the recursive call yields the previous one, and
ends strictly further. -/
inductive Grows (f : Run V H) (a start : Nat) : List (V × Nat) → Prop
  | one {x} : Grows f a start [x]
  | more {v e v' e' l} : RunWith f a start v e (some v') e' → e < e' → Grows f a start ((v', e') :: l) →
      Grows f a start ((v, e) :: (v', e') :: l)

theorem Grows.length {f : Run V H} {a start : Nat} {l : List (V × Nat)} (h : Grows f a start l) :
    ∀ v e v' e', l.head? = some (v, e) → l.getLast? = some (v', e') → l.length + e ≤ e' + 1 := by
  induction h with
  | one => intro v e v' e' h1 h2; simp at h1 h2; rw [h1] at h2; cases h2; simp; omega
  | more _ h2 _ ih =>
    intro v e v' e' h3 h4
    simp only [List.head?_cons, Option.some.injEq, Prod.mk.injEq] at h3
    obtain ⟨rfl, rfl⟩ := h3
    have := ih _ _ v' e' rfl (by simpa using h4)
    simp only [List.length_cons] at this ⊢
    omega

theorem growLoop_grows {sh : Bool} {f : Run V H} {a start : Nat} : ∀ (n : Nat) (r : V) (s s' : St V H)
    (st : Nat → Option Nat) (e : Nat) (v : V), growLoop env sh f a start n r s = .ok ((st, e, v), s') →
    ∃ l, Grows f a start l ∧ l.head? = some (r, s.pos) ∧ l.getLast? = some (v, e) ∧
      ∃ r' q, RunWith f a start v e r' q ∧ (r' = none ∨ q ≤ e)
  | 0, _, _, _, _, _, _, h => by cases h
  | n + 1, r, s, s', st, e, v, h => by
    rw [growLoop] at h
    obtain ⟨⟨bs, s1⟩, hw, h⟩ := Out.bind_eq_ok.mp h
    have hp1 : s1.pos = s.pos := by
      unfold wipeWith at hw
      split at hw
      · cases hw
      · cases hw; rfl
    dsimp only at h
    obtain ⟨-, -, h⟩ := Out.bind_eq_ok.mp h
    obtain ⟨s2, h2, h⟩ := Out.bind_eq_ok.mp h
    obtain ⟨-, rfl⟩ := setPos_ok_iff.mp h2
    obtain ⟨⟨r3, s3⟩, h3, h⟩ := Out.bind_eq_ok.mp h
    have hrun : RunWith f a start r s1.pos r3 s3.pos := by
      refine ⟨_, s3, rfl, ?_, ?_, h3, rfl⟩ <;> simp [cacheSet, updFrame, setHeap]
    rw [hp1] at hrun h
    dsimp only at h
    split at h
    · rename_i hle
      cases h
      exact ⟨[(r, s.pos)], .one, rfl, rfl, r3, _, hrun, Or.inr hle⟩
    · rename_i hle
      cases r3 with
      | none =>
        cases h
        exact ⟨[(r, s.pos)], .one, rfl, rfl, none, _, hrun, Or.inl rfl⟩
      | some v3 =>
        obtain ⟨l, h4, h5, h6, h7⟩ := growLoop_grows n v3 s3 s' st e v h
        cases l with
        | nil => simp at h5
        | cons x l =>
          simp only [List.head?_cons, Option.some.injEq] at h5
          subst h5
          exact ⟨(r, s.pos) :: (v3, s3.pos) :: l, .more hrun (by omega) h4, rfl, by simpa using h6, h7⟩

/-- C33: when a rule turned out to be left recursive at a position, with seed `r0` (the result of the
body when the recursive call fails), the result of the rule is the last of a list of results starting
with the seed, each obtained from the previous one by running the body again, each ending strictly
further; one more run would fail or not end further; and there are at most as many as bytes between
the first and the last end, plus one. -/
theorem C33_seed_grows {fuel id a : Nat} {i : Info} {f : Run V H} {s s1 s2 s' : St V H} {r : Option V} {r0 : V}
    (hgf : getFrame env id s = .ok (a, s1)) (hsk : i.skipCache = false)
    (hst : (s1.heap a).loopstage ≤ 0) (he : (s1.heap a).endpos = none)
    (hseed : f (cacheSet a none none (setStage a 1 (if (s1.heap a).loopstage < 0 then setStage a 0 s1 else s1))) =
      .ok (some r0, s2)) (hrec : (s2.heap a).loopstage = 2)
    (h : loopify env fuel id i f s = .ok (r, s')) :
    ∃ l v, Grows f a s.pos l ∧ l.head? = some (r0, s2.pos) ∧ l.getLast? = some (v, s'.pos) ∧
      r = some v ∧ l.length + s2.pos ≤ s'.pos + 1 ∧
      ∃ r' q, RunWith f a s.pos v s'.pos r' q ∧ (r' = none ∨ q ≤ s'.pos) := by
  have hpos : s1.pos = s.pos := by
    unfold getFrame at hgf
    split at hgf
    · split at hgf <;> cases hgf <;> rfl
    · cases hgf
  unfold loopify at h
  extract_lets sh at h
  obtain ⟨-, -, h⟩ := Out.bind_eq_ok.mp h
  rw [if_neg (by simp [hsk]), hgf, Out.bind_ok] at h
  dsimp only at h
  generalize hs1 : (if (s1.heap a).loopstage < 0 then setStage a 0 s1 else s1) = s1' at h hseed
  have h10 : (s1'.heap a).loopstage = 0 ∧ (s1'.heap a).endpos = none ∧ s1'.pos = s1.pos := by
    subst hs1
    split
    · simp [setStage, updFrame, setHeap, he]
    · exact ⟨by omega, he, rfl⟩
  rw [if_pos h10.1, h10.2.1] at h
  dsimp only at h
  rw [hseed, Out.bind_ok] at h
  dsimp only at h
  rw [if_neg (by omega), if_pos hrec] at h
  generalize hs3 : (if (env.trace.loop && (decide (env.trace.filterLine < 0) || _)) = true then _ else setStage a 3 s2) = s3 at h
  have hp3 : s3.pos = s2.pos := by
    subst hs3
    split <;> rfl
  obtain ⟨⟨⟨bs, be, br⟩, s4⟩, hgrow, h⟩ := Out.bind_eq_ok.mp h
  dsimp only at h
  obtain ⟨s5, -, h⟩ := Out.bind_eq_ok.mp h
  obtain ⟨x6, -, h⟩ := Out.bind_eq_ok.mp h
  obtain ⟨s7, h7, h⟩ := Out.bind_eq_ok.mp h
  obtain ⟨-, rfl⟩ := setPos_ok_iff.mp h7
  obtain ⟨-, -, h⟩ := Out.bind_eq_ok.mp h
  cases h
  rw [hpos] at hgrow
  obtain ⟨l, h8, h9, h11, h12⟩ := growLoop_grows _ _ _ _ _ _ _ hgrow
  rw [hp3] at h9
  exact ⟨l, br, h8, h9, h11, rfl, h8.length _ _ _ _ h9 h11, h12⟩

/-- Every operand of `-` adds one iteration: the left recursive sample on four operands. -/
example : Sample.valueOf (parseString Sample.ops Sample.minus {} [] 60 () (asc "1-2-1-2")) =
    some (.arr [.arr [.arr [.str (asc "1"), .str (asc "2")], .str (asc "1")], .str (asc "2")]) := by
  decide +kernel

end Joeson
