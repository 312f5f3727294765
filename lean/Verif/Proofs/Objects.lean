import Verif.Spec.Objects
import Verif.Proofs.Build
/-! # What building reads and writes -/

namespace Joeson

theorem Marks.set_other {h : Marks} {a b : Nat} {m : Mark} (hb : b ≠ a) : h.set a m b = h b := if_neg hb
theorem Marks.set_self {h : Marks} {a : Nat} {m : Mark} : h.set a m a = m := if_pos rfl

theorem connectPre_ok {h h1 : Marks} {up : Option (Option Nat)} {a : Nat} (hp : connectPre h up a = .ok h1) :
    (h.isRule a = true ∨ (h a).parent = false) ∧
    h1 = h.set a { h a with parent := up.isSome, parser := if (h a).parser.isSome then (h a).parser else up.join } := by
  unfold connectPre at hp
  split at hp
  · cases hp
  · rename_i hc
    cases hp
    refine ⟨?_, rfl⟩
    cases h1 : h.isRule a <;> cases h2 : (h a).parent <;> simp_all

theorem connectPost_other {h : Marks} {num a b : Nat} (hb : b ≠ a) : (connectPost h num a).1 b = h b := by
  unfold connectPost
  split
  · exact Marks.set_other hb
  · rfl

theorem connectPost_parent {h : Marks} {num a : Nat} (b : Nat) : ((connectPost h num a).1 b).parent = (h b).parent ∧ ((connectPost h num a).1 b).parser = (h b).parser := by
  unfold connectPost
  split
  · by_cases hb : b = a
    · subst hb
      simp [Marks.set_self]
    · simp [Marks.set_other hb]
  · exact ⟨rfl, rfl⟩

mutual
/-- Only the objects of the parser are written. -/
theorem connectObj_frame : ∀ (t : Obj) {up : Option (Option Nat)} {h h' : Marks} {num num' : Nat}, connectObj up h num t = .ok (h', num') →
    ∀ b, b ∉ t.addrs → h' b = h b
  | .mk a kids, up, h, h', num, num', hc, b, hb => by
    simp only [connectObj, exceptBindOk, exceptPureOk, Prod.exists] at hc
    obtain ⟨h1, hp, h2, n2, hk, he⟩ := hc
    rw [Obj.addrs, List.mem_cons, not_or] at hb
    have := congrArg Prod.fst he
    have e : h' = (connectPost h2 n2 a).1 := this.symm
    rw [e, connectPost_other hb.1, connectObjs_frame kids hk b hb.2, (connectPre_ok hp).2, Marks.set_other hb.1]
theorem connectObjs_frame : ∀ (l : List Obj) {up : Option Nat} {h h' : Marks} {num num' : Nat}, connectObjs up h num l = .ok (h', num') →
    ∀ b, b ∉ addrsAll l → h' b = h b
  | [], up, h, h', num, num', hc, b, hb => by cases hc; rfl
  | x :: l, up, h, h', num, num', hc, b, hb => by
    simp only [connectObjs, exceptBindOk, Prod.exists] at hc
    obtain ⟨h1, n1, hx, hl⟩ := hc
    rw [addrsAll, List.mem_append, not_or] at hb
    rw [connectObjs_frame l hl b hb.2, connectObj_frame x hx b hb.1]
end

mutual
/-- The only panic. -/
theorem connectObj_error : ∀ (t : Obj) {up : Option (Option Nat)} {h : Marks} {num : Nat} {e : Panic}, connectObj up h num t = .error e → e = .notDag
  | .mk a kids, up, h, num, e, hc => by
    simp only [connectObj] at hc
    cases hp : connectPre h up a with
    | error e' =>
      rw [hp] at hc
      cases hc
      unfold connectPre at hp
      split at hp <;> cases hp
      rfl
    | ok h1 =>
      rw [hp] at hc
      cases hk : connectObjs (h1 a).parser h1 num kids with
      | error e' =>
        have hc : Except.bind (connectObjs (h1 a).parser h1 num kids) _ = .error e := hc
        rw [hk] at hc
        cases hc
        exact connectObjs_error kids hk
      | ok r =>
        have hc : Except.bind (connectObjs (h1 a).parser h1 num kids) _ = .error e := hc
        rw [hk] at hc
        cases hc
theorem connectObjs_error : ∀ (l : List Obj) {up : Option Nat} {h : Marks} {num : Nat} {e : Panic}, connectObjs up h num l = .error e → e = .notDag
  | [], up, h, num, e, hc => by cases hc
  | x :: l, up, h, num, e, hc => by
    simp only [connectObjs] at hc
    cases hx : connectObj (some up) h num x with
    | error e' =>
      rw [hx] at hc
      cases hc
      exact connectObj_error x hx
    | ok r =>
      have hc : Except.bind (connectObj (some up) h num x) _ = .error e := hc
      rw [hx] at hc
      exact connectObjs_error l hc
end

mutual
/-- A part that has a parent already stops it. -/
theorem connectObj_marked : ∀ (t : Obj) {up : Option (Option Nat)} {h h' : Marks} {num num' : Nat} {a : Nat}, a ∈ t.addrs → h.isRule a = false → (h a).parent = true →
    connectObj up h num t ≠ .ok (h', num')
  | .mk b kids, up, h, h', num, num', a, ha, hr, hpa, hc => by
    simp only [connectObj, exceptBindOk, exceptPureOk, Prod.exists] at hc
    obtain ⟨h1, hp, h2, n2, hk, he⟩ := hc
    obtain ⟨hok, rfl⟩ := connectPre_ok hp
    by_cases hab : a = b
    · subst hab
      rcases hok with h0 | h0
      · rw [hr] at h0; cases h0
      · rw [hpa] at h0; cases h0
    · rw [Obj.addrs, List.mem_cons] at ha
      refine connectObjs_marked kids (ha.resolve_left hab) ?_ ?_ hk
      · rw [Marks.isRule, Marks.set_other hab]; exact hr
      · rw [Marks.set_other hab]; exact hpa
theorem connectObjs_marked : ∀ (l : List Obj) {up : Option Nat} {h h' : Marks} {num num' : Nat} {a : Nat}, a ∈ addrsAll l → h.isRule a = false → (h a).parent = true →
    connectObjs up h num l ≠ .ok (h', num')
  | [], up, h, h', num, num', a, ha, _, _, _ => by cases ha
  | x :: l, up, h, h', num, num', a, ha, hr, hpa, hc => by
    simp only [connectObjs, exceptBindOk, Prod.exists] at hc
    obtain ⟨h1, n1, hx, hl⟩ := hc
    by_cases hax : a ∈ x.addrs
    · exact connectObj_marked x hax hr hpa hx
    · have e := connectObj_frame x hx a hax
      rw [addrsAll, List.mem_append] at ha
      refine connectObjs_marked l (ha.resolve_left hax) ?_ ?_ hl
      · rw [Marks.isRule, e]; exact hr
      · rw [e]; exact hpa
end

mutual
/-- Parents and parsers once set stay set. -/
theorem connectObj_keeps : ∀ (t : Obj) {up : Option (Option Nat)} {h h' : Marks} {num num' : Nat}, up.isSome → connectObj up h num t = .ok (h', num') →
    ∀ b, ((h b).parent = true ∨ b ∈ t.addrs → (h' b).parent = true) ∧ ((h b).parser.isSome → (h' b).parser = (h b).parser)
  | .mk a kids, up, h, h', num, num', hup, hc, b => by
    simp only [connectObj, exceptBindOk, exceptPureOk, Prod.exists] at hc
    obtain ⟨h1, hp, h2, n2, hk, he⟩ := hc
    obtain ⟨-, rfl⟩ := connectPre_ok hp
    have e : h' = (connectPost h2 n2 a).1 := (congrArg Prod.fst he).symm
    obtain ⟨p1, p2⟩ := connectPost_parent (h := h2) (num := n2) (a := a) b
    obtain ⟨k1, k2⟩ := connectObjs_keeps kids hk b
    rw [e, p1, p2]
    constructor
    · intro hor
      refine k1 ?_
      by_cases hb : b = a
      · subst hb
        exact .inl (by rw [Marks.set_self]; exact hup)
      · rw [Marks.set_other hb]
        rw [Obj.addrs, List.mem_cons] at hor
        rcases hor with h0 | h0 | h0
        · exact .inl h0
        · exact absurd h0 hb
        · exact .inr h0
    · intro hs
      by_cases hb : b = a
      · subst hb
        rw [Marks.set_self] at k2
        simp only [hs, if_true] at k2
        exact k2 trivial
      · rw [Marks.set_other hb] at k2
        exact k2 hs
theorem connectObjs_keeps : ∀ (l : List Obj) {up : Option Nat} {h h' : Marks} {num num' : Nat}, connectObjs up h num l = .ok (h', num') →
    ∀ b, ((h b).parent = true ∨ b ∈ addrsAll l → (h' b).parent = true) ∧ ((h b).parser.isSome → (h' b).parser = (h b).parser)
  | [], up, h, h', num, num', hc, b => by
    cases hc
    exact ⟨fun h0 => h0.elim id (fun h1 => by cases h1), fun _ => rfl⟩
  | x :: l, up, h, h', num, num', hc, b => by
    simp only [connectObjs, exceptBindOk, Prod.exists] at hc
    obtain ⟨h1, n1, hx, hl⟩ := hc
    obtain ⟨a1, a2⟩ := connectObj_keeps x rfl hx b
    obtain ⟨b1, b2⟩ := connectObjs_keeps l hl b
    constructor
    · intro hor
      rw [addrsAll, List.mem_append] at hor
      rcases hor with h0 | h0 | h0
      · exact b1 (.inl (a1 (.inl h0)))
      · exact b1 (.inl (a1 (.inr h0)))
      · exact b1 (.inr h0)
    · intro hs
      have := a2 hs
      rw [b2 (by rw [this]; exact hs), this]
end

end Joeson
