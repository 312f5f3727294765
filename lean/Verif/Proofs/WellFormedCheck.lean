import Verif.Spec.WellFormed
/-!
# Checking that a grammar is well formed, for examples

The regular expressions are assumed not to match nothing.
-/

namespace Joeson.RuleText

mutual
/-- The regular expressions of an expression. -/
def VP.res : VP → List Regex
  | .lit _ _ | .name _ _ _ => []
  | .re _ r => [r]
  | .seq _ l | .alt _ l => VP.resAll l
  | .opt _ p | .not _ p | .look _ p => p.res
  | .rep _ v s _ _ => v.res ++ VP.resO s
/-- Of all. -/
def VP.resAll : List VP → List Regex
  | [] => []
  | p :: l => p.res ++ VP.resAll l
/-- If there is one. -/
def VP.resO : Option VP → List Regex
  | none => []
  | some p => p.res
end

mutual
/-- The regular expressions of a body. -/
def Body.res : Body → List Regex
  | .text x => x.vp.res
  | .rank ls => linesRes ls
/-- The regular expressions of the lines. -/
def linesRes : List GLine → List Regex
  | [] => []
  | .alt _ _ b :: ls | .incl _ _ b :: ls => b.res ++ linesRes ls
end

mutual
/-- Can it match nothing? -/
def VP.epsB (e : String → Bool) : VP → Bool
  | .lit _ b => b.isEmpty
  | .re _ _ => false
  | .name _ nm _ => e nm
  | .seq _ l => VP.epsAllB e l
  | .alt _ l => VP.epsAnyB e l
  | .opt _ _ | .not _ _ | .look _ _ => true
  | .rep _ v _ mn _ => mn == 0 || v.epsB e
/-- Can all of them? -/
def VP.epsAllB (e : String → Bool) : List VP → Bool
  | [] => true
  | p :: l => p.epsB e && VP.epsAllB e l
/-- Can one of them? -/
def VP.epsAnyB (e : String → Bool) : List VP → Bool
  | [] => false
  | p :: l => p.epsB e || VP.epsAnyB e l
end

mutual
/-- Can the body of a rule match nothing? -/
def Body.epsB (e : String → Bool) : Body → Bool
  | .text x => x.vp.epsB e
  | .rank ls => linesEpsB e ls
/-- Can one of the alternatives? -/
def linesEpsB (e : String → Bool) : List GLine → Bool
  | [] => false
  | .alt _ _ b :: ls => b.epsB e || linesEpsB e ls
  | .incl _ _ _ :: ls => linesEpsB e ls
end

mutual
/-- `VP.Wf`, checked. -/
def VP.wfB (e known left : String → Bool) : VP → Bool
  | .lit _ _ | .re _ _ => true
  | .name _ nm _ => left nm
  | .seq _ l => VP.wfSeqB e known left l
  | .alt _ l => VP.wfAllB e known left l
  | .opt _ p | .not _ p | .look _ p => p.wfB e known left
  | .rep _ v none _ _ => v.wfB e known left && !v.epsB e
  | .rep _ v (some p) _ _ => v.wfB e known left && !v.epsB e && p.wfB e known known
/-- One after the other. -/
def VP.wfSeqB (e known left : String → Bool) : List VP → Bool
  | [] => true
  | p :: l => p.wfB e known left && (!p.epsB e || VP.wfSeqB e known left l) && VP.wfSeqB e known known l
/-- Each of them. -/
def VP.wfAllB (e known left : String → Bool) : List VP → Bool
  | [] => true
  | p :: l => p.wfB e known left && VP.wfAllB e known left l
end

mutual
/-- The body of a rule. -/
def Body.wfB (e known left : String → Bool) : Body → Bool
  | .text x => x.vp.wfB e known left
  | .rank ls => linesWfB e known left ls
/-- The alternatives. -/
def linesWfB (e known left : String → Bool) : List GLine → Bool
  | [] => true
  | .alt _ _ b :: ls => b.wfB e known left && linesWfB e known left ls
  | .incl _ _ _ :: ls => linesWfB e known left ls
end

/-- There is a rule of this name. -/
def knownB (L : List GLine) (nm : String) : Bool := (rulesOf L).any fun d => d.1 == nm

/-- `WellFormed`, checked. -/
def wellFormedB (L : List GLine) (e : String → Bool) (rank : String → Nat) : Bool :=
  (rulesOf L).all (fun d => (!d.2.2.epsB e || e d.1) && d.2.2.wfB e (knownB L) fun n => knownB L n && decide (rank n < rank d.1)) &&
    linesWfB e (knownB L) (knownB L) L

/-- Do they all match at least one character? -/
def Solid (l : List Regex) : Prop := ∀ r ∈ l, ∀ s, r.find s ≠ some (0, 0)

theorem Solid.left {l l' : List Regex} (h : Solid (l ++ l')) : Solid l := fun r hr => h r (List.mem_append_left _ hr)
theorem Solid.right {l l' : List Regex} (h : Solid (l ++ l')) : Solid l' := fun r hr => h r (List.mem_append_right _ hr)

section
variable {e : String → Bool}

mutual
theorem VP.epsB_complete : ∀ (p : VP), Solid p.res → p.Eps (fun n => e n = true) → p.epsB e = true
  | .lit _ b, _, h => by simpa [VP.epsB, VP.Eps] using h
  | .re _ r, hs, ⟨s, h⟩ => absurd h (hs r (by simp [VP.res]) s)
  | .name _ nm _, _, h => h
  | .seq _ l, hs, h => VP.epsAllB_complete l hs h
  | .alt _ l, hs, h => VP.epsAnyB_complete l hs h
  | .opt _ _, _, _ | .not _ _, _, _ | .look _ _, _, _ => rfl
  | .rep _ v s mn _, hs, h => by
    simp only [VP.epsB, Bool.or_eq_true, beq_iff_eq]
    exact h.imp id (VP.epsB_complete v (Solid.left hs))
theorem VP.epsAllB_complete : ∀ (l : List VP), Solid (VP.resAll l) → VP.EpsAll (fun n => e n = true) l → VP.epsAllB e l = true
  | [], _, _ => rfl
  | p :: l, hs, h => by
    simp only [VP.epsAllB, Bool.and_eq_true]
    exact ⟨VP.epsB_complete p (Solid.left hs) h.1, VP.epsAllB_complete l (Solid.right hs) h.2⟩
theorem VP.epsAnyB_complete : ∀ (l : List VP), Solid (VP.resAll l) → VP.EpsAny (fun n => e n = true) l → VP.epsAnyB e l = true
  | [], _, h => by cases h
  | p :: l, hs, h => by
    simp only [VP.epsAnyB, Bool.or_eq_true]
    exact h.imp (VP.epsB_complete p (Solid.left hs)) (VP.epsAnyB_complete l (Solid.right hs))
end

mutual
theorem Body.epsB_complete : ∀ (b : Body), Solid b.res → b.Eps (fun n => e n = true) → b.epsB e = true
  | .text x, hs, h => VP.epsB_complete x.vp hs h
  | .rank ls, hs, h => linesEpsB_complete ls hs h
theorem linesEpsB_complete : ∀ (ls : List GLine), Solid (linesRes ls) → linesEps (fun n => e n = true) ls → linesEpsB e ls = true
  | [], _, h => by cases h
  | .alt _ _ b :: ls, hs, h => by
    simp only [linesEpsB, Bool.or_eq_true]
    exact Or.imp (Body.epsB_complete b (Solid.left hs)) (linesEpsB_complete ls (Solid.right hs)) h
  | .incl _ _ b :: ls, hs, h => linesEpsB_complete ls (Solid.right hs) (Or.resolve_left h id)
end

theorem VP.not_eps {p : VP} (hs : Solid p.res) (h : p.epsB e = false) : ¬ p.Eps fun n => e n = true := by
  intro h'
  rw [VP.epsB_complete p hs h'] at h
  cases h

mutual
theorem VP.wfB_sound : ∀ (p : VP) {K left : String → Bool}, Solid p.res → p.wfB e K left = true →
    p.Wf (fun n => e n = true) (fun n => K n = true) (fun n => left n = true)
  | .lit _ _, _, _, _, _ | .re _ _, _, _, _, _ => trivial
  | .name _ nm _, _, _, _, h => h
  | .seq _ l, _, _, hs, h => VP.wfSeqB_sound l hs h
  | .alt _ l, _, _, hs, h => VP.wfAllB_sound l hs h
  | .opt _ p, _, _, hs, h | .not _ p, _, _, hs, h | .look _ p, _, _, hs, h => VP.wfB_sound p hs h
  | .rep _ v none _ _, _, _, hs, h => by
    simp only [VP.wfB, Bool.and_eq_true, Bool.not_eq_true'] at h
    exact ⟨VP.wfB_sound v (Solid.left hs) h.1, VP.not_eps (Solid.left hs) h.2⟩
  | .rep _ v (some p) _ _, _, _, hs, h => by
    simp only [VP.wfB, Bool.and_eq_true, Bool.not_eq_true'] at h
    exact ⟨VP.wfB_sound v (Solid.left hs) h.1.1, VP.not_eps (Solid.left hs) h.1.2, VP.wfB_sound p (Solid.right hs) h.2⟩
theorem VP.wfSeqB_sound : ∀ (l : List VP) {K left : String → Bool}, Solid (VP.resAll l) → VP.wfSeqB e K left l = true →
    VP.WfSeq (fun n => e n = true) (fun n => K n = true) (fun n => left n = true) l
  | [], _, _, _, _ => trivial
  | p :: l, _, _, hs, h => by
    simp only [VP.wfSeqB, Bool.and_eq_true, Bool.or_eq_true, Bool.not_eq_true'] at h
    refine ⟨VP.wfB_sound p (Solid.left hs) h.1.1, fun he => ?_, VP.wfSeqB_sound l (Solid.right hs) h.2⟩
    rcases h.1.2 with h' | h'
    · exact absurd he (VP.not_eps (Solid.left hs) h')
    · exact VP.wfSeqB_sound l (Solid.right hs) h'
theorem VP.wfAllB_sound : ∀ (l : List VP) {K left : String → Bool}, Solid (VP.resAll l) → VP.wfAllB e K left l = true →
    VP.WfAll (fun n => e n = true) (fun n => K n = true) (fun n => left n = true) l
  | [], _, _, _, _ => trivial
  | p :: l, _, _, hs, h => by
    simp only [VP.wfAllB, Bool.and_eq_true] at h
    exact ⟨VP.wfB_sound p (Solid.left hs) h.1, VP.wfAllB_sound l (Solid.right hs) h.2⟩
end

mutual
theorem Body.wfB_sound : ∀ (b : Body) {K left : String → Bool}, Solid b.res → b.wfB e K left = true →
    b.Wf (fun n => e n = true) (fun n => K n = true) (fun n => left n = true)
  | .text x, _, _, hs, h => VP.wfB_sound x.vp hs h
  | .rank ls, _, _, hs, h => linesWfB_sound ls hs h
theorem linesWfB_sound : ∀ (ls : List GLine) {K left : String → Bool}, Solid (linesRes ls) → linesWfB e K left ls = true →
    linesWf (fun n => e n = true) (fun n => K n = true) (fun n => left n = true) ls
  | [], _, _, _, _ => trivial
  | .alt _ _ b :: ls, _, _, hs, h => by
    simp only [linesWfB, Bool.and_eq_true] at h
    exact ⟨Body.wfB_sound b (Solid.left hs) h.1, linesWfB_sound ls (Solid.right hs) h.2⟩
  | .incl _ _ _ :: ls, _, _, hs, h => ⟨trivial, linesWfB_sound ls (Solid.right hs) h⟩
end
end

mutual
theorem body_rules_solid : ∀ (y : Body), Solid y.res → ∀ d ∈ y.rules, Solid d.2.2.res
  | .text _, _, d, hd => by simp [Body.rules] at hd
  | .rank ls, hs, d, hd => lines_rules_solid ls hs d hd
theorem lines_rules_solid : ∀ (ls : List GLine), Solid (linesRes ls) → ∀ d ∈ rulesOf ls, Solid d.2.2.res
  | [], _, d, hd => by simp [rulesOf] at hd
  | .alt nm cb y :: ls, hs, d, hd => by
    simp only [rulesOf, GLine.rules, List.mem_append] at hd
    rcases hd with (hd | hd) | hd
    · split at hd
      · cases hd
      · cases List.mem_singleton.mp hd
        exact Solid.left hs
    · exact body_rules_solid y (Solid.left hs) d hd
    · exact lines_rules_solid ls (Solid.right hs) d hd
  | .incl nm cb y :: ls, hs, d, hd => by
    simp only [rulesOf, GLine.rules, List.mem_append, List.mem_cons] at hd
    rcases hd with (rfl | hd) | hd
    · exact Solid.left hs
    · exact body_rules_solid y (Solid.left hs) d hd
    · exact lines_rules_solid ls (Solid.right hs) d hd
end

theorem knownB_iff {L : List GLine} {n : String} : knownB L n = true ↔ Known L n := by
  simp only [knownB, List.any_eq_true, beq_iff_eq, Known]
  constructor
  · rintro ⟨⟨n', cb, b⟩, hm, rfl⟩; exact ⟨cb, b, hm⟩
  · rintro ⟨cb, b, hm⟩; exact ⟨_, hm, rfl⟩

/-- The check is sound. -/
theorem wellFormedB_sound {L : List GLine} {e : String → Bool} {rank : String → Nat} (hs : Solid (linesRes L)) (h : wellFormedB L e rank = true) :
    WellFormed L (fun n => e n = true) rank := by
  simp only [wellFormedB, Bool.and_eq_true, List.all_eq_true, Bool.or_eq_true, Bool.not_eq_true'] at h
  have hK : (fun n => knownB L n = true) = Known L := funext fun n => propext knownB_iff
  have hr := lines_rules_solid L hs
  refine ⟨fun nm cb b hm hb => ?_, fun nm cb b hm => ?_, ?_⟩
  · rcases (h.1 _ hm).1 with h' | h'
    · rw [Body.epsB_complete b (hr _ hm) hb] at h'; cases h'
    · exact h'
  · have := Body.wfB_sound b (hr _ hm) (h.1 _ hm).2
    rw [hK] at this
    simpa only [Bool.and_eq_true, decide_eq_true_eq, knownB_iff] using this
  · have := linesWfB_sound (e := e) L hs h.2
    rwa [hK] at this

end Joeson.RuleText
