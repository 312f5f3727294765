import Verif.Spec.RuleText
import Verif.Proofs.RuleText6
/-!
# Deciding whether a tree is of the supported syntax
-/

namespace Joeson.RuleText

/-- Decides `Blank`. -/
def blankB (w : Bytes) : Bool := w.all fun x => x == 0x20 || x == 0x0A
/-- Decides `Letter`. -/
def letterB (x : UInt8) : Bool :=
  (0x61 ≤ x.toNat && x.toNat ≤ 0x7A) || (0x41 ≤ x.toNat && x.toNat ≤ 0x5A) || x == 0x2E || x == 0x5F
/-- Decides `Digit`. -/
def digitB (x : UInt8) : Bool := 0x30 ≤ x.toNat && x.toNat ≤ 0x39
/-- Decides `Word`. -/
def wordB : Bytes → Bool
  | [] => false
  | x :: l => letterB x && l.all fun y => letterB y || digitB y
/-- Decides `Number`. -/
def numberB (ds : Bytes) : Bool := !ds.isEmpty && ds.all digitB && decide (decimal ds < 2 ^ 63)
/-- Decides `Spec.Scalar`. -/
def scalarB (c : Nat) : Bool := decide (c < 0xD800) || (decide (0xDFFF < c) && decide (c < 0x110000))
/-- Decides `Piece.Ok`. -/
def Piece.okB (close : Nat) (p : Piece) : Bool := scalarB p.char && (p.escaped || (p.char != close && p.char != 0x5C))
/-- Decides `Bounds.Ok`. -/
def Bounds.okB (r : Bounds) : Bool :=
  blankB r.w0 && blankB r.w1 && blankB r.w2 && blankB r.w3 && r.min.all numberB && r.max.all numberB
/-- Decides `LabOk`. -/
def labB : Option Bytes → Bool
  | none => true
  | some w => w == [0x26] || w == [0x40] || wordB w

/-- Decides `Prim.before`. -/
def Prim.beforeB (x : UInt8) : Prim → Bool
  | .ref _ => !letterB x && x != 0x28
  | _ => true

/-- Decides `Deco.before`. -/
def Deco.beforeB (x : UInt8) : Deco → Bool
  | .prim p => p.beforeB x && x != 0x3F
  | .star _ none | .plus _ => !(letterB x || x == 0x28 || x == 0x27 || x == 0x2F || x == 0x5B)
  | .starJoin _ j none | .plusJoin _ j => j.beforeB x
  | .not p => p.beforeB x
  | .look _ => x != 0x3F
  | .opt _ | .star _ (some _) | .starJoin _ _ (some _) | .times _ _ => true

/-- Decides `Deco.apart`. -/
def Deco.apartB (d : Deco) (us : Units) : Bool := !us.lead.isEmpty || us.text.head?.all fun x => d.beforeB x

mutual
/-- `Prim.Ok`, but for the regular expressions. -/
def Prim.okB : Prim → Bool
  | .ref w => wordB w
  | .call w e => wordB w && e.okB
  | .group e => e.okB
  | .lgroup w e => wordB w && e.okB
  | .str l => l.all (Piece.okB 0x27)
  | .regex l _ => l.all (Piece.okB 0x2F)
  | .cls l _ => l.all (Piece.okB 0x5D)
/-- `Deco.Ok`. -/
def Deco.okB : Deco → Bool
  | .prim p | .opt p | .plus p | .not p => p.okB
  | .star p r => p.okB && r.all Bounds.okB
  | .starJoin p j r => p.okB && j.okB && r.all Bounds.okB
  | .plusJoin p j => p.okB && j.okB
  | .times p r => p.okB && r.okB
  | .look e => e.okB
/-- `Units.Ok`. -/
def Units.okB : Units → Bool
  | .one w lab d => blankB w && labB lab && d.okB
  | .cons w lab d us => blankB w && labB lab && d.okB && us.okB && d.apartB us
  | .open_ w lab e => blankB w && labB lab && e.okB
/-- `Alts.Ok`. -/
def Alts.okB : Alts → Bool
  | .one us => us.okB
  | .cons us w as => us.okB && !us.isOpen && blankB w && as.okB
/-- `Expr.Ok`. -/
def Expr.okB : Expr → Bool
  | .single us w => us.okB && blankB w && (!us.isOpen || w.isEmpty)
  | .choice lead us w as trail w' => lead.all blankB && us.okB && !us.isOpen && blankB w && as.okB && trail.all blankB &&
      blankB w' && (!as.isOpen || (trail.isEmpty && w'.isEmpty))
end

mutual
/-- The sources of the regular expressions, and what they stand for. -/
def Prim.regexes : Prim → List (Bytes × Regex)
  | .call _ e | .group e | .lgroup _ e => e.regexes
  | .regex l re => [(pieces l, re)]
  | .cls l re => [([0x5B] ++ pieces l ++ [0x5D], re)]
  | .ref _ | .str _ => []
/-- The same. -/
def Deco.regexes : Deco → List (Bytes × Regex)
  | .prim p | .opt p | .plus p | .not p | .star p _ | .times p _ => p.regexes
  | .starJoin p j _ | .plusJoin p j => p.regexes ++ j.regexes
  | .look e => e.regexes
/-- The same. -/
def Units.regexes : Units → List (Bytes × Regex)
  | .one _ _ d => d.regexes
  | .cons _ _ d us => d.regexes ++ us.regexes
  | .open_ _ _ e => e.regexes
/-- The same. -/
def Alts.regexes : Alts → List (Bytes × Regex)
  | .one us => us.regexes
  | .cons us _ as => us.regexes ++ as.regexes
/-- The same. -/
def Expr.regexes : Expr → List (Bytes × Regex)
  | .single us _ => us.regexes
  | .choice _ us _ as _ _ => us.regexes ++ as.regexes
end

theorem blankB_ok {w : Bytes} (h : blankB w = true) : Blank w := by simpa [blankB, Blank] using h
theorem letterB_ok {x : UInt8} (h : letterB x = true) : Letter x := by
  simpa [letterB, Letter, or_assoc] using h
theorem letterB_iff {x : UInt8} : letterB x = true ↔ Letter x := by
  simp [letterB, Letter, or_assoc]
theorem primBeforeB_ok {x : UInt8} {p : Prim} (h : p.beforeB x = true) : p.before x := by
  cases p
  case ref => simpa [Prim.beforeB, Prim.before, ← letterB_iff] using h
  all_goals trivial
theorem decoBeforeB_ok {x : UInt8} {d : Deco} (h : d.beforeB x = true) : d.before x := by
  have key : (!(letterB x || x == 0x28 || x == 0x27 || x == 0x2F || x == 0x5B)) = true →
      ¬ (Letter x ∨ x = 0x28 ∨ x = 0x27 ∨ x = 0x2F ∨ x = 0x5B) := by
    simp only [← letterB_iff, Bool.not_eq_true', Bool.or_eq_false_iff, beq_eq_false_iff_ne]
    rintro ⟨⟨⟨⟨h1, h2⟩, h3⟩, h4⟩, h5⟩ (h | h | h | h | h)
    · rw [h1] at h; cases h
    · exact h2 h
    · exact h3 h
    · exact h4 h
    · exact h5 h
  cases d with
  | prim p =>
    simp only [Deco.beforeB, Bool.and_eq_true, bne_iff_ne] at h
    exact ⟨primBeforeB_ok h.1, h.2⟩
  | opt p => trivial
  | star p r =>
    cases r with
    | none => exact key h
    | some r => trivial
  | starJoin p j r =>
    cases r with
    | none => exact primBeforeB_ok h
    | some r => trivial
  | plus p => exact key h
  | plusJoin p j => exact primBeforeB_ok h
  | times p r => trivial
  | not p => exact primBeforeB_ok h
  | look e => simpa [Deco.beforeB, Deco.before] using h
theorem apartB_ok {d : Deco} {us : Units} (h : d.apartB us = true) : d.apart us := by
  simp only [Deco.apartB, Bool.or_eq_true, Bool.not_eq_true', List.isEmpty_eq_false_iff] at h
  refine h.imp id fun h x l hx => decoBeforeB_ok ?_
  rw [hx] at h
  exact h
theorem digitB_ok {x : UInt8} (h : digitB x = true) : Digit x := by
  simpa [digitB, Digit] using h
theorem wordB_ok : ∀ {w : Bytes}, wordB w = true → Word w
  | x :: l, h => by
    simp only [wordB, Bool.and_eq_true, List.all_eq_true, Bool.or_eq_true] at h
    exact ⟨x, l, rfl, letterB_ok h.1, fun y hy => (h.2 y hy).imp letterB_ok digitB_ok⟩
theorem numberB_ok {w : Bytes} (h : numberB w = true) : Number w := by
  simp only [numberB, Bool.and_eq_true, List.all_eq_true, decide_eq_true_eq, Bool.not_eq_true', List.isEmpty_eq_false_iff] at h
  exact ⟨h.1.1, fun x hx => digitB_ok (h.1.2 x hx), h.2⟩
theorem scalarB_ok {c : Nat} (h : scalarB c = true) : Spec.Scalar c := by
  simp only [scalarB, Bool.or_eq_true, Bool.and_eq_true, decide_eq_true_eq] at h
  unfold Spec.Scalar
  omega
theorem pieceB_ok {close : Nat} {p : Piece} (h : p.okB close = true) : p.Ok close := by
  simp only [Piece.okB, Bool.and_eq_true, Bool.or_eq_true, bne_iff_ne] at h
  refine ⟨scalarB_ok h.1, fun he => ?_⟩
  rcases h.2 with h | h
  · rw [he] at h; cases h
  · exact h
theorem piecesB_ok {close : Nat} {l : List Piece} (h : l.all (Piece.okB close) = true) : ∀ p ∈ l, p.Ok close :=
  fun p hp => pieceB_ok (List.all_eq_true.mp h p hp)
theorem boundsB_ok {r : Bounds} (h : r.okB = true) : r.Ok := by
  simp only [Bounds.okB, Bool.and_eq_true] at h
  obtain ⟨⟨⟨⟨⟨h0, h1⟩, h2⟩, h3⟩, h4⟩, h5⟩ := h
  refine ⟨blankB_ok h0, blankB_ok h1, blankB_ok h2, blankB_ok h3, fun ds hd => ?_, fun ds hd => ?_⟩
  · rw [hd] at h4; exact numberB_ok h4
  · rw [hd] at h5; exact numberB_ok h5
theorem boundsB_all {r : Option Bounds} (h : r.all Bounds.okB = true) : ∀ b, r = some b → b.Ok := by
  intro b hb; subst hb; exact boundsB_ok h
theorem labB_ok {lab : Option Bytes} (h : labB lab = true) : LabOk lab := by
  intro w hw
  subst hw
  simp only [labB, Bool.or_eq_true, beq_iff_eq] at h
  rcases h with (h | h) | h
  · exact .inl h
  · exact .inr (.inl h)
  · exact .inr (.inr (wordB_ok h))

section
variable {rx : Bytes → Option Regex}

mutual
theorem primB_ok : ∀ (p : Prim), p.okB = true → (∀ x ∈ p.regexes, rx x.1 = some x.2) → p.Ok rx
  | .ref w, h, _ => wordB_ok h
  | .call w e, h, hr => by
    simp only [Prim.okB, Bool.and_eq_true] at h
    exact ⟨wordB_ok h.1, exprB_ok e h.2 hr⟩
  | .group e, h, hr => exprB_ok e h hr
  | .lgroup w e, h, hr => by
    simp only [Prim.okB, Bool.and_eq_true] at h
    exact ⟨wordB_ok h.1, exprB_ok e h.2 hr⟩
  | .str l, h, _ => piecesB_ok h
  | .regex l re, h, hr => ⟨piecesB_ok h, hr _ (List.mem_singleton.mpr rfl)⟩
  | .cls l re, h, hr => ⟨piecesB_ok h, hr _ (List.mem_singleton.mpr rfl)⟩
theorem decoB_ok : ∀ (d : Deco), d.okB = true → (∀ x ∈ d.regexes, rx x.1 = some x.2) → d.Ok rx
  | .prim p, h, hr | .opt p, h, hr | .plus p, h, hr | .not p, h, hr => primB_ok p h hr
  | .star p r, h, hr => by
    simp only [Deco.okB, Bool.and_eq_true] at h
    exact ⟨primB_ok p h.1 hr, boundsB_all h.2⟩
  | .starJoin p j r, h, hr => by
    simp only [Deco.okB, Bool.and_eq_true] at h
    exact ⟨primB_ok p h.1.1 fun x hx => hr x (List.mem_append_left _ hx),
      primB_ok j h.1.2 fun x hx => hr x (List.mem_append_right _ hx), boundsB_all h.2⟩
  | .plusJoin p j, h, hr => by
    simp only [Deco.okB, Bool.and_eq_true] at h
    exact ⟨primB_ok p h.1 fun x hx => hr x (List.mem_append_left _ hx),
      primB_ok j h.2 fun x hx => hr x (List.mem_append_right _ hx)⟩
  | .times p r, h, hr => by
    simp only [Deco.okB, Bool.and_eq_true] at h
    exact ⟨primB_ok p h.1 hr, boundsB_ok h.2⟩
  | .look e, h, hr => exprB_ok e h hr
theorem unitsB_ok : ∀ (us : Units), us.okB = true → (∀ x ∈ us.regexes, rx x.1 = some x.2) → us.Ok rx
  | .one w lab d, h, hr => by
    simp only [Units.okB, Bool.and_eq_true] at h
    exact ⟨blankB_ok h.1.1, labB_ok h.1.2, decoB_ok d h.2 hr⟩
  | .cons w lab d us, h, hr => by
    simp only [Units.okB, Bool.and_eq_true, Bool.not_eq_true', List.isEmpty_eq_false_iff] at h
    obtain ⟨⟨⟨⟨h1, h2⟩, h3⟩, h4⟩, h5⟩ := h
    exact ⟨blankB_ok h1, labB_ok h2, decoB_ok d h3 fun x hx => hr x (List.mem_append_left _ hx),
      unitsB_ok us h4 fun x hx => hr x (List.mem_append_right _ hx), apartB_ok h5⟩
  | .open_ w lab e, h, hr => by
    simp only [Units.okB, Bool.and_eq_true] at h
    exact ⟨blankB_ok h.1.1, labB_ok h.1.2, exprB_ok e h.2 hr⟩
theorem altsB_ok : ∀ (as : Alts), as.okB = true → (∀ x ∈ as.regexes, rx x.1 = some x.2) → as.Ok rx
  | .one us, h, hr => unitsB_ok us h hr
  | .cons us w as, h, hr => by
    simp only [Alts.okB, Bool.and_eq_true, Bool.not_eq_true'] at h
    obtain ⟨⟨⟨h1, h2⟩, h3⟩, h4⟩ := h
    exact ⟨unitsB_ok us h1 fun x hx => hr x (List.mem_append_left _ hx), h2, blankB_ok h3,
      altsB_ok as h4 fun x hx => hr x (List.mem_append_right _ hx)⟩
/-- A tree that passes the check, and whose regular expressions compile, is of the supported syntax. -/
theorem exprB_ok : ∀ (e : Expr), e.okB = true → (∀ x ∈ e.regexes, rx x.1 = some x.2) → e.Ok rx
  | .single us w, h, hr => by
    simp only [Expr.okB, Bool.and_eq_true, Bool.or_eq_true, Bool.not_eq_true', List.isEmpty_iff] at h
    refine ⟨unitsB_ok us h.1.1 hr, blankB_ok h.1.2, fun ho => ?_⟩
    rcases h.2 with h | h
    · rw [ho] at h; cases h
    · exact h
  | .choice lead us w as trail w', h, hr => by
    simp only [Expr.okB, Bool.and_eq_true, Bool.or_eq_true, Bool.not_eq_true', List.isEmpty_iff, List.all_eq_true] at h
    obtain ⟨⟨⟨⟨⟨⟨⟨h1, h2⟩, h3⟩, h4⟩, h5⟩, h6⟩, h7⟩, h8⟩ := h
    refine ⟨fun x hx => blankB_ok (h1 x hx), unitsB_ok us h2 fun x hx => hr x (List.mem_append_left _ hx), h3, blankB_ok h4,
      altsB_ok as h5 fun x hx => hr x (List.mem_append_right _ hx), fun x hx => blankB_ok (h6 x hx), blankB_ok h7, fun ho => ?_⟩
    rcases h8 with h | h
    · rw [ho] at h; cases h
    · exact h
end
end

end Joeson.RuleText
