import Verif.Spec.Lang
import Verif.Proofs.RuleTextB
/-!
# Checking that a text is of the supported syntax, for examples

Texts with regular expressions are not accepted here (whether they compile depends on the parameter `rx`).
-/

namespace Joeson.RuleText

/-- Blanks. -/
def blankC (w : Bytes) : Bool := w.all fun x => x == 0x20 || x == 0x0A

theorem blankC_sound {w : Bytes} (h : blankC w = true) : Blank w := by
  simpa [blankC, Blank] using h

instance : DecidablePred Letter := fun x => inferInstanceAs (Decidable (_ ∨ _))
instance : DecidablePred Digit := fun x => inferInstanceAs (Decidable (_ ∧ _))

/-- A word. -/
def wordC : Bytes → Bool
  | [] => false
  | x :: l => decide (Letter x) && l.all fun y => decide (Letter y) || decide (Digit y)

theorem wordC_sound {w : Bytes} (h : wordC w = true) : Word w := by
  cases w with
  | nil => cases h
  | cons x l =>
    simp only [wordC, Bool.and_eq_true, decide_eq_true_eq, List.all_eq_true, Bool.or_eq_true] at h
    exact ⟨x, l, rfl, h.1, h.2⟩

/-- A number. -/
def numberC (ds : Bytes) : Bool := !ds.isEmpty && ds.all (fun x => decide (Digit x)) && decide (decimal ds < 2 ^ 63)

theorem numberC_sound {ds : Bytes} (h : numberC ds = true) : Number ds := by
  simp only [numberC, Bool.and_eq_true, decide_eq_true_eq, List.all_eq_true, Bool.not_eq_true', List.isEmpty_eq_false_iff] at h
  exact ⟨h.1.1, h.1.2, h.2⟩

/-- An optional number. -/
def numberO : Option Bytes → Bool
  | none => true
  | some ds => numberC ds

theorem numberO_sound {o : Option Bytes} (h : numberO o = true) : ∀ ds, o = some ds → Number ds := by
  rintro ds rfl; exact numberC_sound h

/-- Bounds. -/
def Bounds.fineB (r : Bounds) : Bool := blankC r.w0 && blankC r.w1 && blankC r.w2 && blankC r.w3 && numberO r.min && numberO r.max

theorem Bounds.fineB_sound {r : Bounds} (h : r.fineB = true) : r.Ok := by
  simp only [Bounds.fineB, Bool.and_eq_true] at h
  obtain ⟨⟨⟨⟨⟨h0, h1⟩, h2⟩, h3⟩, h4⟩, h5⟩ := h
  exact ⟨blankC_sound h0, blankC_sound h1, blankC_sound h2, blankC_sound h3, numberO_sound h4, numberO_sound h5⟩

/-- Optional bounds. -/
def boundsC : Option Bounds → Bool
  | none => true
  | some r => r.fineB

theorem boundsC_sound {o : Option Bounds} (h : boundsC o = true) : ∀ r, o = some r → r.Ok := by
  rintro m rfl; exact Bounds.fineB_sound h

/-- A piece. -/
def Piece.fineB (close : Nat) (p : Piece) : Bool := decide (Spec.Scalar p.char) && (p.escaped || (p.char != close && p.char != 0x5C))

theorem Piece.fineB_sound {close : Nat} {p : Piece} (h : p.fineB close = true) : p.Ok close := by
  simp only [Piece.fineB, Bool.and_eq_true, Bool.or_eq_true, decide_eq_true_eq, bne_iff_ne] at h
  refine ⟨h.1, fun he => ?_⟩
  rcases h.2 with h2 | h2
  · rw [he] at h2; cases h2
  · exact h2

/-- A label. -/
def labC : Option Bytes → Bool
  | none => true
  | some w => w == [0x26] || w == [0x40] || wordC w

theorem labC_sound {lab : Option Bytes} (h : labC lab = true) : LabOk lab := by
  cases lab with
  | none => exact fun w h => by cases h
  | some w =>
    simp only [labC, Bool.or_eq_true, beq_iff_eq] at h
    intro w' hw
    cases hw
    rcases h with (h1 | h1) | h1
    · exact .inl h1
    · exact .inr (.inl h1)
    · exact .inr (.inr (wordC_sound h1))

mutual
/-- Supported (but for the regular expressions, which need to compile). -/
def Prim.fineB : Prim → Bool
  | .ref w => wordC w
  | .call w e => wordC w && e.fineB
  | .group e => e.fineB
  | .lgroup w e => wordC w && e.fineB
  | .str l => l.all (Piece.fineB 0x27)
  | .regex l _ => l.all (Piece.fineB 0x2F)
  | .cls l _ => l.all (Piece.fineB 0x5D)
/-- The same. -/
def Deco.fineB : Deco → Bool
  | .prim p | .opt p | .plus p | .not p => p.fineB
  | .star p r => p.fineB && boundsC r
  | .starJoin p j r => p.fineB && j.fineB && boundsC r
  | .plusJoin p j => p.fineB && j.fineB
  | .times p r => p.fineB && r.fineB
  | .look e => e.fineB
/-- The same. -/
def Units.fineB : Units → Bool
  | .one w lab d => blankC w && labC lab && d.fineB
  | .cons w lab d us => blankC w && labC lab && d.fineB && us.fineB && d.apartB us
  | .open_ w lab e => blankC w && labC lab && e.fineB
/-- The same. -/
def Alts.fineB : Alts → Bool
  | .one us => us.fineB
  | .cons us w as => us.fineB && !us.isOpen && blankC w && as.fineB
/-- The same. -/
def Expr.fineB : Expr → Bool
  | .single us w => us.fineB && blankC w && (!us.isOpen || w.isEmpty)
  | .choice lead us w as trail w' => lead.all blankC && us.fineB && !us.isOpen && blankC w && as.fineB && trail.all blankC && blankC w' &&
      (!as.isOpen || (trail.isEmpty && w'.isEmpty))
end

mutual
/-- Without regular expressions. -/
def Prim.plainB : Prim → Bool
  | .ref _ | .str _ => true
  | .call _ e | .group e | .lgroup _ e => e.plainB
  | .regex _ _ | .cls _ _ => false
/-- The same. -/
def Deco.plainB : Deco → Bool
  | .prim p | .opt p | .plus p | .not p | .star p _ | .times p _ => p.plainB
  | .starJoin p j _ | .plusJoin p j => p.plainB && j.plainB
  | .look e => e.plainB
/-- The same. -/
def Units.plainB : Units → Bool
  | .one _ _ d => d.plainB
  | .cons _ _ d us => d.plainB && us.plainB
  | .open_ _ _ e => e.plainB
/-- The same. -/
def Alts.plainB : Alts → Bool
  | .one us => us.plainB
  | .cons us _ as => us.plainB && as.plainB
/-- The same. -/
def Expr.plainB : Expr → Bool
  | .single us _ => us.plainB
  | .choice _ us _ as _ _ => us.plainB && as.plainB
end

section
variable (rx : Bytes → Option Regex)

mutual
/-- The regular expressions compile. -/
def Prim.RxOk : Prim → Prop
  | .ref _ | .str _ => True
  | .call _ e | .group e | .lgroup _ e => e.RxOk
  | .regex l re => rx (pieces l) = some re
  | .cls l re => rx ([0x5B] ++ pieces l ++ [0x5D]) = some re
/-- The same. -/
def Deco.RxOk : Deco → Prop
  | .prim p | .opt p | .plus p | .not p | .star p _ | .times p _ => p.RxOk
  | .starJoin p j _ | .plusJoin p j => p.RxOk ∧ j.RxOk
  | .look e => e.RxOk
/-- The same. -/
def Units.RxOk : Units → Prop
  | .one _ _ d => d.RxOk
  | .cons _ _ d us => d.RxOk ∧ us.RxOk
  | .open_ _ _ e => e.RxOk
/-- The same. -/
def Alts.RxOk : Alts → Prop
  | .one us => us.RxOk
  | .cons us _ as => us.RxOk ∧ as.RxOk
/-- The same. -/
def Expr.RxOk : Expr → Prop
  | .single us _ => us.RxOk
  | .choice _ us _ as _ _ => us.RxOk ∧ as.RxOk
end
end

section
variable {rx : Bytes → Option Regex}

mutual
theorem Prim.plainB_sound : ∀ (p : Prim), p.plainB = true → p.RxOk rx
  | .ref _, _ | .str _, _ => trivial
  | .call _ e, h | .group e, h | .lgroup _ e, h => Expr.plainB_sound e h
theorem Deco.plainB_sound : ∀ (d : Deco), d.plainB = true → d.RxOk rx
  | .prim p, h | .opt p, h | .plus p, h | .not p, h | .star p _, h | .times p _, h => Prim.plainB_sound p h
  | .starJoin p j _, h | .plusJoin p j, h => by
    simp only [Deco.plainB, Bool.and_eq_true] at h
    exact ⟨Prim.plainB_sound p h.1, Prim.plainB_sound j h.2⟩
  | .look e, h => Expr.plainB_sound e h
theorem Units.plainB_sound : ∀ (us : Units), us.plainB = true → us.RxOk rx
  | .one _ _ d, h => Deco.plainB_sound d h
  | .cons _ _ d us, h => by
    simp only [Units.plainB, Bool.and_eq_true] at h
    exact ⟨Deco.plainB_sound d h.1, Units.plainB_sound us h.2⟩
  | .open_ _ _ e, h => Expr.plainB_sound e h
theorem Alts.plainB_sound : ∀ (as : Alts), as.plainB = true → as.RxOk rx
  | .one us, h => Units.plainB_sound us h
  | .cons us _ as, h => by
    simp only [Alts.plainB, Bool.and_eq_true] at h
    exact ⟨Units.plainB_sound us h.1, Alts.plainB_sound as h.2⟩
theorem Expr.plainB_sound : ∀ (e : Expr), e.plainB = true → e.RxOk rx
  | .single us _, h => Units.plainB_sound us h
  | .choice _ us _ as _ _, h => by
    simp only [Expr.plainB, Bool.and_eq_true] at h
    exact ⟨Units.plainB_sound us h.1, Alts.plainB_sound as h.2⟩
end
end

section
variable {rx : Bytes → Option Regex}

mutual
theorem Prim.fineB_sound : ∀ (p : Prim), p.fineB = true → p.RxOk rx → p.Ok rx
  | .ref w, h, hr => wordC_sound h
  | .call w e, h, hr => by
    simp only [Prim.fineB, Bool.and_eq_true] at h
    exact ⟨wordC_sound h.1, Expr.fineB_sound e h.2 hr⟩
  | .group e, h, hr => Expr.fineB_sound e h hr
  | .lgroup w e, h, hr => by
    simp only [Prim.fineB, Bool.and_eq_true] at h
    exact ⟨wordC_sound h.1, Expr.fineB_sound e h.2 hr⟩
  | .str l, h, hr => fun p hp => Piece.fineB_sound (List.all_eq_true.mp h p hp)
  | .regex l re, h, hr => ⟨(fun p hp => Piece.fineB_sound (List.all_eq_true.mp h p hp)), hr⟩
  | .cls l re, h, hr => ⟨(fun p hp => Piece.fineB_sound (List.all_eq_true.mp h p hp)), hr⟩
theorem Deco.fineB_sound : ∀ (d : Deco), d.fineB = true → d.RxOk rx → d.Ok rx
  | .prim p, h, hr | .opt p, h, hr | .plus p, h, hr | .not p, h, hr => Prim.fineB_sound p h hr
  | .star p r, h, hr => by
    simp only [Deco.fineB, Bool.and_eq_true] at h
    exact ⟨Prim.fineB_sound p h.1 hr, boundsC_sound h.2⟩
  | .starJoin p j r, h, hr => by
    simp only [Deco.fineB, Bool.and_eq_true] at h
    exact ⟨Prim.fineB_sound p h.1.1 hr.1, Prim.fineB_sound j h.1.2 hr.2, boundsC_sound h.2⟩
  | .plusJoin p j, h, hr => by
    simp only [Deco.fineB, Bool.and_eq_true] at h
    exact ⟨Prim.fineB_sound p h.1 hr.1, Prim.fineB_sound j h.2 hr.2⟩
  | .times p r, h, hr => by
    simp only [Deco.fineB, Bool.and_eq_true] at h
    exact ⟨Prim.fineB_sound p h.1 hr, Bounds.fineB_sound h.2⟩
  | .look e, h, hr => Expr.fineB_sound e h hr
theorem Units.fineB_sound : ∀ (us : Units), us.fineB = true → us.RxOk rx → us.Ok rx
  | .one w lab d, h, hr => by
    simp only [Units.fineB, Bool.and_eq_true] at h
    exact ⟨blankC_sound h.1.1, labC_sound h.1.2, Deco.fineB_sound d h.2 hr⟩
  | .cons w lab d us, h, hr => by
    simp only [Units.fineB, Bool.and_eq_true, Bool.not_eq_true', List.isEmpty_eq_false_iff] at h
    exact ⟨blankC_sound h.1.1.1.1, labC_sound h.1.1.1.2, Deco.fineB_sound d h.1.1.2 hr.1, Units.fineB_sound us h.1.2 hr.2, apartB_ok h.2⟩
  | .open_ w lab e, h, hr => by
    simp only [Units.fineB, Bool.and_eq_true] at h
    exact ⟨blankC_sound h.1.1, labC_sound h.1.2, Expr.fineB_sound e h.2 hr⟩
theorem Alts.fineB_sound : ∀ (as : Alts), as.fineB = true → as.RxOk rx → as.Ok rx
  | .one us, h, hr => Units.fineB_sound us h hr
  | .cons us w as, h, hr => by
    simp only [Alts.fineB, Bool.and_eq_true, Bool.not_eq_true'] at h
    exact ⟨Units.fineB_sound us h.1.1.1 hr.1, h.1.1.2, blankC_sound h.1.2, Alts.fineB_sound as h.2 hr.2⟩
theorem Expr.fineB_sound : ∀ (e : Expr), e.fineB = true → e.RxOk rx → e.Ok rx
  | .single us w, h, hr => by
    simp only [Expr.fineB, Bool.and_eq_true, Bool.or_eq_true, Bool.not_eq_true', List.isEmpty_iff] at h
    refine ⟨Units.fineB_sound us h.1.1 hr, blankC_sound h.1.2, fun ho => ?_⟩
    rcases h.2 with h2 | h2
    · rw [ho] at h2; cases h2
    · exact h2
  | .choice lead us w as trail w', h, hr => by
    simp only [Expr.fineB, Bool.and_eq_true, Bool.or_eq_true, Bool.not_eq_true', List.isEmpty_iff, List.all_eq_true] at h
    obtain ⟨⟨⟨⟨⟨⟨⟨h1, h2⟩, h3⟩, h4⟩, h5⟩, h6⟩, h7⟩, h8⟩ := h
    refine ⟨fun x hx => blankC_sound (h1 x hx), Units.fineB_sound us h2 hr.1, h3, blankC_sound h4, Alts.fineB_sound as h5 hr.2,
      fun x hx => blankC_sound (h6 x hx), blankC_sound h7, fun ho => ?_⟩
    rcases h8 with h8 | h8
    · rw [ho] at h8; cases h8
    · exact h8
end
end

mutual
/-- Do all texts satisfy it? -/
def GLine.allB (f : Expr → Bool) : GLine → Bool
  | .alt _ _ b | .incl _ _ b => b.allB f
/-- The same. -/
def Body.allB (f : Expr → Bool) : Body → Bool
  | .text e => f e
  | .rank ls => allLinesB f ls
/-- The same. -/
def allLinesB (f : Expr → Bool) : List GLine → Bool
  | [] => true
  | l :: ls => l.allB f && allLinesB f ls
end

mutual
theorem GLine.allB_sound {f : Expr → Bool} {C : Expr → Prop} (hf : ∀ e, f e = true → C e) : ∀ (l : GLine), l.allB f = true → l.All C
  | .alt _ _ b, h | .incl _ _ b, h => Body.allB_sound hf b h
theorem Body.allB_sound {f : Expr → Bool} {C : Expr → Prop} (hf : ∀ e, f e = true → C e) : ∀ (b : Body), b.allB f = true → b.All C
  | .text e, h => hf e h
  | .rank ls, h => allLinesB_sound hf ls h
theorem allLinesB_sound {f : Expr → Bool} {C : Expr → Prop} (hf : ∀ e, f e = true → C e) : ∀ (ls : List GLine), allLinesB f ls = true → AllLines C ls
  | [], _ => trivial
  | l :: ls, h => by
    simp only [allLinesB, Bool.and_eq_true] at h
    exact ⟨GLine.allB_sound hf l h.1, allLinesB_sound hf ls h.2⟩
end

mutual
/-- Are the included rules named? -/
def GLine.namedB : GLine → Bool
  | .alt _ _ b => b.namedB
  | .incl nm _ b => nm != "" && b.namedB
/-- The same. -/
def Body.namedB : Body → Bool
  | .text _ => true
  | .rank ls => namedLinesB ls
/-- The same. -/
def namedLinesB : List GLine → Bool
  | [] => true
  | l :: ls => l.namedB && namedLinesB ls
end

mutual
theorem GLine.namedB_sound : ∀ (l : GLine), l.namedB = true → l.Named
  | .alt _ _ b, h => Body.namedB_sound b h
  | .incl nm _ b, h => by
    simp only [GLine.namedB, Bool.and_eq_true, bne_iff_ne] at h
    exact ⟨h.1, Body.namedB_sound b h.2⟩
theorem Body.namedB_sound : ∀ (b : Body), b.namedB = true → b.Named
  | .text _, _ => trivial
  | .rank ls, h => namedLinesB_sound ls h
theorem namedLinesB_sound : ∀ (ls : List GLine), namedLinesB ls = true → NamedLines ls
  | [], _ => trivial
  | l :: ls, h => by
    simp only [namedLinesB, Bool.and_eq_true] at h
    exact ⟨GLine.namedB_sound l h.1, namedLinesB_sound ls h.2⟩
end

end Joeson.RuleText
