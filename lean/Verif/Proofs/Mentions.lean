import Verif.Proofs.Forest2
import Verif.Proofs.LeftRank7
/-! # The names in texts are not those that the library makes up -/

namespace Joeson.RuleText

theorem names_setLab (l : String) (p : VP) : (p.setLab l).names = p.names := by
  cases p <;> simp [VP.setLab, VP.names]

theorem names_labelled (lab : Option Bytes) (p : VP) : (VP.labelled lab p).names = p.names := by
  cases lab with
  | none => rfl
  | some w => exact names_setLab _ p

theorem names_seqOf (l : List VP) : (VP.seqOf l).names = namesOf l := by
  unfold VP.seqOf
  split <;> simp [VP.names, namesOf]

/-- The name is a word. -/
def IsWord (nm : String) : Prop := ∃ w, Word w ∧ nm = nameOf w

section
variable {rx : Bytes → Option Regex}

mutual
theorem prim_words : ∀ (p : Prim), p.Ok rx → ∀ nm ∈ p.vp.names, IsWord nm
  | .ref w, h, nm, hn => by
    simp only [Prim.vp, VP.names, List.mem_singleton] at hn
    exact ⟨w, by simpa only [Prim.Ok] using h, hn⟩
  | .call w e, h, nm, hn => by
    simp only [Prim.vp, VP.names, List.mem_singleton] at hn
    simp only [Prim.Ok] at h
    exact ⟨w, h.1, hn⟩
  | .group e, h, nm, hn => by
    simp only [Prim.vp] at hn
    exact expr_words e (by simpa only [Prim.Ok] using h) nm hn
  | .lgroup w e, h, nm, hn => by
    simp only [Prim.vp] at hn
    simp only [Prim.Ok] at h
    exact expr_words e h.2 nm hn
  | .str l, h, nm, hn => by simp [Prim.vp, VP.names] at hn
  | .regex l re, h, nm, hn => by simp [Prim.vp, VP.names] at hn
  | .cls l re, h, nm, hn => by simp [Prim.vp, VP.names] at hn
theorem deco_words : ∀ (d : Deco), d.Ok rx → ∀ nm ∈ d.vp.names, IsWord nm
  | .prim p, h, nm, hn => prim_words p (by simpa only [Deco.Ok] using h) nm (by simpa only [Deco.vp] using hn)
  | .opt p, h, nm, hn => prim_words p (by simpa only [Deco.Ok] using h) nm (by simpa only [Deco.vp, VP.names] using hn)
  | .star p r, h, nm, hn => by
    simp only [Deco.Ok] at h
    simp only [Deco.vp, VP.names, namesOfO, List.append_nil] at hn
    exact prim_words p h.1 nm hn
  | .starJoin p j r, h, nm, hn => by
    simp only [Deco.Ok] at h
    simp only [Deco.vp, VP.names, namesOfO, List.mem_append] at hn
    exact hn.elim (prim_words p h.1 nm) (prim_words j h.2.1 nm)
  | .plus p, h, nm, hn => by
    simp only [Deco.vp, VP.names, namesOfO, List.append_nil] at hn
    exact prim_words p (by simpa only [Deco.Ok] using h) nm hn
  | .plusJoin p j, h, nm, hn => by
    simp only [Deco.Ok] at h
    simp only [Deco.vp, VP.names, namesOfO, List.mem_append] at hn
    exact hn.elim (prim_words p h.1 nm) (prim_words j h.2 nm)
  | .times p r, h, nm, hn => by
    simp only [Deco.Ok] at h
    simp only [Deco.vp, VP.names, namesOfO, List.append_nil] at hn
    exact prim_words p h.1 nm hn
  | .not p, h, nm, hn => prim_words p (by simpa only [Deco.Ok] using h) nm (by simpa only [Deco.vp, VP.names] using hn)
  | .look e, h, nm, hn => expr_words e (by simpa only [Deco.Ok] using h) nm (by simpa only [Deco.vp, VP.names] using hn)
theorem units_words : ∀ (us : Units), us.Ok rx → ∀ nm ∈ namesOf us.vps, IsWord nm
  | .one w lab d, h, nm, hn => by
    simp only [Units.Ok] at h
    simp only [Units.vps, namesOf, names_labelled, List.append_nil] at hn
    exact deco_words d h.2.2 nm hn
  | .cons w lab d us, h, nm, hn => by
    simp only [Units.Ok] at h
    simp only [Units.vps, namesOf, names_labelled, List.mem_append] at hn
    exact hn.elim (deco_words d h.2.2.1 nm) (units_words us h.2.2.2.1 nm)
  | .open_ w lab e, h, nm, hn => by
    simp only [Units.Ok] at h
    simp only [Units.vps, namesOf, names_labelled, List.append_nil, VP.names] at hn
    exact expr_words e h.2.2 nm hn
theorem alts_words : ∀ (as : Alts), as.Ok rx → ∀ nm ∈ namesOf as.vps, IsWord nm
  | .one us, h, nm, hn => by
    simp only [Alts.vps, namesOf, names_seqOf, List.append_nil] at hn
    exact units_words us (by simpa only [Alts.Ok] using h) nm hn
  | .cons us w as, h, nm, hn => by
    simp only [Alts.Ok] at h
    simp only [Alts.vps, namesOf, names_seqOf, List.mem_append] at hn
    exact hn.elim (units_words us h.1 nm) (alts_words as h.2.2.2 nm)
theorem expr_words : ∀ (e : Expr), e.Ok rx → ∀ nm ∈ e.vp.names, IsWord nm
  | .single us w, h, nm, hn => by
    simp only [Expr.Ok] at h
    simp only [Expr.vp, names_seqOf] at hn
    exact units_words us h.1 nm hn
  | .choice lead us w as trail w', h, nm, hn => by
    simp only [Expr.Ok] at h
    simp only [Expr.vp, VP.names, namesOf, names_seqOf, List.mem_append] at hn
    exact hn.elim (units_words us h.2.1 nm) (alts_words as h.2.2.2.2.1 nm)
end
end

theorem isWord_auto {nm : String} (h : IsWord nm) : Auto nm = false := by
  obtain ⟨w, ⟨x, l, rfl, hx, hl⟩, rfl⟩ := h
  have key : ∀ y : UInt8, Letter y ∨ Digit y → Char.ofNat y.toNat ≠ '[' := by
    intro y hy he
    have hlt := y.toNat_lt
    have h1 : (Char.ofNat y.toNat).toNat = y.toNat := by
      unfold Char.ofNat
      rw [dif_pos (Or.inl (by omega))]
      rfl
    rw [he] at h1
    have h2 : y.toNat = 91 := h1.symm
    rcases hy with (h | h | h | h) | h
    · omega
    · omega
    · subst h; cases h2
    · subst h; cases h2
    · unfold Digit at h; omega
  unfold Auto nameOf
  rw [String.toList_ofList, Bool.eq_false_iff]
  intro h
  rw [List.contains_iff_mem, List.mem_map] at h
  obtain ⟨y, hy, he⟩ := h
  refine key y ?_ he
  rcases List.mem_cons.mp hy with rfl | hy
  · exact .inl hx
  · exact hl y hy

mutual
theorem bodyMentions_of {Q : String → Prop} : ∀ (b : Body), b.All (fun e => ∀ nm ∈ e.vp.names, Q nm) → ∀ nm ∈ b.mentions, Q nm
  | .text e, h, nm, hn => h nm (by simpa only [Body.mentions] using hn)
  | .rank ls, h, nm, hn => mentionsIn_of ls h nm (by simpa only [Body.mentions] using hn)
theorem mentionsIn_of {Q : String → Prop} : ∀ (ls : List GLine), AllLines (fun e => ∀ nm ∈ e.vp.names, Q nm) ls → ∀ nm ∈ mentionsIn ls, Q nm
  | [], _, nm, hn => by simp only [mentionsIn] at hn; cases hn
  | .alt _ _ b :: ls, h, nm, hn => by
    simp only [mentionsIn, GLine.mentions, List.mem_append] at hn
    exact hn.elim (bodyMentions_of b h.1 nm) (mentionsIn_of ls h.2 nm)
  | .incl _ _ b :: ls, h, nm, hn => by
    simp only [mentionsIn, GLine.mentions, List.mem_append] at hn
    exact hn.elim (bodyMentions_of b h.1 nm) (mentionsIn_of ls h.2 nm)
end

/-- Each body calls no hidden rule, or is a rank. -/
theorem forest_bodies {S : Stage} {M : List String} {g : Grammar} (hf : Forest S (fun e => ∀ nm ∈ e.vp.names, nm ∈ M) g.rules) :
    RankBodies (hidden M g) g := by
  intro j body hj
  rcases hf.kind j body hj with ⟨cb, e, hM, hfit⟩ | ⟨i, l, rfl, hl⟩
  · refine .inl (fit_all ?_ hfit ?_)
    · intro n hr hn
      unfold Shown
      split
      · cases hr
      · exact absurd rfl (hn _ _)
      · trivial
    · intro i nm hnm id hid
      exact Bool.eq_false_iff.mpr fun h => (hidden_iff.mp h).2 nm (hM nm hnm) hid
  · exact .inr ⟨i, l, rfl, fun c hc => by obtain ⟨id, h, _⟩ := hl c hc; exact ⟨id, h⟩⟩

end Joeson.RuleText
