import Verif.Proofs.RuleText5
/-!
# Every rule text means the parser it denotes: the induction
-/

namespace Joeson.RuleText
open Joe

variable {rx : Bytes → Option Regex} {D : Nat}

theorem EndF.cons (f : Bytes) : EndF ([0x29] ++ f) := off_cons (by decide)

theorem seqFollow_pipe {w : Bytes} (hw : Blank w) (r : Bytes) : SeqFollow (w ++ ([0x7C] ++ r)) :=
  ⟨w, [0x7C] ++ r, rfl, hw, off_cons (by decide), off_cons (by decide)⟩

theorem units_nodes_pos (us : Units) : 1 ≤ us.nodes.length := by
  cases us <;> simp [Units.nodes]

theorem alts_nodes_pos (as : Alts) : 1 ≤ as.nodes.length := by
  cases as <;> simp [Alts.nodes]

theorem seqOf_cons (n : Node) {l : List Node} (h : 1 ≤ l.length) : seqOf (n :: l) = mkSeq (n :: l) := by
  cases l with
  | nil => simp at h
  | cons m l => rfl

mutual
theorem prim_hits : ∀ (p : Prim), p.Ok rx → ∀ f, p.fits f →
    Hits rx (14 * p.nest + 2) (.node (.rule 29)) p.text f (.parser p.node)
  | .ref w, h, f, hf => hits_ref h hf.1 hf.2
  | .call w e, h, f, hf => (hits_call h.1 (expr_hits e h.2 _ (EndF.cons f))).mono (by simp only [Prim.nest]; omega)
  | .group e, h, f, hf =>
    (hits_group (expr_hits e h _ (EndF.cons f)) (expr_noInline h f) hf).mono (by simp only [Prim.nest]; omega)
  | .lgroup w e, h, f, hf =>
    (hits_lgroup h.1 (expr_hits e h.2 _ (EndF.cons f)) hf).mono (by simp only [Prim.nest]; omega)
  | .str l, h, f, _ => hits_strlit h f
  | .regex l re, h, f, _ => hits_regexlit h.1 h.2 f
  | .cls l re, h, f, _ => hits_classlit h.1 h.2 f

theorem deco_hits : ∀ (d : Deco), d.Ok rx → ∀ f, d.fits f →
    Hits rx (14 * d.nest + 4) decoTask d.text f (.parser d.node)
  | .prim p, h, f, hf => by
    have hp := prim_hits p h f hf.prim.1
    obtain ⟨x, l, hx, hs⟩ := prim_start h
    have h1 : Off (· = 0x21) (p.text ++ f) := by
      rw [hx]
      exact off_cons fun h => by subst h; exact absurd hs (by decide)
    have h3 : Off (· = 0x3F) (p.text ++ f) := by
      rw [hx]
      exact off_cons fun h => by subst h; exact absurd hs (by decide)
    rcases prim_question h f with h2 | ⟨e, rfl⟩
    · exact prim_hit (hp.mono (by simp only [Deco.nest]; omega)) (fails_decoPrim hp hf.prim.2 h1 h2 h3)
    · have hE := expr_hits e h.1.2.2 _ (EndF.cons f)
      refine deco_hit (((hits_look (D := 14 * e.nest + 28) (hE.mono (by omega)) (n := e.node) (hp.eq (by simp [Prim.text, Expr.text, Units.text, labText]) rfl rfl) hf.prim.2).mono ?_).eq ?_ rfl rfl)
      · simp only [Deco.nest, Prim.nest, Expr.nest, Units.nest]; omega
      · simp [Deco.text, Prim.text, Expr.text, Units.text, labText]
  | .opt p, h, f, hf =>
    deco_hit (hits_opt (prim_hits p h _ ((pf_cons _ (by decide) (by decide) (by decide) (by decide)).fits _)))
  | .star p r, h, f, hf => by
    have hp := prim_hits p h.1 ([0x2A] ++ ([] ++ (boundsText r ++ f))) ((pf_cons _ (by decide) (by decide) (by decide) (by decide)).fits _)
    have hj : JoinHits rx (14 * p.nest + 2) [] (boundsText r ++ f) none := joinHits_none hf.star
    exact deco_hit (((hits_star h.2 rfl hp hj hf.range).mono (by simp only [Deco.nest]; omega)).eq (by simp [Deco.text]) rfl rfl)
  | .starJoin p j r, h, f, hf => by
    have hp := prim_hits p h.1 ([0x2A] ++ (j.text ++ (boundsText r ++ f))) ((pf_cons _ (by decide) (by decide) (by decide) (by decide)).fits _)
    have hj := prim_hits j h.2.1 (boundsText r ++ f) hf.starJoin
    obtain ⟨x, l, hx, hs⟩ := prim_start h.2.1
    have hb : Off isBlank (j.text ++ (boundsText r ++ f)) := by
      rw [hx]
      exact off_cons (unitStart_not_blank (.inl hs))
    exact deco_hit (((hits_star (D := 14 * max p.nest j.nest + 1) h.2.2 rfl (hp.mono (by omega))
      (joinHits_some (hj.mono (by omega)) hb) hf.range).mono (by simp only [Deco.nest]; omega)).eq (by simp [Deco.text]) rfl rfl)
  | .plus p, h, f, hf => by
    have hp := prim_hits p h ([0x2B] ++ ([] ++ f)) ((pf_cons _ (by decide) (by decide) (by decide) (by decide)).fits _)
    have hj : JoinHits rx (14 * p.nest + 2) [] f none := joinHits_none hf.plus
    exact deco_hit ((hits_plus hp hj).eq (by simp [Deco.text]) rfl rfl)
  | .plusJoin p j, h, f, hf => by
    have hp := prim_hits p h.1 ([0x2B] ++ (j.text ++ f)) ((pf_cons _ (by decide) (by decide) (by decide) (by decide)).fits _)
    have hj := prim_hits j h.2 f hf.plusJoin
    obtain ⟨x, l, hx, hs⟩ := prim_start h.2
    have hb : Off isBlank (j.text ++ f) := by
      rw [hx]
      exact off_cons (unitStart_not_blank (.inl hs))
    exact deco_hit ((hits_plus (D := 14 * max p.nest j.nest + 2) (hp.mono (by omega))
      (joinHits_some (hj.mono (by omega)) hb)).eq (by simp [Deco.text]) rfl rfl)
  | .times p r, h, f, hf => by
    have hp := prim_hits p h.1 (r.text ++ f) ((pf_cons _ (by decide) (by decide) (by decide) (by decide)).fits _)
    exact deco_hit ((hits_times h.2 hp).mono (by simp only [Deco.nest]; omega))
  | .not p, h, f, hf => deco_hit (hits_not (prim_hits p h f hf.not))
  | .look e, h, f, hf => by
    have hE := expr_hits e h _ (EndF.cons f)
    have hu := hits_openElem (w := []) (lab := none) (D := 14 * e.nest + 14) blank_nil (fun _ h => by cases h) (hE.mono (by omega))
    have hs := hits_seqOne hu (EndF.seqFollow (EndF.cons f) blank_nil)
    have huok : (Units.open_ [] none e).Ok rx := ⟨blank_nil, (fun _ h => by cases h), h⟩
    have hc := hits_choiceOne (w := []) huok blank_nil (EndF.cons f) hs
    have hx := hits_expr (w := []) blank_nil (EndF.cons f) hc
    have hp := hits_group hx (by
      have := expr_noInline (e := .single (.open_ [] none e) []) (rx := rx) ⟨huok, blank_nil, fun _ => rfl⟩ f
      simpa [Expr.text] using this) hf.noArrow
    have hl := hits_look (D := 14 * e.nest + 28) (hE.mono (by omega)) (hp.eq (by simp [Units.text, labText]) rfl rfl) hf.look
    exact deco_hit (hl.mono (by simp only [Deco.nest]; omega))

theorem units_hits : ∀ (us : Units), us.Ok rx → ∀ f, SeqFollow f → (us.isOpen = true → EndF f) →
    (∀ vs : List JVal, 2 ≤ vs.length + us.nodes.length →
      Hits rx (14 * us.nest + 8) (unitsMore vs) us.text f (.arr (vs ++ us.nodes.map .parser))) ∧
    Hits rx (14 * us.nest + 10) (.node (.rule 32)) us.text f (.parser (seqOf us.nodes))
  | .one w lab d, h, f, hf, _ => by
    have hu := hits_elem h.1 h.2.1 h.2.2 (deco_hits d h.2.2 f (.inl hf.follow)) (.inl hf.follow)
    exact ⟨fun vs hv => hits_lastUnit hu hf hv, hits_seqOne hu hf⟩
  | .cons w lab d us, h, f, hf, ho => by
    have hfo := fits_units h.2.2.2.1 h.2.2.2.2 f
    have hu := (hits_elem h.1 h.2.1 h.2.2.1 (deco_hits d h.2.2.1 (us.text ++ f) hfo) hfo).mono
      (D' := 14 * (Units.cons w lab d us).nest + 8) (by simp only [Units.nest]; omega)
    have hs := (units_hits us h.2.2.2.1 f hf ho).1
    have hpos := units_nodes_pos us
    refine ⟨fun vs hv => ?_, ?_⟩
    · refine (Hits.next hu.ref (by decide) ((hs (vs ++ [.parser (labelled lab d.node)]) ?_).mono
        (by simp only [Units.nest]; omega)) rfl).eq rfl rfl ?_
      · simp only [List.length_append, List.length_cons, List.length_nil]
        simp only [Units.nodes, List.length_cons] at hv
        omega
      · simp [Units.nodes]
    · refine (hits_seqMore hu (l := us.nodes) ((hs [.parser (labelled lab d.node)] ?_).mono
        (by simp only [Units.nest]; omega))).eq rfl rfl ?_
      · simp only [List.length_cons, List.length_nil]; omega
      · rw [Units.nodes, seqOf_cons _ hpos]; rfl
  | .open_ w lab e, h, f, hf, ho => by
    have hE := expr_hits e h.2.2 f (ho rfl)
    have hu := (hits_openElem (D := 14 * e.nest + 12) h.1 h.2.1 hE).mono (D' := 14 * (Units.open_ w lab e).nest + 8)
      (by simp only [Units.nest]; omega)
    exact ⟨fun vs hv => hits_lastUnit hu hf hv, hits_seqOne hu hf⟩

theorem alts_hits : ∀ (as : Alts), as.Ok rx → ∀ w f, Blank w → AltFollow f → (as.isOpen = true → EndF f) →
    ∀ vs : List JVal, 2 ≤ vs.length + as.nodes.length →
      Hits rx (14 * as.nest + 10) (altsMore vs) (w ++ [0x7C] ++ as.text) f (.arr (vs ++ as.nodes.map .parser))
  | .one us, h, w, f, hw, hf, ho, vs, hv => by
    have hs := (units_hits us h f hf.seqFollow ho).2
    obtain ⟨u, hp⟩ := hits_pipe (rx := rx) (D := 14 * us.nest + 10) "CHOICE[0]" hw (us.text ++ [] ++ f)
    refine (Hits.sepNext (m2 := []) hp hs.ref (by decide) (altFollow_stop hf ?_) ?_).eq rfl rfl ?_
    · simp only [Alts.nodes, List.length_cons, List.length_nil] at hv
      simp only [List.length_append, List.length_cons, List.length_nil]
      omega
    · simp [Alts.text]
    · simp [Alts.nodes]
  | .cons us w' as, h, w, f, hw, hf, ho, vs, hv => by
    have hfo : SeqFollow (w' ++ [0x7C] ++ as.text ++ f) := by
      rw [List.append_assoc, List.append_assoc]
      exact seqFollow_pipe h.2.2.1 _
    have hs := ((units_hits us h.1 (w' ++ [0x7C] ++ as.text ++ f) hfo (fun h' => by rw [h.2.1] at h'; cases h')).2).mono
      (D' := 14 * (Alts.cons us w' as).nest + 10) (by simp only [Alts.nest]; omega)
    have hpos := alts_nodes_pos as
    have ha := fun vs hv => (alts_hits as h.2.2.2 w' f h.2.2.1 hf ho vs hv).mono
      (D' := 14 * (Alts.cons us w' as).nest + 10) (by simp only [Alts.nest]; omega)
    obtain ⟨u, hp⟩ := hits_pipe (rx := rx) (D := 14 * (Alts.cons us w' as).nest + 10) "CHOICE[0]" hw
      (us.text ++ (w' ++ [0x7C] ++ as.text) ++ f)
    refine (Hits.sepNext (m2 := w' ++ [0x7C] ++ as.text) hp hs.ref (by decide) (ha _ ?_) ?_).eq rfl rfl ?_
    · simp only [Alts.nodes, List.length_cons] at hv
      simp only [List.length_append, List.length_cons, List.length_nil]
      omega
    · simp [Alts.text]
    · simp [Alts.nodes]

theorem expr_hits : ∀ (e : Expr), e.Ok rx → ∀ f, EndF f →
    Hits rx (14 * e.nest + 14) (.node (.rule 34)) e.text f (.parser e.node)
  | .single us w, h, f, hf => by
    have hs := (units_hits us h.1 (w ++ f) (hf.seqFollow h.2.1) (fun ho => by rw [h.2.2 ho]; exact hf)).2
    exact hits_expr h.2.1 hf (hits_choiceOne h.1 h.2.1 hf hs)
  | .choice lead us w as trail w', h, f, hf => by
    obtain ⟨hl, hu, huo, hw, ha, ht, hw', hao⟩ := h
    have hfo : SeqFollow (w ++ [0x7C] ++ as.text ++ (bars trail ++ (w' ++ f))) := by
      rw [List.append_assoc, List.append_assoc]
      exact seqFollow_pipe hw _
    have hs := ((units_hits us hu _ hfo (fun h' => by rw [huo] at h'; cases h')).2).mono
      (D' := 14 * (Expr.choice lead us w as trail w').nest + 10) (by simp only [Expr.nest]; omega)
    have hpos := alts_nodes_pos as
    have hm := (alts_hits as ha w (bars trail ++ (w' ++ f)) hw ⟨trail, w', f, rfl, ht, hw', hf⟩
      (fun ho => by obtain ⟨h1, h2⟩ := hao ho; rw [h1, h2]; exact hf) [.parser (seqOf us.nodes)]
      (by simp only [List.length_cons, List.length_nil]; omega)).mono
      (D' := 14 * (Expr.choice lead us w as trail w').nest + 10) (by simp only [Expr.nest]; omega)
    refine (hits_expr hw' hf (hits_choiceMore (l := as.nodes) hu hl ht hw' hf hs hm)).eq ?_ rfl rfl
    simp [Expr.text]
end

end Joeson.RuleText
