import Verif.Proofs.RuleText4
/-!
# Every rule text means the parser it denotes
-/

namespace Joeson.RuleText
open Joe

variable {rx : Bytes → Option Regex} {D : Nat}

/-! ## What can follow -/

/-- `)` or nothing. -/
def EndF (f : Bytes) : Prop := Off (· ≠ 0x29) f

/-- After a sequence. -/
def SeqFollow (f : Bytes) : Prop := ∃ w g, f = w ++ g ∧ Blank w ∧ Off isBlank g ∧ Off (fun x => x ≠ 0x7C ∧ x ≠ 0x29) g

/-- After an element of a sequence. -/
def Follow (f : Bytes) : Prop := ∃ w g, f = w ++ g ∧ Blank w ∧ Off isBlank g ∧ Off (· = 0x2D) g ∧
  (w = [] → Off (fun x => x ≠ 0x7C ∧ x ≠ 0x29) g)

/-- After a choice. -/
def AltFollow (f : Bytes) : Prop :=
  ∃ trail w g, f = bars trail ++ (w ++ g) ∧ (∀ x ∈ trail, Blank x) ∧ Blank w ∧ EndF g

/-- After a primary. -/
structure PF (f : Bytes) : Prop where
  more : Off more f
  paren : Off (· = 0x28) f
  arrow : NoArrow f

theorem SeqFollow.follow {f : Bytes} (h : SeqFollow f) : Follow f := by
  obtain ⟨w, g, rfl, hw, hg, hg'⟩ := h
  refine ⟨w, g, rfl, hw, hg, ?_, fun _ => hg'⟩
  exact hg'.imp fun x hx => by subst hx; decide

theorem Follow.off {f : Bytes} (h : Follow f) {P : UInt8 → Prop} (h1 : ¬ P 0x20) (h2 : ¬ P 0x0A) (h3 : ¬ P 0x7C)
    (h4 : ¬ P 0x29) : Off P f := by
  obtain ⟨w, g, rfl, hw, hg, -, hg'⟩ := h
  refine Off.append (hw.off ?_) fun hw' => (hg' hw').imp ?_
  · rintro x (rfl | rfl)
    · exact h1
    · exact h2
  · intro x hx
    refine ⟨?_, ?_⟩ <;> rintro rfl
    · exact h3 hx
    · exact h4 hx

theorem Follow.noArrow {f : Bytes} (h : Follow f) : NoArrow f := by
  obtain ⟨w, g, rfl, hw, hg, hd, -⟩ := h
  exact ⟨w, g, rfl, hw, hg, hd.not_prefix⟩

theorem Follow.pf {f : Bytes} (h : Follow f) : PF f :=
  ⟨h.off (by decide) (by decide) (by decide) (by decide), h.off (by decide) (by decide) (by decide) (by decide), h.noArrow⟩

theorem Follow.bare {f : Bytes} (h : Follow f) : Bare f :=
  ⟨h.off (by decide) (by decide) (by decide) (by decide), h.off (by decide) (by decide) (by decide) (by decide),
    h.off (by decide) (by decide) (by decide) (by decide), h.off (by decide) (by decide) (by decide) (by decide)⟩

theorem pf_cons {x : UInt8} (l : Bytes) (h1 : ¬ more x) (h2 : x ≠ 0x28) (h3 : ¬ isBlank x) (h4 : x ≠ 0x2D) : PF (x :: l) :=
  ⟨off_cons h1, off_cons h2, [], x :: l, rfl, blank_nil, off_cons h3, (off_cons h4 : Off (· = 0x2D) _).not_prefix⟩

theorem EndF.seqFollow {f : Bytes} (h : EndF f) {w : Bytes} (hw : Blank w) : SeqFollow (w ++ f) :=
  ⟨w, f, rfl, hw, h.imp fun x hx => by rintro rfl; revert hx; decide, h.imp fun x hx => hx.2⟩

theorem bars_cons (w : Bytes) (l : List Bytes) : bars (w :: l) = w ++ [0x7C] ++ bars l := by
  simp [bars]

theorem AltFollow.seqFollow {f : Bytes} (h : AltFollow f) : SeqFollow f := by
  obtain ⟨trail, w, g, rfl, ht, hw, hg⟩ := h
  cases trail with
  | nil => exact hg.seqFollow hw
  | cons b l =>
    refine ⟨b, [0x7C] ++ (bars l ++ (w ++ g)), by rw [bars_cons]; simp, ht b List.mem_cons_self, ?_, ?_⟩
    · exact off_cons (by decide)
    · exact off_cons (by decide)

theorem SeqFollow.fails_unit {f : Bytes} (h : SeqFollow f) : Fails rx (D + 8) (.node (.rule 31)) f := by
  obtain ⟨w, g, rfl, hw, hg, hg'⟩ := h
  refine RuleText.fails_unit hw hg (hg'.imp fun x hx => ⟨?_, ?_⟩) <;> (rintro rfl; revert hx; decide)

theorem SeqFollow.fails_sequence {f : Bytes} (h : SeqFollow f) : Fails rx (D + 10) (.node (.rule 32)) f :=
  Fails.rule rfl (Fails.choice (Fails.both (Fails.rule rfl (Fails.patternFail (Fails.ref h.fails_unit) (by decide)))
    (Fails.both h.fails_unit fails_alts_nil)))

theorem EndF.fails_pipe (rn : String) {w g : Bytes} (hw : Blank w) (h : EndF g) : Fails rx D (.node (pipe rn)) (w ++ g) :=
  RuleText.fails_pipe rn hw (h.imp fun x hx => by rintro rfl; revert hx; decide) (h.imp fun x hx => by rintro rfl; revert hx; decide)

/-! ## How texts start -/

theorem prim_start {p : Prim} (h : p.Ok rx) : ∃ x l, p.text = x :: l ∧ primStart x := by
  cases p with
  | ref w =>
    obtain ⟨x, l, rfl, hx, -⟩ := h
    exact ⟨x, l, rfl, .inl hx⟩
  | call w e =>
    obtain ⟨⟨x, l, rfl, hx, -⟩, -⟩ := h
    exact ⟨x, _, rfl, .inl hx⟩
  | group e => exact ⟨0x28, _, rfl, by decide⟩
  | lgroup w e => exact ⟨0x28, _, rfl, by decide⟩
  | str l => exact ⟨0x27, _, rfl, by decide⟩
  | regex l re => exact ⟨0x2F, _, rfl, by decide⟩
  | cls l re => exact ⟨0x5B, _, rfl, by decide⟩

/-- A decorated parser starts like this. -/
def decoStart (x : UInt8) : Prop := primStart x ∨ x = 0x21

theorem deco_start {d : Deco} (h : d.Ok rx) : ∃ x l, d.text = x :: l ∧ decoStart x := by
  have key : ∀ {p : Prim}, p.Ok rx → ∀ t, ∃ x l, p.text ++ t = x :: l ∧ decoStart x := by
    intro p hp t
    obtain ⟨x, l, hx, hs⟩ := prim_start hp
    exact ⟨x, l ++ t, by rw [hx]; rfl, .inl hs⟩
  cases d with
  | prim p => simpa [Deco.text] using key h []
  | opt p => exact key h _
  | star p r => simpa [Deco.text] using key h.1 (0x2A :: boundsText r)
  | starJoin p j r => simpa [Deco.text] using key h.1 (0x2A :: (j.text ++ boundsText r))
  | plus p => exact key h _
  | plusJoin p j => simpa [Deco.text] using key h.1 (0x2B :: j.text)
  | times p r => exact key h.1 _
  | not p => exact ⟨0x21, _, rfl, .inr rfl⟩
  | look e => exact ⟨0x28, _, rfl, .inl (by decide)⟩

theorem primStart_off {P : UInt8 → Prop} (hl : ∀ x, Letter x → ¬ P x) (h1 : ¬ P 0x28) (h2 : ¬ P 0x27) (h3 : ¬ P 0x2F)
    (h4 : ¬ P 0x5B) {x : UInt8} (h : primStart x) : ¬ P x := by
  rcases h with h | rfl | rfl | rfl | rfl
  · exact hl x h
  · exact h1
  · exact h2
  · exact h3
  · exact h4

theorem letter_not_blank {x : UInt8} (h : Letter x) : ¬ isBlank x := by
  rintro (rfl | rfl) <;> revert h <;> decide

theorem unitStart_not_blank {x : UInt8} (h : unitStart x) : ¬ isBlank x := fun h' => unitStart_blank h' h

theorem decoStart_unit {x : UInt8} (h : decoStart x) : unitStart x := by
  rcases h with h | rfl
  · exact .inl h
  · decide

theorem letter_unit {x : UInt8} (h : Letter x) : unitStart x := .inl (.inl h)

/-- With a label. -/
theorem lab_start {lab : Option Bytes} (hl : LabOk lab) {x : UInt8} {l : Bytes} (hx : unitStart x) :
    ∃ y m, labText lab ++ (x :: l) = y :: m ∧ unitStart y := by
  cases lab with
  | none => exact ⟨x, l, rfl, hx⟩
  | some w =>
    rcases hl w rfl with rfl | rfl | ⟨y, m, rfl, hy, -⟩
    · exact ⟨0x26, _, rfl, by decide⟩
    · exact ⟨0x40, _, rfl, by decide⟩
    · exact ⟨y, _, rfl, letter_unit hy⟩

theorem units_start {us : Units} (h : us.Ok rx) :
    ∃ x l, us.text = us.lead ++ x :: l ∧ Blank us.lead ∧ unitStart x := by
  cases us with
  | one w lab d =>
    obtain ⟨hw, hl, hd⟩ := h
    obtain ⟨x, l, hx, hs⟩ := deco_start hd
    obtain ⟨y, m, hy, hs'⟩ := lab_start hl (decoStart_unit hs) (l := l)
    refine ⟨y, m, ?_, hw, hs'⟩
    show w ++ labText lab ++ d.text = _
    rw [List.append_assoc, hx, hy]
    rfl
  | cons w lab d us =>
    obtain ⟨hw, hl, hd, -, -⟩ := h
    obtain ⟨x, l, hx, hs⟩ := deco_start hd
    obtain ⟨y, m, hy, hs'⟩ := lab_start hl (decoStart_unit hs) (l := l)
    refine ⟨y, m ++ us.text, ?_, hw, hs'⟩
    show w ++ labText lab ++ d.text ++ us.text = _
    rw [List.append_assoc w, hx, hy]
    simp [Units.lead]
  | open_ w lab e =>
    obtain ⟨hw, hl, -⟩ := h
    obtain ⟨y, m, hy, hs'⟩ := lab_start hl (x := 0x3F) (l := e.text) (by decide)
    refine ⟨y, m, ?_, hw, hs'⟩
    show w ++ labText lab ++ [0x3F] ++ e.text = _
    rw [List.append_assoc, List.append_assoc]
    show w ++ (labText lab ++ (0x3F :: e.text)) = _
    rw [hy]
    rfl

/-- What can follow a primary. -/
def Prim.fits (f : Bytes) : Prim → Prop
  | .ref _ => Off more f ∧ Off (· = 0x28) f
  | .group _ | .lgroup _ _ => NoArrow f
  | _ => True

theorem PF.fits {f : Bytes} (h : PF f) (p : Prim) : p.fits f := by
  cases p
  case ref => exact ⟨h.more, h.paren⟩
  case group => exact h.arrow
  case lgroup => exact h.arrow
  all_goals trivial

/-- What can follow an element of a sequence. -/
def Deco.fits (f : Bytes) (d : Deco) : Prop := Follow f ∨ ∃ x l, f = x :: l ∧ unitStart x ∧ d.before x

theorem unitStart_not_more {x : UInt8} (h : unitStart x) (h' : ¬ Letter x) : ¬ more x := by
  rintro (hm | hm)
  · exact h' hm
  · obtain ⟨h1, h2⟩ := hm
    rcases h with (hl | rfl | rfl | rfl | rfl) | rfl | rfl | rfl | rfl
    · exact h' hl
    all_goals revert h1 h2; decide

theorem unitStart_noArrow {x : UInt8} (h : unitStart x) (l : Bytes) : NoArrow (x :: l) :=
  ⟨[], x :: l, rfl, blank_nil, off_cons (unitStart_not_blank h), (off_cons (by rintro rfl; exact absurd h (by decide)) : Off (· = 0x2D) _).not_prefix⟩

theorem before_fits {x : UInt8} {p : Prim} (h : unitStart x) (hb : p.before x) (l : Bytes) : p.fits (x :: l) := by
  cases p
  case ref => exact ⟨off_cons (unitStart_not_more h hb.1), off_cons hb.2⟩
  case group => exact unitStart_noArrow h l
  case lgroup => exact unitStart_noArrow h l
  all_goals trivial

theorem Deco.fits.noArrow {f : Bytes} {d : Deco} (h : d.fits f) : NoArrow f := by
  rcases h with h | ⟨x, l, rfl, hx, -⟩
  · exact h.noArrow
  · exact unitStart_noArrow hx l

/-- Nothing that starts an element makes the one before it something else, but for `?`. -/
theorem unitStart_bare {x : UInt8} (h : unitStart x) (hq : x ≠ 0x3F) (l : Bytes) : Bare (x :: l) :=
  ⟨off_cons hq, off_cons (by rintro rfl; exact absurd h (by decide)), off_cons (by rintro rfl; exact absurd h (by decide)),
    off_cons (by rintro rfl; exact absurd h (by decide))⟩

theorem Deco.fits.range {f : Bytes} {d : Deco} (h : d.fits f) : Off (· = 0x7B) f := by
  rcases h with h | ⟨x, l, rfl, hx, -⟩
  · exact h.bare.range
  · exact off_cons (by rintro rfl; exact absurd hx (by decide))

theorem Deco.fits.prim {f : Bytes} {p : Prim} (h : (Deco.prim p).fits f) : p.fits f ∧ Bare f := by
  rcases h with h | ⟨x, l, rfl, hx, hb⟩
  · exact ⟨h.pf.fits p, h.bare⟩
  · exact ⟨before_fits hx hb.1 l, unitStart_bare hx hb.2 l⟩

theorem Deco.fits.not {f : Bytes} {p : Prim} (h : (Deco.not p).fits f) : p.fits f := by
  rcases h with h | ⟨x, l, rfl, hx, hb⟩
  · exact h.pf.fits p
  · exact before_fits hx hb l

theorem Deco.fits.look {f : Bytes} {e : Expr} (h : (Deco.look e).fits f) : Bare f := by
  rcases h with h | ⟨x, l, rfl, hx, hb⟩
  · exact h.bare
  · exact unitStart_bare hx hb l

theorem Deco.fits.plus {f : Bytes} {p : Prim} (h : (Deco.plus p).fits f) : Off primStart f := by
  rcases h with h | ⟨x, l, rfl, hx, hb⟩
  · exact h.off (by decide) (by decide) (by decide) (by decide)
  · exact off_cons hb

theorem Deco.fits.plusJoin {f : Bytes} {p j : Prim} (h : (Deco.plusJoin p j).fits f) : j.fits f := by
  rcases h with h | ⟨x, l, rfl, hx, hb⟩
  · exact h.pf.fits j
  · exact before_fits hx hb l

theorem Deco.fits.star {f : Bytes} {p : Prim} {r : Option Bounds} (h : (Deco.star p r).fits f) : Off primStart (boundsText r ++ f) := by
  cases r with
  | some r => exact off_cons (by decide)
  | none =>
    rcases h with h | ⟨x, l, rfl, hx, hb⟩
    · exact h.off (by decide) (by decide) (by decide) (by decide)
    · exact off_cons hb

theorem Deco.fits.starJoin {f : Bytes} {p j : Prim} {r : Option Bounds} (h : (Deco.starJoin p j r).fits f) : j.fits (boundsText r ++ f) := by
  cases r with
  | some r => exact (pf_cons _ (by decide) (by decide) (by decide) (by decide)).fits j
  | none =>
    rcases h with h | ⟨x, l, rfl, hx, hb⟩
    · exact h.pf.fits j
    · exact before_fits hx hb l

theorem Deco.fits.colon {f : Bytes} {d : Deco} (h : d.fits f) : Off (· = 0x3A) f := by
  rcases h with h | ⟨x, l, rfl, hx, -⟩
  · exact h.off (by decide) (by decide) (by decide) (by decide)
  · exact off_cons (by rintro rfl; exact absurd hx (by decide))

/-- Between two elements of a sequence there is a blank, or none is needed. -/
theorem fits_units {d : Deco} {us : Units} (h : us.Ok rx) (ha : d.apart us) (f : Bytes) : d.fits (us.text ++ f) := by
  obtain ⟨x, l, ht, hb, hs⟩ := units_start h
  have hl : us.lead ≠ [] → d.fits (us.text ++ f) := by
    intro hne
    refine .inl ⟨us.lead, x :: l ++ f, by rw [ht]; simp, hb, off_cons (unitStart_not_blank hs), off_cons ?_, fun h => absurd h hne⟩
    rintro rfl
    exact absurd hs (by decide)
  rcases ha with hne | ha
  · exact hl hne
  · by_cases hne : us.lead = []
    · rw [hne] at ht
      exact .inr ⟨x, l ++ f, by rw [ht]; rfl, hs, ha x l ht⟩
    · exact hl hne

/-- No label in front of a primary. -/
theorem prim_noLabel {p : Prim} (h : p.Ok rx) {r : Bytes} (h1 : p.fits r) (h2 : Off (· = 0x3A) r) : NoLabel (p.text ++ r) := by
  have key : ∀ (x : UInt8) (l : Bytes), ¬ Letter x → x ≠ 0x26 → x ≠ 0x40 → NoLabel (x :: l) :=
    fun x l h1 h2 h3 => .inl ⟨off_cons h1, off_cons h2, off_cons h3⟩
  cases p with
  | ref w => exact .inr ⟨w, r, rfl, h, h1.1, h2⟩
  | call w e =>
    exact .inr ⟨w, [0x28] ++ e.text ++ [0x29] ++ r, by simp [Prim.text], h.1, off_cons (by decide), off_cons (by decide)⟩
  | group e => exact key _ _ (by decide) (by decide) (by decide)
  | lgroup w e => exact key _ _ (by decide) (by decide) (by decide)
  | str l => exact key _ _ (by decide) (by decide) (by decide)
  | regex l re => exact key _ _ (by decide) (by decide) (by decide)
  | cls l re => exact key _ _ (by decide) (by decide) (by decide)

theorem deco_noLabel {d : Deco} (h : d.Ok rx) {r : Bytes} (hr : d.fits r) : NoLabel (d.text ++ r) := by
  have key : ∀ (x : UInt8) (l : Bytes), ¬ Letter x → x ≠ 0x26 → x ≠ 0x40 → NoLabel (x :: l) :=
    fun x l h1 h2 h3 => .inl ⟨off_cons h1, off_cons h2, off_cons h3⟩
  have kp : ∀ {p : Prim}, p.Ok rx → ∀ (x : UInt8) (l : Bytes), PF (x :: l) → x ≠ 0x3A → NoLabel (p.text ++ (x :: l)) :=
    fun hp x l h1 h2 => prim_noLabel hp (h1.fits _) (off_cons h2)
  have kf : ∀ (x : UInt8) (l : Bytes), x = 0x3F ∨ x = 0x2A ∨ x = 0x2B ∨ x = 0x7B → PF (x :: l) := by
    rintro x l (rfl | rfl | rfl | rfl) <;> exact pf_cons _ (by decide) (by decide) (by decide) (by decide)
  cases d with
  | prim p => exact prim_noLabel h hr.prim.1 hr.colon
  | opt p => simpa [Deco.text] using kp h 0x3F r (kf _ _ (by decide)) (by decide)
  | star p q => simpa [Deco.text] using kp h.1 0x2A (boundsText q ++ r) (kf _ _ (by decide)) (by decide)
  | starJoin p j q => simpa [Deco.text] using kp h.1 0x2A (j.text ++ (boundsText q ++ r)) (kf _ _ (by decide)) (by decide)
  | plus p => simpa [Deco.text] using kp h 0x2B r (kf _ _ (by decide)) (by decide)
  | plusJoin p j => simpa [Deco.text] using kp h.1 0x2B (j.text ++ r) (kf _ _ (by decide)) (by decide)
  | times p q =>
    rw [Deco.text, List.append_assoc]
    exact kp h.1 0x7B _ (kf _ _ (by decide)) (by decide)
  | not p => exact key _ _ (by decide) (by decide) (by decide)
  | look e => exact key _ _ (by decide) (by decide) (by decide)

theorem NoLabel.noInline {t : Bytes} (h : NoLabel t) : NoInline t := by
  rcases h with ⟨h, -, -⟩ | ⟨w, t', rfl, hw, h1, h2⟩
  · exact .inl h
  · exact .inr ⟨w, t', rfl, hw, h1, h2.not_prefix⟩

/-- A blank in front. -/
theorem noInline_blank {w t : Bytes} (hw : Blank w) (ht : NoInline t) : NoInline (w ++ t) := by
  cases w with
  | nil => exact ht
  | cons x l => exact .inl (off_cons fun h => letter_not_blank h (hw x List.mem_cons_self))

/-- After a label there is no space. -/
theorem noInline_lab {lab : Option Bytes} (hl : LabOk lab) {x : UInt8} {l : Bytes} (hx : ¬ isBlank x)
    (h : lab = none → NoInline (x :: l)) : NoInline (labText lab ++ (x :: l)) := by
  cases lab with
  | none => exact h rfl
  | some w =>
    rcases hl w rfl with rfl | rfl | hw
    · exact .inl (off_cons (by decide))
    · exact .inl (off_cons (by decide))
    · refine .inr ⟨w, [0x3A] ++ (x :: l), by simp [labText], hw, off_cons (by decide), ?_⟩
      rintro ⟨t, ht⟩
      simp only [List.cons_append, List.nil_append, List.cons.injEq, true_and] at ht
      exact hx (.inl ht.1.symm)

theorem blank_not_more {x : UInt8} (h : isBlank x) : ¬ more x := by
  rcases h with rfl | rfl <;> decide

theorem units_noInline {us : Units} (h : us.Ok rx) {r : Bytes} (hr : Follow r) :
    NoInline (us.text ++ r) := by
  have key : ∀ (w : Bytes) (lab : Option Bytes) (d : Deco) (r : Bytes), Blank w → LabOk lab → d.Ok rx → d.fits r →
      NoInline (w ++ (labText lab ++ (d.text ++ r))) := by
    intro w lab d r hw hl hd h1
    obtain ⟨x, l, hx, hs⟩ := deco_start hd
    have hn := deco_noLabel hd h1
    rw [hx] at hn ⊢
    exact noInline_blank hw (noInline_lab hl (unitStart_not_blank (decoStart_unit hs)) fun _ => hn.noInline)
  cases us with
  | one w lab d => simpa [Units.text] using key w lab d r h.1 h.2.1 h.2.2 (.inl hr)
  | cons w lab d us => simpa [Units.text] using key w lab d (us.text ++ r) h.1 h.2.1 h.2.2.1 (fits_units h.2.2.2.1 h.2.2.2.2 r)
  | open_ w lab e =>
    have : NoInline (w ++ (labText lab ++ (0x3F :: (e.text ++ r)))) :=
      noInline_blank h.1 (noInline_lab h.2.1 (by decide) fun _ => .inl (off_cons (by decide)))
    simpa [Units.text] using this

theorem expr_noInline {e : Expr} (h : e.Ok rx) (f : Bytes) : NoInline (e.text ++ ([0x29] ++ f)) := by
  have hend : ∀ (w f : Bytes) (x : UInt8), Blank w → x = 0x29 ∨ x = 0x7C → Follow (w ++ (x :: f)) := by
    intro w f x hw hx
    refine ⟨w, x :: f, rfl, hw, off_cons ?_, off_cons ?_, fun _ => off_cons ?_⟩ <;>
      rcases hx with rfl | rfl <;> decide
  cases e with
  | single us w =>
    obtain ⟨hu, hw, -⟩ := h
    simpa [Expr.text] using units_noInline hu (hend w f 0x29 hw (.inl rfl))
  | choice lead us w as trail w' =>
    obtain ⟨hl, hu, -, hw, -⟩ := h
    cases lead with
    | nil =>
      simpa [Expr.text, bars] using
        units_noInline hu (hend w (as.text ++ (bars trail ++ (w' ++ 0x29 :: f))) 0x7C hw (.inr rfl))
    | cons b l =>
      refine .inl ?_
      rw [Expr.text, bars_cons]
      simp only [List.append_assoc]
      exact off_blank_append (hl b List.mem_cons_self) (fun x hx h => letter_not_blank h hx) (off_cons (by decide))

/-- Only `?e` starts with `?`. -/
theorem expr_question {e : Expr} (h : e.Ok rx) (s : Bytes) :
    Off (· = 0x3F) (e.text ++ s) ∨ ∃ x, e = .single (.open_ [] none x) [] := by
  have hblank : ∀ {w : Bytes}, Blank w → w ≠ [] → ∀ t, Off (· = 0x3F) (w ++ t) := by
    intro w hw hne t
    cases w with
    | nil => exact absurd rfl hne
    | cons x l => exact off_cons fun h => by subst h; exact absurd (hw _ List.mem_cons_self) (by decide)
  have hlab : ∀ {w : Bytes}, LabOk (some w) → ∀ t, Off (· = 0x3F) (labText (some w) ++ t) := by
    intro w hl t
    rcases hl w rfl with rfl | rfl | ⟨y, m, rfl, hy, -⟩
    · exact off_cons (by decide)
    · exact off_cons (by decide)
    · exact off_cons fun h => letter_ne (by decide) hy h
  have hdeco : ∀ {d : Deco}, d.Ok rx → ∀ t, Off (· = 0x3F) (d.text ++ t) := by
    intro d hd t
    obtain ⟨x, l, hx, hs⟩ := deco_start hd
    rw [hx]
    refine off_cons fun h => ?_
    subst h
    rcases hs with hs | hs
    · exact absurd hs (by decide)
    · exact absurd hs (by decide)
  have hunit : ∀ {w : Bytes} {lab : Option Bytes} {d : Deco}, Blank w → LabOk lab → d.Ok rx → ∀ t,
      Off (· = 0x3F) (w ++ (labText lab ++ (d.text ++ t))) := by
    intro w lab d hw hl hd t
    by_cases hne : w = []
    · subst hne
      cases lab with
      | none => exact hdeco hd t
      | some w' => exact hlab hl _
    · exact hblank hw hne _
  have hunits : ∀ {us : Units}, us.Ok rx → ∀ t, Off (· = 0x3F) (us.text ++ t) ∨ ∃ x, us = .open_ [] none x := by
    intro us hu t
    cases us with
    | one w lab d => exact .inl (by simpa [Units.text] using hunit hu.1 hu.2.1 hu.2.2 t)
    | cons w lab d us => exact .inl (by simpa [Units.text] using hunit hu.1 hu.2.1 hu.2.2.1 (us.text ++ t))
    | open_ w lab x =>
      by_cases hne : w = []
      · subst hne
        cases lab with
        | none => exact .inr ⟨x, rfl⟩
        | some w' => exact .inl (by simpa [Units.text] using hlab hu.2.1 (0x3F :: (x.text ++ t)))
      · exact .inl (by simpa [Units.text] using hblank hu.1 hne (labText lab ++ (0x3F :: (x.text ++ t))))
  cases e with
  | single us w =>
    rcases hunits h.1 (w ++ s) with h' | ⟨x, rfl⟩
    · exact .inl (by simpa [Expr.text] using h')
    · have : w = [] := h.2.2 rfl
      subst this
      exact .inr ⟨x, rfl⟩
  | choice lead us w as trail w' =>
    cases lead with
    | nil =>
      rcases hunits h.2.1 (w ++ ([0x7C] ++ (as.text ++ (bars trail ++ (w' ++ s))))) with h' | ⟨x, rfl⟩
      · exact .inl (by simpa [Expr.text, bars] using h')
      · exact absurd h.2.2.1 (by simp [Units.isOpen])
    | cons b l =>
      refine .inl ?_
      rw [Expr.text, bars_cons]
      simp only [List.append_assoc]
      exact off_blank_append (h.1 b List.mem_cons_self) (fun x hx => by rintro rfl; revert hx; decide) (off_cons (by decide))

/-- `(?` only starts `(?e)`. -/
theorem prim_question {p : Prim} (h : p.Ok rx) (f : Bytes) :
    ¬ [0x28, 0x3F] <+: p.text ++ f ∨ ∃ x, p = .group (.single (.open_ [] none x) []) := by
  have key : ∀ {x : UInt8} {l : Bytes}, x ≠ 0x28 → ¬ [0x28, 0x3F] <+: x :: l :=
    fun hx => (off_cons hx : Off (· = 0x28) _).not_prefix
  cases p with
  | ref w =>
    obtain ⟨x, l, rfl, hx, -⟩ := h
    exact .inl (key (letter_ne (by decide) hx))
  | call w e =>
    obtain ⟨⟨x, l, rfl, hx, -⟩, -⟩ := h
    exact .inl (key (letter_ne (by decide) hx))
  | group e =>
    rcases expr_question h ([0x29] ++ f) with h' | ⟨x, rfl⟩
    · refine .inl ?_
      rw [Prim.text]
      simp only [List.append_assoc]
      rintro ⟨t, ht⟩
      simp only [List.cons_append, List.nil_append, List.cons.injEq, true_and] at ht
      exact h' 0x3F t ht.symm rfl
    · exact .inr ⟨x, rfl⟩
  | lgroup w e =>
    refine .inl ?_
    obtain ⟨⟨x, l, rfl, hx, -⟩, -⟩ := h
    rw [Prim.text]
    rintro ⟨t, ht⟩
    simp only [List.cons_append, List.nil_append, List.cons.injEq, true_and] at ht
    exact letter_ne (by decide) hx ht.1.symm
  | str l => exact .inl (key (by decide))
  | regex l re => exact .inl (key (by decide))
  | cls l re => exact .inl (key (by decide))

/-! ## Sequences -/

/-- An element of a sequence. -/
theorem hits_elem {w : Bytes} {lab : Option Bytes} {d : Deco} {n : Node} {f : Bytes} (hw : Blank w) (hl : LabOk lab)
    (hd : d.Ok rx) (h : Hits rx D decoTask d.text f (.parser n)) (hf : d.fits f) :
    Hits rx (D + 4) (.node (.rule 31)) (w ++ labText lab ++ d.text) f (.parser (labelled lab n)) := by
  rw [List.append_assoc]
  refine hits_unit hw (hits_labeled hl h fun _ => deco_noLabel hd hf) ?_
  obtain ⟨x, l, hx, hs⟩ := deco_start hd
  obtain ⟨y, m, hy, hs'⟩ := lab_start hl (decoStart_unit hs) (l := l)
  rw [hx, hy]
  exact off_cons (unitStart_not_blank hs')

/-- `?e` as an element of a sequence. -/
theorem hits_openElem {w : Bytes} {lab : Option Bytes} {t f : Bytes} {n : Node} (hw : Blank w) (hl : LabOk lab)
    (h : Hits rx (D + 2) (.node (.rule 34)) t f (.parser n)) :
    Hits rx (D + 8) (.node (.rule 31)) (w ++ labText lab ++ [0x3F] ++ t) f (.parser (labelled lab (mkLook n))) := by
  rw [List.append_assoc, List.append_assoc]
  refine hits_unit hw (hits_labeled hl (deco_hit (hits_open h)) fun _ => ?_) ?_
  · exact .inl ⟨off_cons (by decide), off_cons (by decide), off_cons (by decide)⟩
  · obtain ⟨y, m, hy, hs'⟩ := lab_start hl (x := 0x3F) (l := t) (by decide)
    show Off _ (labText lab ++ (0x3F :: t) ++ f)
    rw [hy]
    exact off_cons (unitStart_not_blank hs')

theorem asParsers_map (l : List Node) : JVal.asParsers (l.map .parser) = .ok l := by
  induction l with
  | nil => rfl
  | cons n l ih =>
    show (do return n :: (← JVal.asParsers (l.map .parser))) = _
    rw [ih]
    rfl

/-- Elements of a sequence. -/
abbrev unitsMore (vs : List JVal) : Task JVal := .more (.ref (part "SEQUENCE[0]") "UNIT") none 2 (-1) vs

/-- The last one. -/
theorem hits_lastUnit {t f : Bytes} {n : Node} (h : Hits rx (D + 8) (.node (.rule 31)) t f (.parser n)) (hf : SeqFollow f)
    {vs : List JVal} (hv : 2 ≤ vs.length + 1) : Hits rx (D + 8) (unitsMore vs) t f (.arr (vs ++ [.parser n])) :=
  Hits.next (m2 := []) h.ref (by decide) (Fails.stop (hf.fails_unit.ref) (by simp only [List.length_append, List.length_cons, List.length_nil]; omega))
    (by simp)

/-- A sequence of one. -/
theorem hits_seqOne {t f : Bytes} {n : Node} (h : Hits rx (D + 8) (.node (.rule 31)) t f (.parser n)) (hf : SeqFollow f) :
    Hits rx (D + 10) (.node (.rule 32)) t f (.parser n) :=
  Hits.rule rfl (Hits.choice (Fails.next (Fails.rule rfl (Hits.patternFail h.ref (Fails.stopFail (hf.fails_unit.ref) (by simp)) rfl))
    (Hits.here (h.mono (by omega))))) (fun p => rfl)

/-- A longer one. -/
theorem hits_seqMore {t t' f : Bytes} {n : Node} {l : List Node} (h : Hits rx D (.node (.rule 31)) t (t' ++ f) (.parser n))
    (h' : Hits rx D (unitsMore [.parser n]) t' f (.arr (([n] ++ l).map .parser))) :
    Hits rx (D + 2) (.node (.rule 32)) (t ++ t') f (.parser (mkSeq ([n] ++ l))) := by
  refine Hits.rule rfl (Hits.choice (Hits.here (Hits.rule rfl (v' := .parser (mkSeq ([n] ++ l))) (Hits.pattern h.ref h' rfl) ?_))) (fun p => rfl)
  intro p
  show (do return JVal.parser (mkSeq (← JVal.asParsers _))).map some = _
  rw [asParsers_map]
  rfl

/-! ## Choices -/

/-- Alternatives of a choice. -/
abbrev altsMore (vs : List JVal) : Task JVal :=
  .more (.ref (part "CHOICE[0]") "SEQUENCE") (some (pipe "CHOICE[0]")) 2 (-1) vs

theorem altFollow_stop {f : Bytes} (hf : AltFollow f) {vs : List JVal} (hv : 2 ≤ vs.length) :
    Hits rx (D + 10) (altsMore vs) [] f (.arr vs) := by
  obtain ⟨trail, w, g, rfl, ht, hw, hg⟩ := hf
  cases trail with
  | nil =>
    show Hits rx (D + 10) (altsMore vs) [] (w ++ g) (.arr vs)
    exact Fails.sepStop (hg.fails_pipe _ hw) (by omega)
  | cons b l =>
    obtain ⟨v, hp⟩ := hits_pipe (rx := rx) (D := D + 10) "CHOICE[0]" (ht b List.mem_cons_self) (bars l ++ (w ++ g))
    have hs : SeqFollow (bars l ++ (w ++ g)) :=
      AltFollow.seqFollow ⟨l, w, g, rfl, fun x hx => ht x (List.mem_cons_of_mem _ hx), hw, hg⟩
    exact Hits.moreStop hp hs.fails_sequence.ref (by omega) (by rw [bars_cons]; simp)

/-- `_PIPE*` -/
abbrev pipes : Node := .pattern (Info.dumb (item "CHOICE[0]")) (pipe "CHOICE[0]") none (-1) (-1)

theorem hits_morePipes {rest : Bytes} (hr : Fails rx D (.node (pipe "CHOICE[0]")) rest) : ∀ {l : List Bytes}, (∀ x ∈ l, Blank x) →
    ∀ vs : List JVal, ∃ v, Hits rx D (.more (pipe "CHOICE[0]") none (-1) (-1) vs) (bars l) rest v := by
  intro l
  induction l with
  | nil => exact fun _ vs => ⟨_, hr.stop (by omega)⟩
  | cons b l ih =>
    intro h vs
    obtain ⟨u, hu⟩ := hits_pipe (rx := rx) (D := D) "CHOICE[0]" (h b List.mem_cons_self) (bars l ++ rest)
    obtain ⟨v, hv⟩ := ih (fun x hx => h x (List.mem_cons_of_mem _ hx)) (vs ++ [u])
    exact ⟨v, hu.next (by decide) hv (bars_cons b l)⟩

theorem hits_pipes {rest : Bytes} (hr : Fails rx D (.node (pipe "CHOICE[0]")) rest) {l : List Bytes} (h : ∀ x ∈ l, Blank x) :
    ∃ v, Hits rx D (.node pipes) (bars l) rest v := by
  cases l with
  | nil => exact ⟨_, (hr.pattern (by decide)).plain⟩
  | cons b l =>
    obtain ⟨u, hu⟩ := hits_pipe (rx := rx) (D := D) "CHOICE[0]" (h b List.mem_cons_self) (bars l ++ rest)
    obtain ⟨v, hv⟩ := hits_morePipes hr (fun x hx => h x (List.mem_cons_of_mem _ hx)) [u]
    exact ⟨v, (hu.pattern hv (bars_cons b l)).plain⟩

theorem units_noPipe {us : Units} (h : us.Ok rx) (r : Bytes) : Fails rx D (.node (pipe "CHOICE[0]")) (us.text ++ r) := by
  obtain ⟨x, l, ht, hb, hs⟩ := units_start h
  rw [ht, List.append_assoc]
  exact fails_pipe _ hb (off_cons (unitStart_not_blank hs)) (off_cons fun h => by subst h; exact absurd hs (by decide))

/-- No choice. -/
theorem hits_choiceOne {us : Units} (hu : us.Ok rx) {w f : Bytes} (hw : Blank w) (hf : EndF f) {n : Node}
    (h : Hits rx D (.node (.rule 32)) us.text (w ++ f) (.parser n)) :
    Hits rx (D + 2) (.node (.rule 33)) us.text (w ++ f) (.parser n) := by
  obtain ⟨v, hv⟩ := hits_pipes (rx := rx) (D := D) (units_noPipe hu (w ++ f)) (l := []) (fun x hx => by cases hx)
  refine Hits.rule rfl (Hits.choice (Fails.next (Fails.rule rfl (Fails.seq (Hits.putFail (m1 := []) hv rfl
    (Fails.first (Fails.plain (Hits.patternFail h.ref (Fails.sepStopFail (hf.fails_pipe _ hw) (by simp)) rfl))) rfl)))
    (Hits.here (h.mono (by omega))))) (fun p => rfl)

/-- A choice. -/
theorem hits_choiceMore {lead trail : List Bytes} {us : Units} {t w f : Bytes} {n : Node} {l : List Node} (hu : us.Ok rx)
    (hlead : ∀ x ∈ lead, Blank x) (htrail : ∀ x ∈ trail, Blank x) (hw : Blank w) (hf : EndF f)
    (h : Hits rx D (.node (.rule 32)) us.text (t ++ (bars trail ++ (w ++ f))) (.parser n))
    (h' : Hits rx D (altsMore [.parser n]) t (bars trail ++ (w ++ f)) (.arr (([n] ++ l).map .parser))) :
    Hits rx (D + 2) (.node (.rule 33)) (bars lead ++ us.text ++ t ++ bars trail) (w ++ f) (.parser (mkChoice ([n] ++ l))) := by
  obtain ⟨v, hv⟩ := hits_pipes (rx := rx) (D := D) (units_noPipe hu (t ++ (bars trail ++ (w ++ f)))) hlead
  obtain ⟨v', hv'⟩ := hits_pipes (rx := rx) (D := D) (hf.fails_pipe _ hw) htrail
  refine Hits.rule rfl (Hits.choice (Hits.here (Hits.rule rfl (v := .arr (([n] ++ l).map .parser)) (v' := .parser (mkChoice ([n] ++ l))) (Hits.seq
    (Hits.put (m1 := bars lead) (m2 := us.text ++ t ++ (bars trail ++ [])) (hv.eq rfl (by simp) rfl) rfl
    (Hits.put (m1 := us.text ++ t) (m2 := bars trail ++ []) (Hits.plain (Hits.pattern (h.ref.eq rfl (by simp) rfl) (h'.eq rfl (by simp) rfl) rfl)) rfl
    (Hits.put (m1 := bars trail) (m2 := []) hv' rfl hits_items_nil rfl) rfl) (by simp))) ?_))) (fun p => rfl)
  intro p
  show (do return JVal.parser (mkChoice (← JVal.asParsers _))).map some = _
  rw [asParsers_map]
  rfl

/-- `EXPR` -/
theorem hits_expr {t w f : Bytes} {v : JVal} (hw : Blank w) (hf : EndF f) (h : Hits rx D (.node (.rule 33)) t (w ++ f) v) :
    Hits rx (D + 2) (.node (.rule 34)) (t ++ w) f v := by
  obtain ⟨u, hu⟩ := hits_ws (rx := rx) (D := D) "EXPR[0]" (rest := f) hw (hf.imp fun x hx => by rintro rfl; revert hx; decide)
  exact Hits.rule rfl (Hits.choice (Hits.here (Hits.rule rfl (v := v) (v' := v) (Hits.seq
    (Hits.put (m1 := t) (m2 := w ++ []) (h.ref.eq rfl (by simp) rfl) rfl
    (Hits.put (m1 := w) (m2 := []) hu rfl hits_items_nil rfl) (by simp))) (fun p => rfl)))) (fun p => rfl)

end Joeson.RuleText
