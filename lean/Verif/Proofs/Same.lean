import Verif.Spec.Same
/-! # Two ways to write the same grammar: the same values -/

namespace Joeson.RuleText
variable {V : Type}

theorem called_none (P : PureOps V) (N : Nat) (r : VRes V) : called P N none r = r := by
  match r with
  | .error e => rfl
  | .ok none => rfl
  | .ok (some (v, s)) => rfl

theorem own_alt (P : PureOps V) (h : Bool) (ps : List VP) (r : VRes V) : own P h (.alt "" ps) r = r := by
  match r with
  | .error e => rfl
  | .ok none => rfl
  | .ok (some (v, s)) => simp [own, VP.outLab, VP.lab]

theorem own_name (P : PureOps V) (h : Bool) (nm : String) (q : Bool) (r : VRes V) : own P h (.name "" nm q) r = r := by
  match r with
  | .error e => rfl
  | .ok none => rfl
  | .ok (some (v, s)) => simp [own, VP.outLab, VP.lab]

/-- Callbacks that never reject. -/
def Accepting (P : PureOps V) (Q : Nat → Prop) : Prop := ∀ c, Q c → ∀ v p, P.cb c v p ≠ .ok none

theorem called_fails {P : PureOps V} {Q : Nat → Prop} (hQ : Accepting P Q) {N : Nat} {k : Option Nat} (hk : ∀ c, k = some c → Q c) {r : VRes V} :
    called P N k r = .ok none ↔ r = .ok none := by
  match r with
  | .error e => simp [called]
  | .ok none => simp [called]
  | .ok (some (v, s)) =>
    match k with
    | none => simp [called]
    | some c =>
      have := hQ c (hk c rfl) v (N - s.length)
      simp only [called]
      split <;> simp_all

theorem SameName.unused {M : List String} {nm nm' : String} (h : SameName M nm nm') (hn : nm = "" ∨ nm ∉ M) : nm' = "" ∨ nm' ∉ M := by
  rcases h with rfl | h
  · exact hn
  · exact h.2

theorem SameName.unused' {M : List String} {nm nm' : String} (h : SameName M nm nm') (hn : nm' = "" ∨ nm' ∉ M) : nm = "" ∨ nm ∉ M := by
  rcases h with rfl | h
  · exact hn
  · exact h.1

theorem SameName.used {M : List String} {nm nm' : String} (h : SameName M nm nm') (hn : nm ≠ "") (hm : nm ∈ M) : nm = nm' := by
  rcases h with rfl | ⟨h | h, -⟩
  · rfl
  · exact absurd h hn
  · exact absurd hm h

theorem SameName.used' {M : List String} {nm nm' : String} (h : SameName M nm nm') (hn : nm' ≠ "") (hm : nm' ∈ M) : nm = nm' := by
  rcases h with rfl | ⟨-, h | h⟩
  · rfl
  · exact absurd h hn
  · exact absurd hm h

variable (Q : Nat → Prop) (L L' : List GLine)

/-- What matches in the second grammar as `j` does in the first; `k`: the callback still to be called, `o`: how much deeper. -/
inductive JobF : Around V → LJob V → LJob V → Option Nat → Nat → Prop
  | part {c h p} : JobF c (.part h p) (.part h p) none 0
  | core {c h p} : JobF c (.core h p) (.core h p) none 0
  | alts {c l} : JobF c (.alts l) (.alts l) none 0
  | items {c f l acc} : JobF c (.items f l acc) (.items f l acc) none 0
  | sep {c o} : JobF c (.sep o) (.sep o) none 0
  | more {c v sep mn mx vs} : JobF c (.more v sep mn mx vs) (.more v sep mn mx vs) none 0
  | rule {c nm cb b nm' cb' b'} : SameName (mentionsIn L) nm nm' → SameRule (mentionsIn L) Q cb b cb' b' → JobF c (.rule nm cb b) (.rule nm' cb' b') none 0
  | body {c cb b cb' b'} : SameRule (mentionsIn L) Q cb b cb' b' → JobF c (.body cb b) (.body cb' b') none 0
  | lines {c ls ls'} : SameLines (mentionsIn L) Q ls ls' → JobF c (.lines ls) (.lines ls') none 0
  | splitPart {c ps ls k} : (∀ x, k = some x → Q x) → SplitLines (mentionsIn L) k ps ls → JobF c (.part false (.alt "" ps)) (.lines ls) k 1
  | splitCore {c h ps ls k} : (∀ x, k = some x → Q x) → SplitLines (mentionsIn L) k ps ls → JobF c (.core h (.alt "" ps)) (.lines ls) k 1
  | splitAlts {c ps ls k} : (∀ x, k = some x → Q x) → SplitLines (mentionsIn L) k ps ls → JobF c (.alts ps) (.lines ls) k 1
  | top {ls ls'} : SameTop L Q ls ls' → JobF none (.lines ls) (.lines ls') none 0
  | callRule {e nm q cb' b'} : e.vp = .name "" nm q → (∀ cb b, (nm, cb, b) ∈ rulesOf L → SameRule (mentionsIn L) Q cb b cb' b') →
      JobF none (.rule "" none (.text e)) (.rule nm cb' b') none 0
  | callBody {e nm q cb' b'} : e.vp = .name "" nm q → (∀ cb b, (nm, cb, b) ∈ rulesOf L → SameRule (mentionsIn L) Q cb b cb' b') →
      JobF none (.body none (.text e)) (.rule nm cb' b') none 0
  | callPart {h nm q cb' b'} : (∀ cb b, (nm, cb, b) ∈ rulesOf L → SameRule (mentionsIn L) Q cb b cb' b') →
      JobF none (.part h (.name "" nm q)) (.rule nm cb' b') none 0
  | callCore {h nm q cb' b'} : (∀ cb b, (nm, cb, b) ∈ rulesOf L → SameRule (mentionsIn L) Q cb b cb' b') →
      JobF none (.core h (.name "" nm q)) (.rule nm cb' b') none 0

variable {Q L L'}

/-- Alternatives of which none is left. -/
theorem split_end {P : PureOps V} {N : Nat} {M : List String} {k : Option Nat} {ps : List VP} {ls : List GLine} (h : SplitLines M k ps ls) (hp : ps = [])
    {c : Around V} {d : Nat} {s : Bytes} : YieldsL P N L' c d (.lines ls) s (.ok none) := by
  induction h with
  | nil => exact .linesEnd
  | incl _ ih => exact .incl (ih hp)
  | alt => cases hp

/-- The first of the alternatives. -/
theorem split_cons {P : PureOps V} {N : Nat} {k : Option Nat} {p : VP} {ps : List VP} {ls : List GLine} (h : SplitLines M k (p :: ps) ls)
    {c : Around V} {d : Nat} {s : Bytes} {r : VRes V}
    (hy : ∀ nm e ls', (nm = "" ∨ nm ∉ M) → e.vp = p → SplitLines M k ps ls' → YieldsL P N L' c d (.lines (.alt nm k (.text e) :: ls')) s r) :
    YieldsL P N L' c d (.lines ls) s r := by
  generalize hq : p :: ps = qs at h
  induction h with
  | nil => cases hq
  | incl _ ih => exact .incl (ih hq)
  | alt hn h _ =>
    cases hq
    exact hy _ _ _ hn rfl h

/-- Induction on the lines alone. -/
theorem SameLines.induct {M : List String} {motive : List GLine → List GLine → Prop} (nil : motive [] [])
    (left : ∀ nm cb b ls ls', SameLines M Q ls ls' → motive ls ls' → motive (.incl nm cb b :: ls) ls')
    (right : ∀ nm cb b ls ls', SameLines M Q ls ls' → motive ls ls' → motive ls (.incl nm cb b :: ls'))
    (alt : ∀ nm cb b nm' cb' b' ls ls', SameName M nm nm' → SameRule M Q cb b cb' b' → SameLines M Q ls ls' → motive ls ls' →
      motive (.alt nm cb b :: ls) (.alt nm' cb' b' :: ls'))
    {ls ls' : List GLine} (h : SameLines M Q ls ls') : motive ls ls' := by
  refine SameLines.rec (motive_1 := fun _ _ _ _ _ => True) (motive_2 := fun ls ls' _ => motive ls ls')
    (fun _ => trivial) ?_ ?_ ?_ nil ?_ ?_ ?_ h
  · intros; trivial
  · intros; trivial
  · intros; trivial
  · intro _ _ _ _ _ h ih; exact left _ _ _ _ _ h ih
  · intro _ _ _ _ _ h ih; exact right _ _ _ _ _ h ih
  · intro _ _ _ _ _ _ _ _ hn hr h _ ih; exact alt _ _ _ _ _ _ _ _ hn hr h ih

section
variable {P : PureOps V} {N : Nat} {M : List String} {ls ls' : List GLine} {c : Around V} {d : Nat} {s : Bytes} {r : VRes V}
  {nm : String} {cb cb' : Option Nat} {b b' : Body}

theorem same_end (h : SameLines M Q ls ls') : ls = [] → YieldsL P N L' c d (.lines ls') s (.ok none) := by
  refine SameLines.induct (motive := fun ls ls' => ls = [] → YieldsL P N L' c d (.lines ls') s (.ok none)) ?_ ?_ ?_ ?_ h
  · intro _; exact .linesEnd
  · intro _ _ _ _ _ _ _ h; cases h
  · intro _ _ _ _ _ _ ih h; exact .incl (ih h)
  · intro _ _ _ _ _ _ _ _ _ _ _ _ h; cases h

theorem same_incl (h : SameLines M Q ls ls') : ∀ nm cb b l, ls = .incl nm cb b :: l → SameLines M Q l ls' := by
  refine SameLines.induct (motive := fun ls ls' => ∀ nm cb b l, ls = .incl nm cb b :: l → SameLines M Q l ls') ?_ ?_ ?_ ?_ h
  · intro _ _ _ _ h; cases h
  · intro _ _ _ _ _ h _ _ _ _ _ he; cases he; exact h
  · intro _ _ _ _ _ _ ih _ _ _ _ he; exact .right (ih _ _ _ _ he)
  · intro _ _ _ _ _ _ _ _ _ _ _ _ _ _ _ _ he; cases he

theorem same_cons (h : SameLines M Q ls ls') : ∀ nm cb b l, ls = .alt nm cb b :: l →
    (∀ nm' cb' b' l', SameName M nm nm' → SameRule M Q cb b cb' b' → SameLines M Q l l' → YieldsL P N L' c d (.lines (.alt nm' cb' b' :: l')) s r) →
    YieldsL P N L' c d (.lines ls') s r := by
  refine SameLines.induct (motive := fun ls ls' => ∀ nm cb b l, ls = .alt nm cb b :: l →
    (∀ nm' cb' b' l', SameName M nm nm' → SameRule M Q cb b cb' b' → SameLines M Q l l' → YieldsL P N L' c d (.lines (.alt nm' cb' b' :: l')) s r) →
    YieldsL P N L' c d (.lines ls') s r) ?_ ?_ ?_ ?_ h
  · intro _ _ _ _ h; cases h
  · intro _ _ _ _ _ _ _ _ _ _ _ he; cases he
  · intro _ _ _ _ _ _ ih _ _ _ _ he hy; exact .incl (ih _ _ _ _ he hy)
  · intro _ _ _ _ _ _ _ _ hn hr h _ _ _ _ _ he hy; cases he; exact hy _ _ _ _ hn hr h

theorem top_end (h : SameTop L Q ls ls') (hp : ls = []) : YieldsL P N L' c d (.lines ls') s (.ok none) := by
  induction h with
  | nil => exact .linesEnd
  | left => cases hp
  | right _ ih => exact .incl (ih hp)
  | alt => cases hp
  | call => cases hp

theorem top_incl (h : SameTop L Q ls ls') {l : List GLine} (hp : ls = .incl nm cb b :: l) : SameTop L Q l ls' := by
  induction h with
  | nil => cases hp
  | left h => cases hp; exact h
  | right _ ih => exact .right (ih hp)
  | alt => cases hp
  | call => cases hp

theorem top_cons (h : SameTop L Q ls ls') {l : List GLine} (hp : ls = .alt nm cb b :: l)
    (hy : ∀ nm' cb' b' l', SameName (mentionsIn L) nm nm' → SameRule (mentionsIn L) Q cb b cb' b' → SameTop L Q l l' →
      YieldsL P N L' c d (.lines (.alt nm' cb' b' :: l')) s r)
    (hc : ∀ e nm' q cb' b' l', nm = "" → cb = none → b = .text e → e.vp = .name "" nm' q →
      (∀ cb b, (nm', cb, b) ∈ rulesOf L → SameRule (mentionsIn L) Q cb b cb' b') → SameTop L Q l l' →
      YieldsL P N L' c d (.lines (.alt nm' cb' b' :: l')) s r) :
    YieldsL P N L' c d (.lines ls') s r := by
  induction h with
  | nil => cases hp
  | left => cases hp
  | right _ ih => exact .incl (ih hp)
  | alt hn hr h => cases hp; exact hy _ _ _ _ hn hr h
  | call he hm hex hall h => cases hp; exact hc _ _ _ _ _ _ rfl rfl rfl he hall h
end

/-- From the first grammar to the second. -/
theorem same_to {P : PureOps V} {N : Nat} (hQ : Accepting P Q) (hG : SameGrammar Q L L') {c : Around V} {d : Nat} {j : LJob V} {s : Bytes} {r : VRes V}
    (h : YieldsL P N L c d j s r) :
    ∀ j' k o, JobF Q L c j j' k o → ∀ d', 2 * d + o ≤ d' → YieldsL P N L' c d' j' s (called P N k r) := by
  have hM := hG.mentions
  induction h with
  | part h ih =>
    intro j' k o hj d' hd
    cases hj with
    | part => rw [called_none]; have := ih _ _ _ .core d' hd; rw [called_none] at this; exact .part this
    | splitPart hk hs => rw [own_alt]; exact ih _ _ _ (.splitCore hk hs) d' hd
    | callPart hall => rw [own_name]; exact ih _ _ _ (.callCore hall) d' hd
  | lit => intro j' k o hj d' hd; cases hj; rw [called_none]; exact .lit
  | litMiss hs => intro j' k o hj d' hd; cases hj; rw [called_none]; exact .litMiss hs
  | re hs => intro j' k o hj d' hd; cases hj; rw [called_none]; exact .re hs
  | reMiss hs => intro j' k o hj d' hd; cases hj; rw [called_none]; exact .reMiss hs
  | again hc =>
    intro j' k o hj d' hd
    cases hj with
    | core =>
      obtain ⟨d'', rfl⟩ : ∃ d'', d' = d'' + 1 := ⟨d' - 1, by omega⟩
      rw [called_none]; exact .again hc
    | callCore => cases hc
  | @name c d h lab nm q cb b s r hc hm hr h ih =>
    intro j' k o hj d' hd
    cases hj with
    | core =>
      obtain ⟨cb', b', hr', hs⟩ := hG.rules _ _ _ hr hm
      have := ih _ _ _ (.rule (.inl rfl) hs) d' hd
      rw [called_none] at this ⊢
      exact .name hc ((hM _).1 hm) hr' this
    | callCore hall => exact ih _ _ _ (.rule (.inl rfl) (hall _ _ hr)) d' hd
  | alt h ih =>
    intro j' k o hj d' hd
    cases hj with
    | core => have := ih _ _ _ .alts d' hd; rw [called_none] at this ⊢; exact .alt this
    | splitCore hk hs => exact ih _ _ _ (.splitAlts hk hs) d' hd
  | altsEnd =>
    intro j' k o hj d' hd
    cases hj with
    | alts => rw [called_none]; exact .altsEnd
    | splitAlts hk hs => exact split_end hs rfl
  | altsDone h hr ih =>
    intro j' k o hj d' hd
    cases hj with
    | alts => have := ih _ _ _ .part d' hd; rw [called_none] at this ⊢; exact .altsDone this hr
    | splitAlts hk hs =>
      refine split_cons hs ?_
      intro nm e ls' hn he _
      obtain ⟨d'', rfl⟩ : ∃ d'', d' = d'' + 1 := ⟨d' - 1, by omega⟩
      have := ih _ _ _ .part d'' (by omega)
      rw [called_none, ← he] at this
      refine .altDone (.inside (hn.imp_right fun hn hm => hn ((hM _).2 hm)) (.text this)) ?_
      rw [Ne, called_fails hQ hk]
      exact hr
  | altsMiss h₁ h₂ ih₁ ih₂ =>
    intro j' k o hj d' hd
    cases hj with
    | alts =>
      have h₁ := ih₁ _ _ _ .part d' hd
      have h₂ := ih₂ _ _ _ .alts d' hd
      rw [called_none] at h₁ h₂ ⊢; exact .altsMiss h₁ h₂
    | splitAlts hk hs =>
      refine split_cons hs ?_
      intro nm e ls' hn he hs'
      obtain ⟨d'', rfl⟩ : ∃ d'', d' = d'' + 1 := ⟨d' - 1, by omega⟩
      have := ih₁ _ _ _ .part d'' (by omega)
      rw [called_none, ← he] at this
      exact .altMiss (.inside (hn.imp_right fun hn hm => hn ((hM _).2 hm)) (.text this)) (ih₂ _ _ _ (.splitAlts hk hs') _ hd)
  | seq h ih =>
    intro j' k o hj d' hd; cases hj
    have := ih _ _ _ .items d' hd; rw [called_none] at this ⊢; exact .seq this
  | itemsEnd hg => intro j' k o hj d' hd; cases hj; rw [called_none]; exact .itemsEnd hg
  | itemsMiss h ih =>
    intro j' k o hj d' hd; cases hj
    have := ih _ _ _ .part d' hd; rw [called_none] at this ⊢; exact .itemsMiss this
  | itemsPanic h ih =>
    intro j' k o hj d' hd; cases hj
    have := ih _ _ _ .part d' hd; rw [called_none] at this ⊢; exact .itemsPanic this
  | itemsPut h₁ hg h₂ ih₁ ih₂ =>
    intro j' k o hj d' hd; cases hj
    have h₁ := ih₁ _ _ _ .part d' hd
    have h₂ := ih₂ _ _ _ .items d' hd
    rw [called_none] at h₁ h₂ ⊢; exact .itemsPut h₁ hg h₂
  | itemsBad h hg ih =>
    intro j' k o hj d' hd; cases hj
    have := ih _ _ _ .part d' hd; rw [called_none] at this ⊢; exact .itemsBad this hg
  | optDone h hr ih =>
    intro j' k o hj d' hd; cases hj
    have := ih _ _ _ .part d' hd; rw [called_none] at this ⊢; exact .optDone this hr
  | optMiss h ih =>
    intro j' k o hj d' hd; cases hj
    have := ih _ _ _ .part d' hd; rw [called_none] at this ⊢; exact .optMiss this
  | notHit h ih =>
    intro j' k o hj d' hd; cases hj
    have := ih _ _ _ .part d' hd; rw [called_none] at this ⊢; exact .notHit this
  | notMiss h ih =>
    intro j' k o hj d' hd; cases hj
    have := ih _ _ _ .part d' hd; rw [called_none] at this ⊢; exact .notMiss this
  | notPanic h ih =>
    intro j' k o hj d' hd; cases hj
    have := ih _ _ _ .part d' hd; rw [called_none] at this ⊢; exact .notPanic this
  | lookHit h ih =>
    intro j' k o hj d' hd; cases hj
    have := ih _ _ _ .part d' hd; rw [called_none] at this ⊢; exact .lookHit this
  | lookMiss h ih =>
    intro j' k o hj d' hd; cases hj
    have := ih _ _ _ .part d' hd; rw [called_none] at this ⊢; exact .lookMiss this
  | lookPanic h ih =>
    intro j' k o hj d' hd; cases hj
    have := ih _ _ _ .part d' hd; rw [called_none] at this ⊢; exact .lookPanic this
  | repMiss h ih =>
    intro j' k o hj d' hd; cases hj
    have := ih _ _ _ .part d' hd; rw [called_none] at this ⊢; exact .repMiss this
  | repPanic h ih =>
    intro j' k o hj d' hd; cases hj
    have := ih _ _ _ .part d' hd; rw [called_none] at this ⊢; exact .repPanic this
  | rep h₁ h₂ ih₁ ih₂ =>
    intro j' k o hj d' hd; cases hj
    have h₁ := ih₁ _ _ _ .part d' hd
    have h₂ := ih₂ _ _ _ .more d' hd
    rw [called_none] at h₁ h₂ ⊢; exact .rep h₁ h₂
  | sepNone => intro j' k o hj d' hd; cases hj; rw [called_none]; exact .sepNone
  | sepSome h ih =>
    intro j' k o hj d' hd; cases hj
    have := ih _ _ _ .part d' hd; rw [called_none] at this ⊢; exact .sepSome this
  | full hr => intro j' k o hj d' hd; cases hj; rw [called_none]; exact .full hr
  | noSep hr h ih =>
    intro j' k o hj d' hd; cases hj
    have := ih _ _ _ .sep d' hd; rw [called_none] at this ⊢; exact .noSep hr this
  | sepPanic hr h ih =>
    intro j' k o hj d' hd; cases hj
    have := ih _ _ _ .sep d' hd; rw [called_none] at this ⊢; exact .sepPanic hr this
  | noMore hr h₁ h₂ ih₁ ih₂ =>
    intro j' k o hj d' hd; cases hj
    have h₁ := ih₁ _ _ _ .sep d' hd
    have h₂ := ih₂ _ _ _ .part d' hd
    rw [called_none] at h₁ h₂ ⊢; exact .noMore hr h₁ h₂
  | morePanic hr h₁ h₂ ih₁ ih₂ =>
    intro j' k o hj d' hd; cases hj
    have h₁ := ih₁ _ _ _ .sep d' hd
    have h₂ := ih₂ _ _ _ .part d' hd
    rw [called_none] at h₁ h₂ ⊢; exact .morePanic hr h₁ h₂
  | more hr h₁ h₂ h₃ ih₁ ih₂ ih₃ =>
    intro j' k o hj d' hd; cases hj
    have h₁ := ih₁ _ _ _ .sep d' hd
    have h₂ := ih₂ _ _ _ .part d' hd
    have h₃ := ih₃ _ _ _ .more d' hd
    rw [called_none] at h₁ h₂ h₃ ⊢; exact .more hr h₁ h₂ h₃
  | inside hn h ih =>
    intro j' k o hj d' hd
    cases hj with
    | rule hsn hs =>
      have := ih _ _ _ (.body hs) d' hd
      rw [called_none] at this ⊢
      have hn' := hsn.unused hn
      exact .inside (hn'.imp_right fun hn hm => hn ((hM _).2 hm)) this
    | callRule he hall => exact ih _ _ _ (.callBody he hall) d' hd
  | grown x hn hm h0 hx hl h ih =>
    intro j' k o hj d' hd
    cases hj with
    | rule hsn hs =>
      rw [called_none]
      cases hsn.used hn hm
      refine .grown x hn ((hM _).1 hm) h0 hx hl fun i hi => ?_
      have := ih i hi _ _ _ (.body hs) d' hd
      rwa [called_none] at this
    | callRule => exact absurd rfl hn
  | grownPanic x hn hm h0 hx h₁ h₂ ih₁ ih₂ =>
    intro j' k o hj d' hd
    cases hj with
    | rule hsn hs =>
      have h₂ := ih₂ _ _ _ (.body hs) d' hd
      rw [called_none] at h₂ ⊢
      cases hsn.used hn hm
      refine .grownPanic x hn ((hM _).1 hm) h0 hx (fun i hi => ?_) h₂
      have := ih₁ i hi _ _ _ (.body hs) d' hd
      rwa [called_none] at this
    | callRule => exact absurd rfl hn
  | text h ih =>
    intro j' k o hj d' hd
    obtain ⟨d'', rfl⟩ : ∃ d'', d' = d'' + 1 := ⟨d' - 1, by omega⟩
    cases hj with
    | body hs =>
      cases hs with
      | text he =>
        have := ih _ _ _ .part d'' (by omega)
        rw [he] at this
        rw [called_none] at this ⊢; exact .text this
      | split he hl =>
        rw [he] at ih
        have := ih _ _ _ (.splitPart (by simp) hl) d'' (by omega)
        rw [called_none] at this ⊢; exact .rank this
      | splitCb hq he hl =>
        rw [he] at ih
        have := ih _ _ _ (.splitPart (fun x hx => by cases hx; exact hq) hl) d'' (by omega)
        have := YieldsL.rank (cb := none) this
        rw [called_none] at this ⊢; exact this
    | callBody he hall =>
      rw [he] at ih
      have := ih _ _ _ (.callPart hall) (d'' + 1) (by omega)
      rw [called_none] at this ⊢; rw [called_none]; exact this
  | rank h ih =>
    intro j' k o hj d' hd
    obtain ⟨d'', rfl⟩ : ∃ d'', d' = d'' + 1 := ⟨d' - 1, by omega⟩
    cases hj with
    | body hs =>
      cases hs with
      | rank hl =>
        have := ih _ _ _ (.lines hl) d'' (by omega)
        rw [called_none] at this ⊢; exact .rank this
  | linesEnd =>
    intro j' k o hj d' hd
    cases hj with
    | lines hl => exact same_end hl rfl
    | top hl => exact top_end hl rfl
  | incl h ih =>
    intro j' k o hj d' hd
    cases hj with
    | lines hl => exact ih _ _ _ (.lines (same_incl hl _ _ _ _ rfl)) d' hd
    | top hl => exact ih _ _ _ (.top (top_incl hl rfl)) d' hd
  | altDone h hr ih =>
    intro j' k o hj d' hd
    cases hj with
    | lines hl =>
      rw [called_none]
      refine same_cons hl _ _ _ _ rfl fun nm' cb' b' l' hsn hs hl' => ?_
      have := ih _ _ _ (.rule hsn hs) d' hd
      rw [called_none] at this
      exact .altDone this hr
    | top hl =>
      rw [called_none]
      refine top_cons hl rfl (fun nm' cb' b' l' hsn hs hl' => ?_) (fun e nm' q cb' b' l' h1 h2 h3 he hall hl' => ?_)
      · have := ih _ _ _ (.rule hsn hs) d' hd
        rw [called_none] at this
        exact .altDone this hr
      · subst h1 h2 h3
        have := ih _ _ _ (.callRule he hall) d' hd
        rw [called_none] at this
        exact .altDone this hr
  | altMiss h₁ h₂ ih₁ ih₂ =>
    intro j' k o hj d' hd
    cases hj with
    | lines hl =>
      rw [called_none]
      refine same_cons hl _ _ _ _ rfl fun nm' cb' b' l' hsn hs hl' => ?_
      have h₁ := ih₁ _ _ _ (.rule hsn hs) d' hd
      have h₂ := ih₂ _ _ _ (.lines hl') d' hd
      rw [called_none] at h₁ h₂
      exact .altMiss h₁ h₂
    | top hl =>
      rw [called_none]
      refine top_cons hl rfl (fun nm' cb' b' l' hsn hs hl' => ?_) (fun e nm' q cb' b' l' h1 h2 h3 he hall hl' => ?_)
      · have h₁ := ih₁ _ _ _ (.rule hsn hs) d' hd
        have h₂ := ih₂ _ _ _ (.top hl') d' hd
        rw [called_none] at h₁ h₂
        exact .altMiss h₁ h₂
      · subst h1 h2 h3
        have h₁ := ih₁ _ _ _ (.callRule he hall) d' hd
        have h₂ := ih₂ _ _ _ (.top hl') d' hd
        rw [called_none] at h₁ h₂
        exact .altMiss h₁ h₂

variable (Q L)
/-- What matches in the first grammar as `j'` does in the second; `k`: the callback that `j'` has called in addition, `o`: how
much deeper. -/
inductive JobB : Around V → LJob V → LJob V → Option Nat → Nat → Prop
  | part {c h p} : JobB c (.part h p) (.part h p) none 0
  | core {c h p} : JobB c (.core h p) (.core h p) none 0
  | alts {c l} : JobB c (.alts l) (.alts l) none 0
  | items {c f l acc} : JobB c (.items f l acc) (.items f l acc) none 0
  | sep {c o} : JobB c (.sep o) (.sep o) none 0
  | more {c v sep mn mx vs} : JobB c (.more v sep mn mx vs) (.more v sep mn mx vs) none 0
  | rule {c nm cb b nm' cb' b'} : SameName (mentionsIn L) nm nm' → SameRule (mentionsIn L) Q cb b cb' b' → JobB c (.rule nm' cb' b') (.rule nm cb b) none 0
  | body {c cb b cb' b'} : SameRule (mentionsIn L) Q cb b cb' b' → JobB c (.body cb' b') (.body cb b) none 0
  | lines {c ls ls'} : SameLines (mentionsIn L) Q ls ls' → JobB c (.lines ls') (.lines ls) none 0
  | splitLines {c ps ls k} : (∀ x, k = some x → Q x) → SplitLines (mentionsIn L) k ps ls → JobB c (.lines ls) (.alts ps) k 0
  | splitRule {c nm e k} : nm = "" ∨ nm ∉ mentionsIn L → JobB c (.rule nm k (.text e)) (.part false e.vp) k 0
  | splitBody {c e k} : JobB c (.body k (.text e)) (.part false e.vp) k 0
  | top {ls ls'} : SameTop L Q ls ls' → JobB none (.lines ls') (.lines ls) none 1
  | callRule {e nm q cb' b' cb b} : e.vp = .name "" nm q → nm ∈ mentionsIn L → (nm, cb, b) ∈ rulesOf L → SameRule (mentionsIn L) Q cb b cb' b' →
      JobB none (.rule nm cb' b') (.rule "" none (.text e)) none 1

variable {Q L}

section
variable {P : PureOps V} {N : Nat} {M : List String} {ls ls' : List GLine} {c : Around V} {d : Nat} {s : Bytes} {r : VRes V}
  {nm : String} {cb cb' : Option Nat} {b b' : Body}

theorem split_nil {k : Option Nat} {ps : List VP} (h : SplitLines M k ps ls) (hp : ls = []) : ps = [] := by
  cases h with
  | nil => rfl
  | incl => cases hp
  | alt => cases hp

theorem same_end' (h : SameLines M Q ls ls') : ls' = [] → YieldsL P N L c d (.lines ls) s (.ok none) := by
  refine SameLines.induct (motive := fun ls ls' => ls' = [] → YieldsL P N L c d (.lines ls) s (.ok none)) ?_ ?_ ?_ ?_ h
  · intro _; exact .linesEnd
  · intro _ _ _ _ _ _ ih h; exact .incl (ih h)
  · intro _ _ _ _ _ _ _ h; cases h
  · intro _ _ _ _ _ _ _ _ _ _ _ _ h; cases h

theorem same_incl' (h : SameLines M Q ls ls') : ∀ nm cb b l, ls' = .incl nm cb b :: l → SameLines M Q ls l := by
  refine SameLines.induct (motive := fun ls ls' => ∀ nm cb b l, ls' = .incl nm cb b :: l → SameLines M Q ls l) ?_ ?_ ?_ ?_ h
  · intro _ _ _ _ h; cases h
  · intro _ _ _ _ _ _ ih _ _ _ _ he; exact .left (ih _ _ _ _ he)
  · intro _ _ _ _ _ h _ _ _ _ _ he; cases he; exact h
  · intro _ _ _ _ _ _ _ _ _ _ _ _ _ _ _ _ he; cases he

theorem same_cons' (h : SameLines M Q ls ls') : ∀ nm cb' b' l', ls' = .alt nm cb' b' :: l' →
    (∀ nm₀ cb b l, SameName M nm₀ nm → SameRule M Q cb b cb' b' → SameLines M Q l l' → YieldsL P N L c d (.lines (.alt nm₀ cb b :: l)) s r) →
    YieldsL P N L c d (.lines ls) s r := by
  refine SameLines.induct (motive := fun ls ls' => ∀ nm cb' b' l', ls' = .alt nm cb' b' :: l' →
    (∀ nm₀ cb b l, SameName M nm₀ nm → SameRule M Q cb b cb' b' → SameLines M Q l l' → YieldsL P N L c d (.lines (.alt nm₀ cb b :: l)) s r) →
    YieldsL P N L c d (.lines ls) s r) ?_ ?_ ?_ ?_ h
  · intro _ _ _ _ h; cases h
  · intro _ _ _ _ _ _ ih _ _ _ _ he hy; exact .incl (ih _ _ _ _ he hy)
  · intro _ _ _ _ _ _ _ _ _ _ _ he; cases he
  · intro _ _ _ _ _ _ _ _ hn hr h _ _ _ _ _ he hy; cases he; exact hy _ _ _ _ hn hr h

theorem top_end' (h : SameTop L Q ls ls') (hp : ls' = []) : YieldsL P N L c d (.lines ls) s (.ok none) := by
  induction h with
  | nil => exact .linesEnd
  | left _ ih => exact .incl (ih hp)
  | right => cases hp
  | alt => cases hp
  | call => cases hp

theorem top_incl' (h : SameTop L Q ls ls') {l : List GLine} (hp : ls' = .incl nm cb b :: l) : SameTop L Q ls l := by
  induction h with
  | nil => cases hp
  | left _ ih => exact .left (ih hp)
  | right h => cases hp; exact h
  | alt => cases hp
  | call => cases hp

theorem top_cons' (h : SameTop L Q ls ls') {l' : List GLine} (hp : ls' = .alt nm cb' b' :: l')
    (hy : ∀ nm₀ cb b l, SameName (mentionsIn L) nm₀ nm → SameRule (mentionsIn L) Q cb b cb' b' → SameTop L Q l l' →
      YieldsL P N L c d (.lines (.alt nm₀ cb b :: l)) s r)
    (hc : ∀ e q cb b l, e.vp = .name "" nm q → nm ∈ mentionsIn L → (nm, cb, b) ∈ rulesOf L → SameRule (mentionsIn L) Q cb b cb' b' →
      SameTop L Q l l' → YieldsL P N L c d (.lines (.alt "" none (.text e) :: l)) s r) :
    YieldsL P N L c d (.lines ls) s r := by
  induction h with
  | nil => cases hp
  | left _ ih => exact .incl (ih hp)
  | right => cases hp
  | alt hn hr h => cases hp; exact hy _ _ _ _ hn hr h
  | call he hm hex hall h =>
    cases hp
    obtain ⟨cb, b, hr⟩ := hex
    exact hc _ _ _ _ _ he hm hr (hall _ _ hr) h

/-- An alternative that is the name of a rule. -/
theorem call_yields {e : Expr} {q : Bool} (he : e.vp = .name "" nm q) (hm : nm ∈ mentionsIn L) (hr : (nm, cb, b) ∈ rulesOf L)
    (h : YieldsL P N L none d (.rule nm cb b) s r) : YieldsL P N L none (d + 1) (.rule "" none (.text e)) s r := by
  have h1 : YieldsL P N L none d (.part false e.vp) s r := by
    rw [he]
    have := YieldsL.part (h := false) (.name (h := false) (lab := "") (q := q) (by simp) hm hr h)
    rwa [own_name] at this
  have := YieldsL.text (cb := none) h1
  rw [called_none] at this
  exact .inside (.inl rfl) this
end

theorem asIs {P : PureOps V} {N : Nat} {r : VRes V} {p : VRes V → Prop} (h : ∃ r₀, called P N none r₀ = r ∧ p r₀) : p r := by
  obtain ⟨r₀, h, hp⟩ := h
  rw [called_none] at h
  exact h ▸ hp

/-- From the second grammar to the first. -/
theorem same_from {P : PureOps V} {N : Nat} (hQ : Accepting P Q) (hG : SameGrammar Q L L') {c : Around V} {d : Nat} {j' : LJob V} {s : Bytes} {r : VRes V}
    (h : YieldsL P N L' c d j' s r) :
    ∀ j k o, JobB Q L c j' j k o → ∃ r₀, called P N k r₀ = r ∧ ∀ d', d + o ≤ d' → YieldsL P N L c d' j s r₀ := by
  have hM := hG.mentions
  induction h with
  | part h ih =>
    intro j k o hj
    cases hj
    have h := asIs (ih _ _ _ .core)
    exact ⟨_, called_none .., fun d' hd => .part (h d' hd)⟩
  | again hc =>
    intro j k o hj
    cases hj
    refine ⟨_, called_none .., fun d' hd => ?_⟩
    obtain ⟨d'', rfl⟩ : ∃ d'', d' = d'' + 1 := ⟨d' - 1, by omega⟩
    exact .again hc
  | @name c d h lab nm q cb b s r hc hm hr h ih =>
    intro j k o hj
    cases hj
    obtain ⟨cb', b', hr', hs⟩ := hG.rules' _ _ _ hr ((hM _).2 hm)
    have h := asIs (ih _ _ _ (.rule (.inl rfl) hs))
    exact ⟨_, called_none .., fun d' hd => .name hc ((hM _).2 hm) hr' (h d' hd)⟩
  | lit => intro j k o hj; cases hj; exact ⟨_, called_none .., fun d' hd => .lit⟩
  | litMiss hs => intro j k o hj; cases hj; exact ⟨_, called_none .., fun d' hd => .litMiss hs⟩
  | re hs => intro j k o hj; cases hj; exact ⟨_, called_none .., fun d' hd => .re hs⟩
  | reMiss hs => intro j k o hj; cases hj; exact ⟨_, called_none .., fun d' hd => .reMiss hs⟩
  | altsEnd => intro j k o hj; cases hj; exact ⟨_, called_none .., fun d' hd => .altsEnd⟩
  | itemsEnd hg => intro j k o hj; cases hj; exact ⟨_, called_none .., fun d' hd => .itemsEnd hg⟩
  | sepNone => intro j k o hj; cases hj; exact ⟨_, called_none .., fun d' hd => .sepNone⟩
  | full hr => intro j k o hj; cases hj; exact ⟨_, called_none .., fun d' hd => .full hr⟩
  | alt h ih =>
    intro j k o hj; cases hj
    have h := asIs (ih _ _ _ .alts)
    exact ⟨_, called_none .., fun d' hd => .alt (h d' hd)⟩
  | altsDone h hr ih =>
    intro j k o hj; cases hj
    have h := asIs (ih _ _ _ .part)
    exact ⟨_, called_none .., fun d' hd => .altsDone (h d' hd) hr⟩
  | altsMiss h₁ h₂ ih₁ ih₂ =>
    intro j k o hj; cases hj
    have h₁ := asIs (ih₁ _ _ _ .part)
    have h₂ := asIs (ih₂ _ _ _ .alts)
    exact ⟨_, called_none .., fun d' hd => .altsMiss (h₁ d' hd) (h₂ d' hd)⟩
  | seq h ih =>
    intro j k o hj; cases hj
    have h := asIs (ih _ _ _ .items)
    exact ⟨_, called_none .., fun d' hd => .seq (h d' hd)⟩
  | itemsMiss h ih =>
    intro j k o hj; cases hj
    have h := asIs (ih _ _ _ .part)
    exact ⟨_, called_none .., fun d' hd => .itemsMiss (h d' hd)⟩
  | itemsPanic h ih =>
    intro j k o hj; cases hj
    have h := asIs (ih _ _ _ .part)
    exact ⟨_, called_none .., fun d' hd => .itemsPanic (h d' hd)⟩
  | itemsPut h₁ hg h₂ ih₁ ih₂ =>
    intro j k o hj; cases hj
    have h₁ := asIs (ih₁ _ _ _ .part)
    have h₂ := asIs (ih₂ _ _ _ .items)
    exact ⟨_, called_none .., fun d' hd => .itemsPut (h₁ d' hd) hg (h₂ d' hd)⟩
  | itemsBad h hg ih =>
    intro j k o hj; cases hj
    have h := asIs (ih _ _ _ .part)
    exact ⟨_, called_none .., fun d' hd => .itemsBad (h d' hd) hg⟩
  | optDone h hr ih =>
    intro j k o hj; cases hj
    have h := asIs (ih _ _ _ .part)
    exact ⟨_, called_none .., fun d' hd => .optDone (h d' hd) hr⟩
  | optMiss h ih =>
    intro j k o hj; cases hj
    have h := asIs (ih _ _ _ .part)
    exact ⟨_, called_none .., fun d' hd => .optMiss (h d' hd)⟩
  | notHit h ih =>
    intro j k o hj; cases hj
    have h := asIs (ih _ _ _ .part)
    exact ⟨_, called_none .., fun d' hd => .notHit (h d' hd)⟩
  | notMiss h ih =>
    intro j k o hj; cases hj
    have h := asIs (ih _ _ _ .part)
    exact ⟨_, called_none .., fun d' hd => .notMiss (h d' hd)⟩
  | notPanic h ih =>
    intro j k o hj; cases hj
    have h := asIs (ih _ _ _ .part)
    exact ⟨_, called_none .., fun d' hd => .notPanic (h d' hd)⟩
  | lookHit h ih =>
    intro j k o hj; cases hj
    have h := asIs (ih _ _ _ .part)
    exact ⟨_, called_none .., fun d' hd => .lookHit (h d' hd)⟩
  | lookMiss h ih =>
    intro j k o hj; cases hj
    have h := asIs (ih _ _ _ .part)
    exact ⟨_, called_none .., fun d' hd => .lookMiss (h d' hd)⟩
  | lookPanic h ih =>
    intro j k o hj; cases hj
    have h := asIs (ih _ _ _ .part)
    exact ⟨_, called_none .., fun d' hd => .lookPanic (h d' hd)⟩
  | repMiss h ih =>
    intro j k o hj; cases hj
    have h := asIs (ih _ _ _ .part)
    exact ⟨_, called_none .., fun d' hd => .repMiss (h d' hd)⟩
  | repPanic h ih =>
    intro j k o hj; cases hj
    have h := asIs (ih _ _ _ .part)
    exact ⟨_, called_none .., fun d' hd => .repPanic (h d' hd)⟩
  | rep h₁ h₂ ih₁ ih₂ =>
    intro j k o hj; cases hj
    have h₁ := asIs (ih₁ _ _ _ .part)
    have h₂ := asIs (ih₂ _ _ _ .more)
    exact ⟨_, called_none .., fun d' hd => .rep (h₁ d' hd) (h₂ d' hd)⟩
  | sepSome h ih =>
    intro j k o hj; cases hj
    have h := asIs (ih _ _ _ .part)
    exact ⟨_, called_none .., fun d' hd => .sepSome (h d' hd)⟩
  | noSep hr h ih =>
    intro j k o hj; cases hj
    have h := asIs (ih _ _ _ .sep)
    exact ⟨_, called_none .., fun d' hd => .noSep hr (h d' hd)⟩
  | sepPanic hr h ih =>
    intro j k o hj; cases hj
    have h := asIs (ih _ _ _ .sep)
    exact ⟨_, called_none .., fun d' hd => .sepPanic hr (h d' hd)⟩
  | noMore hr h₁ h₂ ih₁ ih₂ =>
    intro j k o hj; cases hj
    have h₁ := asIs (ih₁ _ _ _ .sep)
    have h₂ := asIs (ih₂ _ _ _ .part)
    exact ⟨_, called_none .., fun d' hd => .noMore hr (h₁ d' hd) (h₂ d' hd)⟩
  | morePanic hr h₁ h₂ ih₁ ih₂ =>
    intro j k o hj; cases hj
    have h₁ := asIs (ih₁ _ _ _ .sep)
    have h₂ := asIs (ih₂ _ _ _ .part)
    exact ⟨_, called_none .., fun d' hd => .morePanic hr (h₁ d' hd) (h₂ d' hd)⟩
  | more hr h₁ h₂ h₃ ih₁ ih₂ ih₃ =>
    intro j k o hj; cases hj
    have h₁ := asIs (ih₁ _ _ _ .sep)
    have h₂ := asIs (ih₂ _ _ _ .part)
    have h₃ := asIs (ih₃ _ _ _ .more)
    exact ⟨_, called_none .., fun d' hd => .more hr (h₁ d' hd) (h₂ d' hd) (h₃ d' hd)⟩
  | @inside c d nm cb' b' s r hn h ih =>
    intro j k o hj
    have hn' := hn.imp_right fun hn hm => hn ((hM _).1 hm)
    cases hj with
    | rule hsn hs =>
      have h := asIs (ih _ _ _ (.body hs))
      exact ⟨_, called_none .., fun d' hd => .inside (hsn.unused' hn') (h d' hd)⟩
    | splitRule => exact ih _ _ _ .splitBody
    | callRule he hm hr hs =>
      have h := asIs (ih _ _ _ (.body hs))
      refine ⟨_, called_none .., fun d' hd => ?_⟩
      obtain ⟨d'', rfl⟩ : ∃ d'', d' = d'' + 1 := ⟨d' - 1, by omega⟩
      exact call_yields he hm hr (.inside hn' (h d'' (by omega)))
  | @grown c d nm cb' b' s n x hn hm h0 hx hl h ih =>
    intro j k o hj
    have key : ∀ cb b, SameRule (mentionsIn L) Q cb b cb' b' → ∀ d', d ≤ d' → YieldsL P N L c d' (.rule nm cb b) s (.ok (x n)) := by
      intro cb b hs d' hd
      exact .grown x hn ((hM _).2 hm) h0 hx hl fun i hi => asIs (ih i hi _ _ _ (.body hs)) d' hd
    cases hj with
    | rule hsn hs =>
      cases hsn.used' hn ((hM _).2 hm)
      exact ⟨_, called_none .., fun d' hd => key _ _ hs d' hd⟩
    | splitRule hu => exact absurd ((hM _).2 hm) (hu.resolve_left hn)
    | callRule he hm hr hs =>
      refine ⟨_, called_none .., fun d' hd => ?_⟩
      obtain ⟨d'', rfl⟩ : ∃ d'', d' = d'' + 1 := ⟨d' - 1, by omega⟩
      exact call_yields he hm hr (key _ _ hs d'' (by omega))
  | @grownPanic c d nm cb' b' s n e x hn hm h0 hx h₁ h₂ ih₁ ih₂ =>
    intro j k o hj
    have key : ∀ cb b, SameRule (mentionsIn L) Q cb b cb' b' → ∀ d', d ≤ d' → YieldsL P N L c d' (.rule nm cb b) s (.error e) := by
      intro cb b hs d' hd
      exact .grownPanic x hn ((hM _).2 hm) h0 hx (fun i hi => asIs (ih₁ i hi _ _ _ (.body hs)) d' hd) (asIs (ih₂ _ _ _ (.body hs)) d' hd)
    cases hj with
    | rule hsn hs =>
      cases hsn.used' hn ((hM _).2 hm)
      exact ⟨_, called_none .., fun d' hd => key _ _ hs d' hd⟩
    | splitRule hu => exact absurd ((hM _).2 hm) (hu.resolve_left hn)
    | callRule he hm hr hs =>
      refine ⟨_, called_none .., fun d' hd => ?_⟩
      obtain ⟨d'', rfl⟩ : ∃ d'', d' = d'' + 1 := ⟨d' - 1, by omega⟩
      exact call_yields he hm hr (key _ _ hs d'' (by omega))
  | text h ih =>
    intro j k o hj
    have h := asIs (ih _ _ _ .part)
    cases hj with
    | body hs =>
      cases hs with
      | text he =>
        refine ⟨_, called_none .., fun d' hd => ?_⟩
        obtain ⟨d'', rfl⟩ : ∃ d'', d' = d'' + 1 := ⟨d' - 1, by omega⟩
        rw [← he] at h
        exact .text (h d'' (by omega))
    | splitBody => exact ⟨_, rfl, fun d' hd => h d' (by omega)⟩
  | rank h ih =>
    intro j k o hj
    cases hj with
    | body hs =>
      cases hs with
      | rank hl =>
        have h := asIs (ih _ _ _ (.lines hl))
        refine ⟨_, called_none .., fun d' hd => ?_⟩
        obtain ⟨d'', rfl⟩ : ∃ d'', d' = d'' + 1 := ⟨d' - 1, by omega⟩
        exact .rank (h d'' (by omega))
      | split he hl =>
        have h := asIs (ih _ _ _ (.splitLines (by simp) hl))
        refine ⟨_, called_none .., fun d' hd => ?_⟩
        obtain ⟨d'', rfl⟩ : ∃ d'', d' = d'' + 1 := ⟨d' - 1, by omega⟩
        refine .text ?_
        rw [he]
        have := YieldsL.part (h := false) (.alt (h := false) (lab := "") (h d'' (by omega)))
        rwa [own_alt] at this
      | splitCb hq he hl =>
        obtain ⟨r₀, rfl, h'⟩ := ih _ _ _ (.splitLines (fun x hx => by cases hx; exact hq) hl)
        rw [called_none]
        refine ⟨_, called_none .., fun d' hd => ?_⟩
        obtain ⟨d'', rfl⟩ : ∃ d'', d' = d'' + 1 := ⟨d' - 1, by omega⟩
        refine .text ?_
        rw [he]
        have := YieldsL.part (h := false) (.alt (h := false) (lab := "") (h' d'' (by omega)))
        rwa [own_alt] at this
  | linesEnd =>
    intro j k o hj
    cases hj with
    | lines hl => exact ⟨_, called_none .., fun d' hd => same_end' hl rfl⟩
    | top hl => exact ⟨_, called_none .., fun d' hd => top_end' hl rfl⟩
    | splitLines hk hl => cases split_nil hl rfl; exact ⟨.ok none, rfl, fun d' hd => .altsEnd⟩
  | incl h ih =>
    intro j k o hj
    cases hj with
    | lines hl => exact ih _ _ _ (.lines (same_incl' hl _ _ _ _ rfl))
    | top hl => exact ih _ _ _ (.top (top_incl' hl rfl))
    | splitLines hk hl =>
      cases hl with
      | incl hl => exact ih _ _ _ (.splitLines hk hl)
  | altDone h hr ih =>
    intro j k o hj
    cases hj with
    | lines hl =>
      refine ⟨_, called_none .., fun d' hd => ?_⟩
      exact same_cons' hl _ _ _ _ rfl fun nm₀ cb b l hsn hs hl' => .altDone (asIs (ih _ _ _ (.rule hsn hs)) d' hd) hr
    | top hl =>
      refine ⟨_, called_none .., fun d' hd => ?_⟩
      refine top_cons' hl rfl (fun nm₀ cb b l hsn hs hl' => ?_) (fun e q cb b l he hm hm' hs hl' => ?_)
      · exact .altDone (asIs (ih _ _ _ (.rule hsn hs)) d' (by omega)) hr
      · exact .altDone (asIs (ih _ _ _ (.callRule he hm hm' hs)) d' hd) hr
    | splitLines hk hl =>
      cases hl with
      | alt hn hl =>
        obtain ⟨r₀, rfl, h'⟩ := ih _ _ _ (.splitRule hn)
        rw [Ne, called_fails hQ hk] at hr
        exact ⟨_, rfl, fun d' hd => .altsDone (h' d' hd) hr⟩
  | altMiss h₁ h₂ ih₁ ih₂ =>
    intro j k o hj
    cases hj with
    | lines hl =>
      refine ⟨_, called_none .., fun d' hd => ?_⟩
      exact same_cons' hl _ _ _ _ rfl fun nm₀ cb b l hsn hs hl' => .altMiss (asIs (ih₁ _ _ _ (.rule hsn hs)) d' hd) (asIs (ih₂ _ _ _ (.lines hl')) d' hd)
    | top hl =>
      refine ⟨_, called_none .., fun d' hd => ?_⟩
      refine top_cons' hl rfl (fun nm₀ cb b l hsn hs hl' => ?_) (fun e q cb b l he hm hm' hs hl' => ?_)
      · exact .altMiss (asIs (ih₁ _ _ _ (.rule hsn hs)) d' (by omega)) (asIs (ih₂ _ _ _ (.top hl')) d' hd)
      · exact .altMiss (asIs (ih₁ _ _ _ (.callRule he hm hm' hs)) d' hd) (asIs (ih₂ _ _ _ (.top hl')) d' hd)
    | splitLines hk hl =>
      cases hl with
      | alt hn hl =>
        obtain ⟨r₁, h₁, h₁'⟩ := ih₁ _ _ _ (.splitRule hn)
        obtain ⟨r₂, rfl, h₂'⟩ := ih₂ _ _ _ (.splitLines hk hl)
        rw [called_fails hQ hk] at h₁
        subst h₁
        exact ⟨_, rfl, fun d' hd => .altsMiss (h₁' d' hd) (h₂' d' hd)⟩

end Joeson.RuleText
