import Verif.Spec.Same
/-! # Lemmas: other names for alternatives whose name is not used -/

namespace Joeson.RuleText

mutual
theorem GLine.mentions_rename (f : String → String) : ∀ l : GLine, (l.rename f).mentions = l.mentions
  | .alt _ _ b => by simp only [GLine.rename, GLine.mentions]; exact Body.mentions_rename f b
  | .incl _ _ b => by simp only [GLine.rename, GLine.mentions]; exact Body.mentions_rename f b
theorem Body.mentions_rename (f : String → String) : ∀ b : Body, (b.rename f).mentions = b.mentions
  | .text _ => rfl
  | .rank ls => by simp only [Body.rename, Body.mentions]; exact mentionsIn_rename f ls
theorem mentionsIn_rename (f : String → String) : ∀ ls : List GLine, mentionsIn (renameLines f ls) = mentionsIn ls
  | [] => rfl
  | l :: ls => by simp only [renameLines, mentionsIn]; rw [GLine.mentions_rename f l, mentionsIn_rename f ls]
end

variable {M : List String} {Q : Nat → Prop} {f : String → String}

theorem KeepsUsed.same (h : KeepsUsed M f) (nm : String) : SameName M nm (f nm) := by
  by_cases h0 : nm ≠ "" ∧ nm ∈ M
  · exact .inl (h.1 nm h0.1 h0.2).symm
  · have h0 : nm = "" ∨ nm ∉ M := by
      by_cases h1 : nm = ""
      · exact .inl h1
      · exact .inr fun h2 => h0 ⟨h1, h2⟩
    exact .inr ⟨h0, h.2 nm h0⟩

mutual
theorem Body.same_rename (h : KeepsUsed M f) (cb : Option Nat) : ∀ b : Body, SameRule M Q cb b cb (b.rename f)
  | .text _ => .text rfl
  | .rank ls => .rank (sameLines_rename h ls)
theorem GLine.same_rename (h : KeepsUsed M f) : ∀ (l : GLine) {ls ls' : List GLine}, SameLines M Q ls ls' → SameLines M Q (l :: ls) (l.rename f :: ls')
  | .alt nm cb b, _, _, hl => .alt (h.same nm) (Body.same_rename h cb b) hl
  | .incl _ _ _, _, _, hl => .left (.right hl)
theorem sameLines_rename (h : KeepsUsed M f) : ∀ ls : List GLine, SameLines M Q ls (renameLines f ls)
  | [] => .nil
  | l :: ls => GLine.same_rename h l (sameLines_rename h ls)
end

theorem sameTop_rename {L : List GLine} (h : KeepsUsed (mentionsIn L) f) : ∀ ls : List GLine, SameTop L Q ls (renameLines f ls)
  | [] => .nil
  | .alt nm cb b :: ls => .alt (h.same nm) (Body.same_rename h cb b) (sameTop_rename h ls)
  | .incl _ _ _ :: ls => .left (.right (sameTop_rename h ls))

mutual
theorem GLine.rules_rename (h : KeepsUsed M f) {nm : String} {cb : Option Nat} {b : Body} (hm : nm ∈ M) : ∀ l : GLine, (nm, cb, b) ∈ l.rules → (nm, cb, b.rename f) ∈ (l.rename f).rules
  | .alt nm' cb' b', hr => by
    simp only [GLine.rename, GLine.rules, List.mem_append] at hr ⊢
    rcases hr with hr | hr
    · left
      split at hr
      · cases hr
      · rename_i h0
        simp only [List.mem_cons, Prod.mk.injEq, List.not_mem_nil, or_false] at hr
        obtain ⟨rfl, rfl, rfl⟩ := hr
        rw [h.1 nm h0 hm, if_neg h0]
        simp
    · exact .inr (Body.rules_rename h hm b' hr)
  | .incl nm' cb' b', hr => by
    simp only [GLine.rename, GLine.rules, List.mem_cons, Prod.mk.injEq] at hr ⊢
    rcases hr with ⟨rfl, rfl, rfl⟩ | hr
    · exact .inl ⟨rfl, rfl, rfl⟩
    · exact .inr (Body.rules_rename h hm b' hr)
theorem Body.rules_rename (h : KeepsUsed M f) {nm : String} {cb : Option Nat} {b : Body} (hm : nm ∈ M) : ∀ b' : Body, (nm, cb, b) ∈ b'.rules → (nm, cb, b.rename f) ∈ (b'.rename f).rules
  | .text _, hr => by cases hr
  | .rank ls, hr => by simp only [Body.rename, Body.rules] at hr ⊢; exact rulesOf_rename h hm ls hr
theorem rulesOf_rename (h : KeepsUsed M f) {nm : String} {cb : Option Nat} {b : Body} (hm : nm ∈ M) : ∀ ls : List GLine, (nm, cb, b) ∈ rulesOf ls → (nm, cb, b.rename f) ∈ rulesOf (renameLines f ls)
  | [], hr => by cases hr
  | l :: ls, hr => by
    simp only [renameLines, rulesOf, List.mem_append] at hr ⊢
    exact hr.imp (GLine.rules_rename h hm l) (rulesOf_rename h hm ls)
end

mutual
theorem GLine.rename_rules (h : KeepsUsed M f) {nm : String} {cb : Option Nat} {b : Body} (hm : nm ∈ M) : ∀ l : GLine, (nm, cb, b) ∈ (l.rename f).rules → ∃ b', (nm, cb, b') ∈ l.rules ∧ b = b'.rename f
  | .alt nm' cb' b', hr => by
    simp only [GLine.rename, GLine.rules, List.mem_append] at hr ⊢
    rcases hr with hr | hr
    · split at hr
      · cases hr
      · rename_i h0
        simp only [List.mem_cons, Prod.mk.injEq, List.not_mem_nil, or_false] at hr
        obtain ⟨rfl, rfl, rfl⟩ := hr
        have h1 : nm' ≠ "" ∧ f nm' = nm' := by
          rcases h.same nm' with h1 | ⟨_, h1 | h1⟩
          · exact ⟨fun h2 => h0 (h1 ▸ h2), h1.symm⟩
          · exact absurd h1 h0
          · exact absurd hm h1
        refine ⟨b', .inl ?_, rfl⟩
        rw [h1.2, if_neg h1.1]
        simp
    · obtain ⟨b'', h1, h2⟩ := Body.rename_rules h hm b' hr
      exact ⟨b'', .inr h1, h2⟩
  | .incl nm' cb' b', hr => by
    simp only [GLine.rename, GLine.rules, List.mem_cons, Prod.mk.injEq] at hr ⊢
    rcases hr with ⟨rfl, rfl, rfl⟩ | hr
    · exact ⟨b', .inl ⟨rfl, rfl, rfl⟩, rfl⟩
    · obtain ⟨b'', h1, h2⟩ := Body.rename_rules h hm b' hr
      exact ⟨b'', .inr h1, h2⟩
theorem Body.rename_rules (h : KeepsUsed M f) {nm : String} {cb : Option Nat} {b : Body} (hm : nm ∈ M) : ∀ b' : Body, (nm, cb, b) ∈ (b'.rename f).rules → ∃ b'', (nm, cb, b'') ∈ b'.rules ∧ b = b''.rename f
  | .text _, hr => by cases hr
  | .rank ls, hr => by simp only [Body.rename, Body.rules] at hr ⊢; exact rename_rulesOf h hm ls hr
theorem rename_rulesOf (h : KeepsUsed M f) {nm : String} {cb : Option Nat} {b : Body} (hm : nm ∈ M) : ∀ ls : List GLine, (nm, cb, b) ∈ rulesOf (renameLines f ls) → ∃ b', (nm, cb, b') ∈ rulesOf ls ∧ b = b'.rename f
  | [], hr => by cases hr
  | l :: ls, hr => by
    simp only [renameLines, rulesOf, List.mem_append] at hr ⊢
    rcases hr with hr | hr
    · obtain ⟨b'', h1, h2⟩ := GLine.rename_rules h hm l hr
      exact ⟨b'', .inl h1, h2⟩
    · obtain ⟨b'', h1, h2⟩ := rename_rulesOf h hm ls hr
      exact ⟨b'', .inr h1, h2⟩
end

end Joeson.RuleText
