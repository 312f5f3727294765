import Verif.Proofs.Same
import Verif.Proofs.Rename
/-! # The order of included rules and the layout of texts do not matter -/

namespace Joeson.RuleText

variable {M : List String} {Q : Nat → Prop} {f : Expr → Expr}

mutual
theorem Body.same_self (cb : Option Nat) : ∀ b : Body, SameRule M Q cb b cb b
  | .text _ => .text rfl
  | .rank ls => .rank (sameLines_self ls)
theorem sameLines_self : ∀ ls : List GLine, SameLines M Q ls ls
  | [] => .nil
  | .alt _ cb b :: ls => .alt (.inl rfl) (b.same_self cb) (sameLines_self ls)
  | .incl _ _ _ :: ls => .left (.right (sameLines_self ls))
end

theorem sameTop_order {L0 : List GLine} : ∀ L L' : List GLine, L.filter GLine.isAlt = L'.filter GLine.isAlt → SameTop L0 Q L L'
  | [], [], _ => .nil
  | .incl _ _ _ :: L, L', h => .left (sameTop_order L L' h)
  | [], .incl _ _ _ :: L', h => .right (sameTop_order [] L' h)
  | .alt nm cb b :: L, .incl _ _ _ :: L', h => .right (sameTop_order (.alt nm cb b :: L) L' h)
  | [], .alt _ _ _ :: L', h => by simp [GLine.isAlt] at h
  | .alt _ _ _ :: L, [], h => by simp [GLine.isAlt] at h
  | .alt nm cb b :: L, .alt nm' cb' b' :: L', h => by
    simp only [List.filter_cons, GLine.isAlt, if_true, List.cons.injEq, GLine.alt.injEq] at h
    obtain ⟨⟨rfl, rfl, rfl⟩, h⟩ := h
    exact .alt (.inl rfl) (b.same_self cb) (sameTop_order L L' h)

theorem rulesOf_mem {x : String × Option Nat × Body} : ∀ L : List GLine, x ∈ rulesOf L ↔ ∃ l ∈ L, x ∈ l.rules
  | [] => by simp [rulesOf]
  | l :: L => by simp [rulesOf, rulesOf_mem L]

theorem mentionsIn_mem {nm : String} : ∀ L : List GLine, nm ∈ mentionsIn L ↔ ∃ l ∈ L, nm ∈ l.mentions
  | [] => by simp [mentionsIn]
  | l :: L => by simp [mentionsIn, mentionsIn_mem L]

/-! ## Layout -/

mutual
theorem Body.same_rewrite (h : ∀ e : Expr, (f e).vp = e.vp) (cb : Option Nat) : ∀ b : Body, SameRule M Q cb b cb (b.rewrite f)
  | .text e => .text (h e).symm
  | .rank ls => .rank (sameLines_rewrite h ls)
theorem sameLines_rewrite (h : ∀ e : Expr, (f e).vp = e.vp) : ∀ ls : List GLine, SameLines M Q ls (rewriteLines f ls)
  | [] => .nil
  | .alt _ cb b :: ls => .alt (.inl rfl) (b.same_rewrite h cb) (sameLines_rewrite h ls)
  | .incl _ _ _ :: ls => .left (.right (sameLines_rewrite h ls))
end

theorem sameTop_rewrite {L0 : List GLine} (h : ∀ e : Expr, (f e).vp = e.vp) : ∀ L : List GLine, SameTop L0 Q L (rewriteLines f L)
  | [] => .nil
  | .alt _ cb b :: ls => .alt (.inl rfl) (b.same_rewrite h cb) (sameTop_rewrite h ls)
  | .incl _ _ _ :: ls => .left (.right (sameTop_rewrite h ls))

mutual
theorem GLine.mentions_rewrite (h : ∀ e : Expr, (f e).vp = e.vp) : ∀ l : GLine, (l.rewrite f).mentions = l.mentions
  | .alt _ _ b => by simp only [GLine.rewrite, GLine.mentions, b.mentions_rewrite h]
  | .incl _ _ b => by simp only [GLine.rewrite, GLine.mentions, b.mentions_rewrite h]
theorem Body.mentions_rewrite (h : ∀ e : Expr, (f e).vp = e.vp) : ∀ b : Body, (b.rewrite f).mentions = b.mentions
  | .text e => by simp only [Body.rewrite, Body.mentions, h]
  | .rank ls => by simp only [Body.rewrite, Body.mentions, mentionsIn_rewrite h ls]
theorem mentionsIn_rewrite (h : ∀ e : Expr, (f e).vp = e.vp) : ∀ L : List GLine, mentionsIn (rewriteLines f L) = mentionsIn L
  | [] => rfl
  | l :: ls => by simp only [rewriteLines, mentionsIn, l.mentions_rewrite h, mentionsIn_rewrite h ls]
end

mutual
theorem GLine.rules_rewrite : ∀ l : GLine, (l.rewrite f).rules = l.rules.map fun x => (x.1, x.2.1, x.2.2.rewrite f)
  | .alt nm _ b => by
    simp only [GLine.rewrite, GLine.rules, b.rules_rewrite, List.map_append]
    split <;> rfl
  | .incl _ _ b => by simp only [GLine.rewrite, GLine.rules, b.rules_rewrite, List.map_cons]
theorem Body.rules_rewrite : ∀ b : Body, (b.rewrite f).rules = b.rules.map fun x => (x.1, x.2.1, x.2.2.rewrite f)
  | .text e => rfl
  | .rank ls => by simp only [Body.rewrite, Body.rules, rulesOf_rewrite ls]
theorem rulesOf_rewrite : ∀ L : List GLine, rulesOf (rewriteLines f L) = (rulesOf L).map fun x => (x.1, x.2.1, x.2.2.rewrite f)
  | [] => rfl
  | l :: ls => by simp only [rewriteLines, rulesOf, l.rules_rewrite, rulesOf_rewrite ls, List.map_append]
end

end Joeson.RuleText
