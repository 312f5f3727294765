import Verif.Model.BuildCost
import Verif.Spec.BuildCost
import Verif.Proofs.Lang5
import Mathlib.Tactic.Linarith
/-! # Counting the visits -/

namespace Joeson

theorem Node.Plain.kids {n : Node} (h : n.Plain) : ∀ c ∈ n.kids, c.Plain := by
  cases h with
  | choice h _ => exact h
  | seq h => exact h
  | exist h => simpa [Node.kids] using h
  | look h => simpa [Node.kids] using h
  | not h => simpa [Node.kids] using h
  | pattern h hj =>
    intro c hc
    simp only [Node.kids, List.mem_cons, Option.mem_toList] at hc
    rcases hc with rfl | hc
    · exact h
    · exact hj c hc
  | _ => simp [Node.kids]

theorem walkMonoVisits_plain (k : Nat) {n : Node} (h : n.Plain) : walkMonoVisits (k + 1) n = 1 + 2 * (n.kids.map (walkMonoVisits k)).sum := by
  have h1 : n.mapKids (fun c => (c.mono).getD (walkMono k c)) = n :=
    Node.mapKids_id h fun c hc => by rw [hc.mono]; exact walkMono_plain k hc
  have h2 : n.kids.map (fun c => if c.mono.isSome then 0 else walkMonoVisits k c) = n.kids.map (walkMonoVisits k) :=
    List.map_congr_left fun c hc => by rw [(h.kids c hc).mono]; simp
  rw [walkMonoVisits, h1, h2]
  omega

theorem Rules.Plain.kids {x : Rules} (h : x.Plain) : ∀ c ∈ x.kids, c.Plain := by
  cases h with
  | leaf _ _ => simp [Rules.kids]
  | rank h1 h2 _ _ _ =>
    intro c hc
    rcases List.mem_append.mp hc with hc | hc
    · exact h1 c hc
    · exact h2 c hc

theorem walkMonoRulesVisits_plain (k : Nat) {a r i incl alts} (h : (Rules.rank a r i incl alts).Plain) :
    walkMonoRulesVisits (k + 1) (.rank a r i incl alts) = 1 + 2 * ((incl.map (walkMonoRulesVisits k)).sum + (alts.map (walkMonoRulesVisits k)).sum) := by
  have h1 : (Rules.rank a r i incl alts).mapKids (fun c => (c.mono).getD (walkMonoRules k c)) = .rank a r i incl alts :=
    Rules.mapKids_id h fun c hc => by rw [hc.mono]; exact walkMonoRules_plain k hc
  have h2 : (Rules.rank a r i incl alts).kids.map (fun c => if c.mono.isSome then 0 else walkMonoRulesVisits k c) =
      (Rules.rank a r i incl alts).kids.map (walkMonoRulesVisits k) :=
    List.map_congr_left fun c hc => by rw [(h.kids c hc).mono]; simp
  rw [walkMonoRulesVisits, h1, h2]
  · simp only [Rules.kids, List.map_append, List.sum_append]
    omega
  · intro a r n h; cases h

namespace RuleText

mutual
theorem like_visits {b : Bool} : ∀ {n : Node} {p : Pat}, Like b n p → n.Plain → ∀ k, n.depth < k → walkMonoVisits k n = p.visits
  | _, _, .str _, hp, k + 1, _ => by rw [walkMonoVisits_plain k hp]; rfl
  | _, _, .regex _, hp, k + 1, _ => by rw [walkMonoVisits_plain k hp]; rfl
  | _, _, .ref _, hp, k + 1, _ => by rw [walkMonoVisits_plain k hp]; rfl
  | _, _, .choice _ h, hp, k + 1, hk => by
    rw [walkMonoVisits_plain k hp, Pat.visits]
    rw [Node.depth] at hk
    rw [show (Node.choice _ _).kids = _ from Node.kids.eq_1 .., likes_visits h hp.kids k (by omega)]
  | _, _, .seq _ _ h, hp, k + 1, hk => by
    rw [walkMonoVisits_plain k hp, Pat.visits]
    rw [Node.depth] at hk
    rw [show (Node.seq _ _ _).kids = _ from Node.kids.eq_2 .., likes_visits h hp.kids k (by omega)]
  | _, _, .exist _ h, hp, k + 1, hk => by
    rw [walkMonoVisits_plain k hp, Pat.visits]
    rw [Node.depth] at hk
    simp only [Node.kids, List.map_cons, List.map_nil, List.sum_cons, List.sum_nil, like_visits h (hp.kids _ (by simp [Node.kids])) k (by omega)]
    rfl
  | _, _, .look _ h, hp, k + 1, hk => by
    rw [walkMonoVisits_plain k hp, Pat.visits]
    rw [Node.depth] at hk
    simp only [Node.kids, List.map_cons, List.map_nil, List.sum_cons, List.sum_nil, like_visits h (hp.kids _ (by simp [Node.kids])) k (by omega)]
    rfl
  | _, _, .not _ h, hp, k + 1, hk => by
    rw [walkMonoVisits_plain k hp, Pat.visits]
    rw [Node.depth] at hk
    simp only [Node.kids, List.map_cons, List.map_nil, List.sum_cons, List.sum_nil, like_visits h (hp.kids _ (by simp [Node.kids])) k (by omega)]
    rfl
  | _, _, .pattern _ h .none _ _, hp, k + 1, hk => by
    rw [walkMonoVisits_plain k hp, Pat.visits]
    rw [Node.depth] at hk
    simp only [Node.kids, Option.toList, List.map_cons, List.map_nil, List.sum_cons, List.sum_nil, Pat.visitsOpt,
      like_visits h (hp.kids _ (by simp [Node.kids])) k (by omega)]
  | _, _, .pattern _ h (.some hj) _ _, hp, k + 1, hk => by
    rw [walkMonoVisits_plain k hp, Pat.visits]
    rw [Node.depth] at hk
    simp only [Node.kids, Option.toList, List.map_cons, List.map_nil, List.sum_cons, List.sum_nil, Pat.visitsOpt,
      like_visits h (hp.kids _ (by simp [Node.kids])) k (by omega), like_visits hj (hp.kids _ (by simp [Node.kids])) k (by omega), Nat.add_zero]
theorem likes_visits {b : Bool} : ∀ {l : List Node} {ps : List Pat}, Likes b l ps → (∀ n ∈ l, n.Plain) → ∀ k, Node.depthList l < k →
    (l.map (walkMonoVisits k)).sum = Pat.visitsAll ps
  | _, _, .nil, _, _, _ => rfl
  | _, _, .cons h hs, hp, k, hk => by
    rw [Node.depthList] at hk
    rw [List.map_cons, List.sum_cons, Pat.visitsAll, like_visits h (hp _ (List.mem_cons_self ..)) k (by omega),
      likes_visits hs (fun n hn => hp n (List.mem_cons_of_mem _ hn)) k (by omega)]
end

mutual
theorem tree_visits {b : Bool} : ∀ (y : Body) {x : Rules}, TreeB b y x → ∀ k, x.depth < k → walkMonoRulesVisits k x = y.visits
  | .text e, x, h, k + 1, _ => by
    obtain ⟨a, n, rfl, hl, hp, hd⟩ := h
    rw [walkMonoRulesVisits, Body.visits, like_visits hl hp _ (Nat.lt_succ_self _)]
  | .rank ls, x, h, k + 1, hk => by
    have hp := (tree_plain _ h).1
    simp only [TreeB] at h
    obtain ⟨a, i, incl, alts, rfl, h1, h2, h3, h4⟩ := h
    rw [Rules.depth] at hk
    rw [walkMonoRulesVisits_plain k hp, Body.visits, lines_visits ls h3 h4 k (by omega) (by omega)]
theorem lines_visits {b : Bool} : ∀ (ls : List GLine) {incl alts : List Rules}, TreeI b ls incl → TreeA b ls alts → ∀ k, Rules.depthList incl < k →
    Rules.depthList alts < k → (incl.map (walkMonoRulesVisits k)).sum + (alts.map (walkMonoRulesVisits k)).sum = visitsLines ls
  | [], _, _, h1, h2, k, _, _ => by cases h1; cases h2; rfl
  | .alt nm cb y :: ls, incl, alts, h1, h2, k, hk1, hk2 => by
    simp only [TreeI] at h1
    simp only [TreeA] at h2
    obtain ⟨x, l', rfl, hn, ht, h'⟩ := h2
    rw [Rules.depthList] at hk2
    have e1 := tree_visits y ht k (by omega)
    have e2 := lines_visits ls h1 h' k hk1 (by omega)
    rw [visitsLines, GLine.visits, List.map_cons, List.sum_cons, e1, ← e2]
    omega
  | .incl nm cb y :: ls, incl, alts, h1, h2, k, hk1, hk2 => by
    simp only [TreeI] at h1
    simp only [TreeA] at h2
    obtain ⟨x, l', rfl, hn, ht, h'⟩ := h1
    rw [Rules.depthList] at hk1
    have e1 := tree_visits y ht k (by omega)
    have e2 := lines_visits ls h' h2 k (by omega) hk2
    rw [visitsLines, GLine.visits, List.map_cons, List.sum_cons, e1, ← e2]
    omega
end

/-! ## How large that is -/

mutual
theorem visits_ge : ∀ p : Pat, 2 ^ p.deep ≤ p.visits + 1
  | .lit _ => by simp [Pat.deep, Pat.visits]
  | .re _ => by simp [Pat.deep, Pat.visits]
  | .name _ => by simp [Pat.deep, Pat.visits]
  | .seq l => by
    have := visitsAll_ge l
    rw [Pat.deep, Pat.visits, Nat.pow_add]; omega
  | .alt l => by
    have := visitsAll_ge l
    rw [Pat.deep, Pat.visits, Nat.pow_add]; omega
  | .opt p => by have := visits_ge p; rw [Pat.deep, Pat.visits, Nat.pow_add]; omega
  | .not p => by have := visits_ge p; rw [Pat.deep, Pat.visits, Nat.pow_add]; omega
  | .look p => by have := visits_ge p; rw [Pat.deep, Pat.visits, Nat.pow_add]; omega
  | .rep v none _ _ => by
    have := visits_ge v
    simp only [Pat.deep, Pat.visits, Pat.deepOpt, Pat.visitsOpt, Nat.pow_add, Nat.max_zero]; omega
  | .rep v (some p) _ _ => by
    have h1 := visits_ge v
    have h2 := visits_ge p
    simp only [Pat.deep, Pat.visits, Pat.deepOpt, Pat.visitsOpt, Nat.pow_add]
    rcases Nat.le_total v.deep p.deep with h | h
    · rw [Nat.max_eq_right h]; omega
    · rw [Nat.max_eq_left h]; omega
theorem visitsAll_ge : ∀ l : List Pat, 2 ^ Pat.deepAll l ≤ 1 + Pat.visitsAll l
  | [] => by simp [Pat.deepAll, Pat.visitsAll]
  | p :: l => by
    have h1 := visits_ge p
    have h2 := visitsAll_ge l
    simp only [Pat.deepAll, Pat.visitsAll]
    rcases Nat.le_total p.deep (Pat.deepAll l) with h | h
    · rw [Nat.max_eq_right h]; omega
    · rw [Nat.max_eq_left h]; omega
end

mutual
theorem visits_le : ∀ p : Pat, ∀ d, p.deep ≤ d → p.visits ≤ p.size * 2 ^ d
  | .lit _, d, _ => by simp only [Pat.visits, Pat.size, Nat.one_mul]; exact Nat.one_le_two_pow
  | .re _, d, _ => by simp only [Pat.visits, Pat.size, Nat.one_mul]; exact Nat.one_le_two_pow
  | .name _, d, _ => by simp only [Pat.visits, Pat.size, Nat.one_mul]; exact Nat.one_le_two_pow
  | .seq l, d, h => by
    rw [Pat.deep] at h
    obtain ⟨d, rfl⟩ : ∃ e, d = e + 1 := ⟨d - 1, by omega⟩
    have h1 := visitsAll_le l d (by omega)
    have h2 := @Nat.one_le_two_pow (d + 1)
    rw [Pat.visits, Pat.size, Nat.add_mul, Nat.pow_succ] ; rw [Nat.pow_succ] at h2; nlinarith
  | .alt l, d, h => by
    rw [Pat.deep] at h
    obtain ⟨d, rfl⟩ : ∃ e, d = e + 1 := ⟨d - 1, by omega⟩
    have h1 := visitsAll_le l d (by omega)
    have h2 := @Nat.one_le_two_pow (d + 1)
    rw [Pat.visits, Pat.size, Nat.add_mul, Nat.pow_succ] ; rw [Nat.pow_succ] at h2; nlinarith
  | .opt p, d, h => by
    rw [Pat.deep] at h
    obtain ⟨d, rfl⟩ : ∃ e, d = e + 1 := ⟨d - 1, by omega⟩
    have h1 := visits_le p d (by omega)
    have h2 := @Nat.one_le_two_pow (d + 1)
    rw [Pat.visits, Pat.size, Nat.add_mul, Nat.pow_succ] ; rw [Nat.pow_succ] at h2; nlinarith
  | .not p, d, h => by
    rw [Pat.deep] at h
    obtain ⟨d, rfl⟩ : ∃ e, d = e + 1 := ⟨d - 1, by omega⟩
    have h1 := visits_le p d (by omega)
    have h2 := @Nat.one_le_two_pow (d + 1)
    rw [Pat.visits, Pat.size, Nat.add_mul, Nat.pow_succ] ; rw [Nat.pow_succ] at h2; nlinarith
  | .look p, d, h => by
    rw [Pat.deep] at h
    obtain ⟨d, rfl⟩ : ∃ e, d = e + 1 := ⟨d - 1, by omega⟩
    have h1 := visits_le p d (by omega)
    have h2 := @Nat.one_le_two_pow (d + 1)
    rw [Pat.visits, Pat.size, Nat.add_mul, Nat.pow_succ] ; rw [Nat.pow_succ] at h2; nlinarith
  | .rep v none _ _, d, h => by
    rw [Pat.deep] at h
    obtain ⟨d, rfl⟩ : ∃ e, d = e + 1 := ⟨d - 1, by omega⟩
    have h1 := visits_le v d (by omega)
    have h2 := @Nat.one_le_two_pow (d + 1)
    simp only [Pat.visits, Pat.size, Pat.visitsOpt, Pat.sizeOpt]
    rw [Nat.add_mul, Nat.pow_succ]; rw [Nat.pow_succ] at h2; nlinarith
  | .rep v (some p) _ _, d, h => by
    rw [Pat.deep, Pat.deepOpt] at h
    obtain ⟨d, rfl⟩ : ∃ e, d = e + 1 := ⟨d - 1, by omega⟩
    have h1 := visits_le v d (by omega)
    have h3 := visits_le p d (by omega)
    have h2 := @Nat.one_le_two_pow (d + 1)
    simp only [Pat.visits, Pat.size, Pat.visitsOpt, Pat.sizeOpt]
    rw [Nat.add_mul, Nat.pow_succ]; rw [Nat.pow_succ] at h2; nlinarith
theorem visitsAll_le : ∀ l : List Pat, ∀ d, Pat.deepAll l ≤ d → Pat.visitsAll l ≤ Pat.sizeAll l * 2 ^ d
  | [], d, _ => by simp [Pat.visitsAll]
  | p :: l, d, h => by
    rw [Pat.deepAll] at h
    have h1 := visits_le p d (by omega)
    have h2 := visitsAll_le l d (by omega)
    rw [Pat.visitsAll, Pat.sizeAll, Nat.add_mul]; omega
end

end RuleText
end Joeson
