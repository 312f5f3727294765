import Verif.Proofs.Objects
import Verif.Proofs.JoesonG
/-!
# C86: parsers shared by grammars
-/

namespace Joeson

theorem giveParser_ok {h h1 : Marks} {a : Nat} {name : String} {cb : Option Nat} (hg : giveParser h a name cb = .ok h1) :
    h1 = h.set a { h a with name := name, parser := some a, cb := cb } := by
  unfold giveParser at hg
  split at hg <;> cases hg
  rfl

theorem giveParsers_frame : ∀ (l : List (Obj × String × Option Nat)) {h h' : Marks}, giveParsers h l = .ok h' → ∀ b, b ∉ l.map (·.1.addr) → h' b = h b
  | [], h, h', hg, b, _ => by cases hg; rfl
  | (x, name, cb) :: l, h, h', hg, b, hb => by
    simp only [giveParsers, exceptBindOk] at hg
    obtain ⟨h1, h2, h3⟩ := hg
    simp only [List.map_cons, List.mem_cons, not_or] at hb
    rw [giveParsers_frame l h3 b hb.2, giveParser_ok h2, Marks.set_other hb.1]

theorem addr_mem_addrs (x : Obj) : x.addr ∈ x.addrs := by
  cases x
  exact List.mem_cons_self ..

theorem addrs_mem {x : Obj} {l : List Obj} {b : Nat} (hx : x ∈ l) (hb : b ∈ x.addrs) : b ∈ addrsAll l := by
  induction l with
  | nil => cases hx
  | cons y l ih =>
    rw [addrsAll, List.mem_append]
    rcases List.mem_cons.mp hx with rfl | hx
    · exact .inl hb
    · exact .inr (ih hx)

theorem given_mem_addrs {l : List (Obj × String × Option Nat)} {b : Nat} (hb : b ∈ l.map (·.1.addr)) : b ∈ lineAddrs l := by
  obtain ⟨x, hx, rfl⟩ := List.mem_map.mp hb
  exact addrs_mem (List.mem_map_of_mem (f := (·.1)) hx) (addr_mem_addrs x.1)

/-- C86, first part. Building a grammar writes to no object but its own and those of the parsers it is given. So the grammars that were built before are as they
were, if they share no parser with it. -/
theorem C86_others_untouched (gm rank : Nat) (h h' : Marks) (lines : List (Obj × String × Option Nat)) (n : Nat) (hb : buildObj gm rank h lines = .ok (h', n))
    (b : Nat) (hgm : b ≠ gm) (hrank : b ≠ rank) (hl : b ∉ lineAddrs lines) : h' b = h b := by
  simp only [buildObj, exceptBindOk] at hb
  obtain ⟨h1, hg, hc⟩ := hb
  have hnot : b ∉ (Obj.mk gm [.mk rank (lines.map (·.1))]).addrs := by
    simp only [Obj.addrs, addrsAll, List.append_nil, List.mem_cons, not_or]
    exact ⟨hgm, hrank, hl⟩
  rw [connectObj_frame _ hc b hnot, giveParsers_frame lines hg b (fun hm => hl (given_mem_addrs hm)), Marks.set_other hrank, Marks.set_other hgm]

/-- C86, second part is false. A parser of which a part, not a rule itself, belongs to a grammar cannot be used in another: building it panics. -/
theorem C86_part_again_panics (gm rank : Nat) (h : Marks) (lines : List (Obj × String × Option Nat)) (part : Nat) (hp : part ∈ lineAddrs lines)
    (hnot : part ∉ lines.map (·.1.addr)) (hgm : part ≠ gm) (hrank : part ≠ rank) (hrule : h.isRule part = false) (hpar : (h part).parent = true) :
    ∃ e, buildObj gm rank h lines = .error e := by
  cases hb : buildObj gm rank h lines with
  | error e => exact ⟨e, rfl⟩
  | ok r =>
    obtain ⟨h', n⟩ := r
    simp only [buildObj, exceptBindOk] at hb
    obtain ⟨h1, hg, hc⟩ := hb
    have e : h1 part = h part := by rw [giveParsers_frame lines hg part hnot, Marks.set_other hrank, Marks.set_other hgm]
    refine absurd hc (connectObj_marked _ ?_ (by rw [Marks.isRule, e]; exact hrule) (by rw [e]; exact hpar))
    simp only [Obj.addrs, addrsAll, List.append_nil, List.mem_cons]
    exact .inr (.inr hp)

/-- The rank of a grammar that was built is no rule and has a parent. -/
theorem rank_marked {gm rank : Nat} {h h' : Marks} {lines : List (Obj × String × Option Nat)} {n : Nat} (hb : buildObj gm rank h lines = .ok (h', n))
    (hne : gm ≠ rank) (hgm : gm ∉ lineAddrs lines) (hrank : rank ∉ lineAddrs lines) : h'.isRule rank = false ∧ (h' rank).parent = true := by
  simp only [buildObj, exceptBindOk] at hb
  obtain ⟨h1, hg, hc⟩ := hb
  have e1 : h1 gm = {} := by rw [giveParsers_frame lines hg gm (fun hm => hgm (given_mem_addrs hm)), Marks.set_other hne, Marks.set_self]
  have e2 : h1 rank = {} := by rw [giveParsers_frame lines hg rank (fun hm => hrank (given_mem_addrs hm)), Marks.set_self]
  simp only [connectObj, connectObjs, exceptBindOk, exceptPureOk, Prod.exists] at hc
  obtain ⟨h2, hp, h3, n3, ⟨h4, n4, ⟨h5, hp5, h6, n6, hk, he⟩, he2⟩, he3⟩ := hc
  cases he2
  obtain ⟨-, rfl⟩ := connectPre_ok hp
  obtain ⟨-, rfl⟩ := connectPre_ok hp5
  have f6 := connectObjs_frame _ hk rank hrank
  rw [Marks.set_self, Marks.set_other hne.symm, e2] at f6
  simp only [Marks.set_self, e1] at f6
  have e4 : h3 = (connectPost h6 n6 rank).1 := (congrArg Prod.fst he).symm
  have e5 : h' = (connectPost h3 n3 gm).1 := (congrArg Prod.fst he3).symm
  obtain ⟨a1, a2⟩ := connectPost_parent (h := h3) (num := n3) (a := gm) rank
  obtain ⟨b1, b2⟩ := connectPost_parent (h := h6) (num := n6) (a := rank) rank
  constructor
  · rw [Marks.isRule, e5, a2, e4, b2, f6]
    rfl
  · rw [e5, a1, e4, b1, f6]
    rfl

/-- C86, second part is false for grammars. A `Grammar` is a Parser, but one that was built can be used in the lines of no other: building that panics, whatever
the two grammars are. -/
theorem C86_grammar_as_parser_panics (gm rank gm2 rank2 : Nat) (h h' : Marks) (lines lines2 : List (Obj × String × Option Nat)) (n : Nat)
    (hb : buildObj gm rank h lines = .ok (h', n)) (hne : gm ≠ rank) (hgm : gm ∉ lineAddrs lines) (hrank : rank ∉ lineAddrs lines)
    (rules alts : List Obj) (name : String) (cb : Option Nat) (hl : (grammarObj gm rank rules alts, name, cb) ∈ lines2)
    (hnot : rank ∉ lines2.map (·.1.addr)) (h1 : rank ≠ gm2) (h2 : rank ≠ rank2) : ∃ e, buildObj gm2 rank2 h' lines2 = .error e := by
  obtain ⟨hr, hp⟩ := rank_marked hb hne hgm hrank
  refine C86_part_again_panics gm2 rank2 h' lines2 rank (addrs_mem (List.mem_map_of_mem (f := (·.1)) hl) ?_) hnot h1 h2 hr hp
  rw [grammarObj, Obj.addrs, List.mem_cons]
  exact .inr (addrs_mem (List.mem_append_right _ (List.mem_singleton.mpr rfl)) (addr_mem_addrs (.mk rank alts)))

/-- The two buildings of the witness. -/
private def twice : Except Panic (Mark × Nat × Mark × Nat) := do
  let (h1, n1) ← buildObj 1 2 (fun _ => {}) [(.mk 10 [], "A", some 7)]
  let (h2, n2) ← buildObj 3 4 h1 [(.mk 11 [], "X", none), (.mk 10 [], "B", none)]
  return (h1 10, n1, h2 10, n2)

private theorem twice_eq : twice = .ok ({ parent := true, parser := some 10, id := 0, name := "A", cb := some 7 }, 1,
    { parent := true, parser := some 10, id := 1, name := "B", cb := none }, 2) := by kernel_rfl

/-- C86, the first part is false for a parser without parts that is given to two grammars. Both are built. Then the rule of the first has the name, the callback
and the number that it has in the second. Here the number is not even below the number of rules of the first. -/
theorem C86_shared_rule_changed : ∃ h1 h2, buildObj 1 2 (fun _ => {}) [(.mk 10 [], "A", some 7)] = .ok (h1, 1) ∧
    buildObj 3 4 h1 [(.mk 11 [], "X", none), (.mk 10 [], "B", none)] = .ok (h2, 2) ∧
    h1 10 = { parent := true, parser := some 10, id := 0, name := "A", cb := some 7 } ∧ h2 10 = { parent := true, parser := some 10, id := 1, name := "B", cb := none } := by
  have := twice_eq
  simp only [twice, exceptBindOk, exceptPureOk, Prod.exists, Prod.mk.injEq] at this
  obtain ⟨h1, n1, e1, h2, n2, e2, e3, rfl, e4, rfl⟩ := this
  exact ⟨h1, h2, e1, e2, e3, e4⟩

/-! Two rules `10: 11 12` and `13: 14`. Then another grammar; one with the part `12` again; and one with the first grammar as a parser. -/

namespace Sample

private def first : List (Obj × String × Option Nat) := [(.mk 10 [.mk 11 [], .mk 12 []], "A", some 3), (.mk 13 [.mk 14 []], "B", none)]

private def run : Except Panic (Nat × Nat × Bool × Bool) := do
  let (h1, n1) ← buildObj 1 2 (fun _ => {}) first
  let (_, n2) ← buildObj 3 4 h1 [(.mk 20 [.mk 21 []], "C", none)]
  return (n1, n2, h1.isRule 12, (h1 12).parent)

private theorem run_eq : run = .ok (2, 1, false, true) := by kernel_rfl

private theorem run_ok : ∃ h1 h2, buildObj 1 2 (fun _ => {}) first = .ok (h1, 2) ∧ buildObj 3 4 h1 [(.mk 20 [.mk 21 []], "C", none)] = .ok (h2, 1) ∧
    h1.isRule 12 = false ∧ (h1 12).parent = true := by
  have := run_eq
  simp only [run, exceptBindOk, exceptPureOk, Prod.exists, Prod.mk.injEq] at this
  obtain ⟨h1, n1, e1, h2, n2, e2, rfl, rfl, e3, e4⟩ := this
  exact ⟨h1, h2, e1, e2, e3, e4⟩

example : ∃ h1 h2, buildObj 1 2 (fun _ => {}) first = .ok (h1, 2) ∧ buildObj 3 4 h1 [(.mk 20 [.mk 21 []], "C", none)] = .ok (h2, 1) ∧ ∀ b ∈ 1 :: 2 :: lineAddrs first, h2 b = h1 b := by
  obtain ⟨h1, h2, e1, e2, -, -⟩ := run_ok
  refine ⟨h1, h2, e1, e2, fun b hb => C86_others_untouched 3 4 h1 h2 _ 1 e2 b ?_ ?_ ?_⟩ <;>
    · revert b
      decide

example : ∃ h1, buildObj 1 2 (fun _ => {}) first = .ok (h1, 2) ∧ ∃ e, buildObj 3 4 h1 [(.mk 20 [.mk 12 []], "C", none)] = .error e := by
  obtain ⟨h1, h2, e1, -, e3, e4⟩ := run_ok
  exact ⟨h1, e1, C86_part_again_panics 3 4 h1 _ 12 (by decide) (by decide) (by decide) (by decide) e3 e4⟩

example : ∃ h1, buildObj 1 2 (fun _ => {}) first = .ok (h1, 2) ∧
    ∃ e, buildObj 3 4 h1 [(grammarObj 1 2 (first.map (·.1)) (first.map (·.1)), "C", none)] = .error e := by
  obtain ⟨h1, h2, e1, -, -, -⟩ := run_ok
  exact ⟨h1, e1, C86_grammar_as_parser_panics 1 2 3 4 _ _ first _ 2 e1 (by decide) (by decide) (by decide) _ _ "C" none (List.mem_singleton.mpr rfl) (by decide)
    (by decide) (by decide)⟩

end Sample
end Joeson
