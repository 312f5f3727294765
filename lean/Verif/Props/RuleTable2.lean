import Verif.Props.RuleTable
import Verif.Props.Colors
/-!
# C79: the type and the content of a row
-/

namespace Joeson
open Spec

/-- What the column of the type should show. -/
inductive TypeShown : Node → Bytes → Prop
  | str (i s) : TypeShown (.str i s) (asc "joeson.str")
  | regex (i re) : TypeShown (.regex i re) (asc "*joeson.regex")
  /-- alternatives that are rules -/
  | rank (i alts) : (∀ a ∈ alts, ∃ id, a = .rule id) → TypeShown (.choice i alts) (asc "*joeson.rank")
  | choice (i alts a) : a ∈ alts → (∀ id, a ≠ .rule id) → TypeShown (.choice i alts) (asc "*joeson.choice")
  | seq (i r l) : TypeShown (.seq i r l) (asc "*joeson.sequence")
  | exist (i x) : TypeShown (.exist i x) (asc "*joeson.existential")
  | look (i x) : TypeShown (.look i x) (asc "*joeson.lookahead")
  | not (i x) : TypeShown (.not i x) (asc "*joeson.not")
  | pattern (i v j mn mx) : TypeShown (.pattern i v j mn mx) (asc "*joeson.pattern")
  | ref (i nm) : TypeShown (.ref i nm) (asc "*joeson.ref")

theorem ruleIds_eq_map : ∀ {alts : List Node} {ids : List Nat}, ruleIds alts = some ids → alts = ids.map .rule
  | [], ids, h => by cases h; rfl
  | a :: l, ids, h => by
    cases a with
    | rule id =>
      rw [ruleIds] at h
      cases hl : ruleIds l with
      | none => rw [hl] at h; cases h
      | some is =>
        rw [hl] at h
        cases h
        rw [List.map_cons, ← ruleIds_eq_map hl]
    | _ => cases h

theorem ruleIds_other : ∀ {alts : List Node}, ruleIds alts = none → ∃ a ∈ alts, ∀ id, a ≠ .rule id
  | a :: l, h => by
    cases a with
    | rule id =>
      rw [ruleIds, Option.map_eq_none_iff] at h
      obtain ⟨a, ha, hn⟩ := ruleIds_other h
      exact ⟨a, List.mem_cons_of_mem _ ha, hn⟩
    | _ => exact ⟨_, List.mem_cons_self .., fun id e => by cases e⟩

/-- C79: the column of the type tells what kind of parser the rule is. -/
theorem C79_type {src : Regex → Bytes} {parent : Nat → ParentOf} {lookup : String → Option Nat} {rules : List Node} {id : Nat} {n : Node} {r : Row}
    (h : RowOf src parent lookup rules id n r) (hn : ∀ id, n ≠ .rule id) : TypeShown n r.type := by
  rw [h.type]
  cases n with
  | choice i alts =>
    unfold Node.goType
    cases ha : ruleIds alts with
    | some ids =>
      simp only [ha]
      refine .rank i alts fun a hm => ?_
      rw [ruleIds_eq_map ha, List.mem_map] at hm
      obtain ⟨id, _, rfl⟩ := hm
      exact ⟨id, rfl⟩
    | none =>
      simp only [ha]
      obtain ⟨a, hm, hx⟩ := ruleIds_other ha
      exact .choice i alts a hm hx
  | rule id => exact absurd rfl (hn id)
  | str => exact .str _ _
  | regex => exact .regex _ _
  | seq => exact .seq _ _ _
  | exist => exact .exist _ _
  | look => exact .look _ _
  | not => exact .not _ _
  | pattern => exact .pattern _ _ _ _ _
  | ref => exact .ref _ _

theorem coloured_ruleNames (nm : Nat → String) : ∀ ids : List Nat,
    Coloured (joinWith (blue (asc ",")) (ids.map fun id => red (asc (nm id)))) ([0x2C].intercalate (ids.map fun id => asc (nm id)))
  | [] => .nil
  | [id] => by
    have : [0x2C].intercalate ([id].map fun id => asc (nm id)) = asc (nm id) := by simp [List.intercalate]
    rw [this]
    exact C55_colours red (by simp) (.plain _)
  | id :: j :: l => by
    have e : [0x2C].intercalate ((id :: j :: l).map fun id => asc (nm id)) =
        asc (nm id) ++ asc "," ++ [0x2C].intercalate ((j :: l).map fun id => asc (nm id)) := by
      simp [List.intercalate, List.intersperse, show asc "," = [0x2C] by decide]
    rw [e]
    exact ((C55_colours red (by simp) (.plain _)).append (C55_colours blue (by simp) (.plain _))).append (coloured_ruleNames nm (j :: l))

/-- C79: the content of a rank is the list of the names of its rules, in order. -/
theorem C79_rank {src : Regex → Bytes} {parent : Nat → ParentOf} {lookup : String → Option Nat} {rules : List Node} {id : Nat} {i : Info}
    {ids : List Nat} {r : Row} (h : RowOf src parent lookup rules id (.choice i (ids.map .rule)) r)
    (hn : NoEscapes (asc "Rank(" ++ [0x2C].intercalate (ids.map fun id => asc (((rules[id]?).map fun n => n.info.name).getD "")) ++ asc ")")) :
    stripAnsi r.content = asc "Rank(" ++ [0x2C].intercalate (ids.map fun id => asc (((rules[id]?).map fun n => n.info.name).getD "")) ++ asc ")" := by
  have hi : ∀ l : List Nat, ruleIds (l.map .rule) = some l := by
    intro l
    induction l with
    | nil => rfl
    | cons a l ih => rw [List.map_cons, ruleIds, ih]; rfl
  rw [h.content, Node.body, hi]
  dsimp only
  exact C55_stripAnsi_partial (((C55_colours blue (by simp) (.plain _)).append (coloured_ruleNames _ ids)).append (C55_colours blue (by simp) (.plain _))) hn

/-- C79: the lines above the rows: the name and the text of the grammar, the number of rules, and the heads of the columns. The heads begin one place to
the left of the columns. -/
theorem C79_head {src : Regex → Bytes} {parent : Nat → ParentOf} {lookup : String → Option Nat} {rules : List Node} {name : String}
    {self out : Bytes} (h : printRules src parent lookup rules name self = .ok out) :
    ∃ first heads rest, out = first ++ [0x0A] ++ (asc "| name         : " ++ bold (asc name)) ++ [0x0A] ++ (asc "| contentString: " ++ self) ++ [0x0A] ++
        (asc "| rules        : " ++ itoa rules.length) ++ [0x0A] ++ asc "| " ++ [0x0A] ++ (heads ++ rest) ∧ (0x0A : UInt8) ∉ first ∧
      (rules = [] → heads ++ rest = []) ∧
      (rules ≠ [] → (0x0A : UInt8) ∉ heads ∧ rest.head? = some 0x0A ∧
        readCells [14, 3, 20, 3, 7, 21, 16] (heads.drop 3) =
          [asc "key/name", asc "id", asc "type", asc "cap", asc "label", asc "labels()", asc "parent.name", asc "contentString"]) := by
  have hnl : asc "\n" = [0x0A] := by decide
  have h0 : asc "+--------------- Grammar.Debug() ----------------------------------\n" =
    asc "+--------------- Grammar.Debug() ----------------------------------" ++ [0x0A] := by decide
  have h4 : asc "| \n" = asc "| " ++ [0x0A] := by decide
  unfold printRules at h
  by_cases hr : rules = []
  · rw [if_pos (by rw [hr]; rfl)] at h
    cases h
    refine ⟨asc "+--------------- Grammar.Debug() ----------------------------------", [], [], ?_, by decide, fun _ => rfl, fun e => absurd hr e⟩
    rw [h0, h4, hnl]
    simp only [List.append_assoc, List.append_nil]
  · rw [if_neg (by simpa using hr)] at h
    cases hrr : ruleRows src parent lookup rules 0 rules with
    | error e => rw [hrr] at h; cases h
    | ok rows =>
      rw [hrr] at h
      cases h
      have hh : rowsHead = rowsHead.take 124 ++ ([0x0A] ++ asc "|   -------------------------------------------------------------------------------------" ++ [0x0A]) := by
        decide +kernel
      refine ⟨asc "+--------------- Grammar.Debug() ----------------------------------", rowsHead.take 124,
        [0x0A] ++ asc "|   -------------------------------------------------------------------------------------" ++ [0x0A] ++ (rows.flatMap Row.print ++ asc "| \n"),
        ?_, by decide, fun e => absurd e hr, fun _ => ⟨by decide +kernel, rfl, by decide +kernel⟩⟩
      conv_lhs => rw [hh]
      rw [h0, h4, hnl]
      simp only [List.append_assoc]

/-- C79: the text of the grammar itself is the same list, in braces. -/
theorem C79_grammar_text (src : Regex → Bytes) (g : Grammar) {i : Info} (hi : i.label = "") {ids : List Nat}
    (hg : g.root = .choice i (ids.map .rule))
    (hn : NoEscapes (asc "GRAMMAR{" ++ (asc "Rank(" ++ [0x2C].intercalate (ids.map fun id => asc (g.nameOfRule id)) ++ asc ")") ++ asc "}")) :
    stripAnsi (g.string src) =
      asc "GRAMMAR{" ++ (asc "Rank(" ++ [0x2C].intercalate (ids.map fun id => asc (g.nameOfRule id)) ++ asc ")") ++ asc "}" := by
  have hl : ∀ l : List Nat, ruleIds (l.map .rule) = some l := by
    intro l
    induction l with
    | nil => rfl
    | cons a l ih => rw [List.map_cons, ruleIds, ih]; rfl
  have hp : labelPrefix (Node.choice i (ids.map .rule)).info = [] := if_neg (fun h => h hi)
  rw [Grammar.string, Node.string, hg, hp, Node.body, hl, List.nil_append]
  dsimp only
  exact C55_stripAnsi_partial (((C55_colours magenta (by simp) (.plain _)).append
    (((C55_colours blue (by simp) (.plain _)).append (coloured_ruleNames _ ids)).append (C55_colours blue (by simp) (.plain _)))).append
    (C55_colours magenta (by simp) (.plain _))) hn

namespace Sample

/-- `S` with the alternatives `A` and `B`, `A: 'x'*','`, `B: [A & 'y' | 'z']`. -/
def rankRules : List Node :=
  [.choice { name := "S" } [.rule 1, .rule 2], .pattern { name := "A" } (.str {} (asc "x")) (some (.str {} (asc ","))) (-1) 3,
    .choice { name := "B" } [.seq {} .single [.look {} (.ref {} "A"), .not {} (.str {} (asc "y"))], .exist {} (.str {} (asc "z"))]]

end Sample

open Sample in
/-- The whole table. -/
example : (match printRules (fun _ => []) (fun _ => .none) (fun s => if s = "A" then some 1 else none) rankRules "G" (asc "G") with
    | .ok out => (readTable out).map fun row => row.map stripAnsi
    | .error _ => []) =
      [[asc "S", asc "0", asc "*joeson.rank", asc "y", [], [], asc "-", asc "Rank(A,B)"],
       [asc "A", asc "1", asc "*joeson.pattern", asc "y", [], [], asc "-", asc "'x'*','{,3}"],
       [asc "B", asc "2", asc "*joeson.choice", asc "y", [], [], asc "-", asc "(((?A) !'y') | 'z'?)"]] := by
  decide +kernel

open Sample in
example : ∃ r, RowOf (fun _ => []) (fun _ => .none) (fun _ => none) rankRules 0 (.choice { name := "S" } ([1, 2].map .rule)) r ∧
    NoEscapes (asc "Rank(" ++ [0x2C].intercalate ([1, 2].map fun id => asc (((rankRules[id]?).map fun n => n.info.name).getD "")) ++ asc ")") := by
  cases hr : ruleRows (fun _ => []) (fun _ => .none) (fun _ => none) rankRules 0 [.choice { name := "S" } ([1, 2].map .rule)] with
  | error e => exact absurd hr (by unfold ruleRows; intro h; cases h)
  | ok rows =>
    obtain ⟨h1, h2⟩ := ruleRows_sound _ _ _ hr
    cases rows with
    | nil => cases h1
    | cons r l => exact ⟨r, h2 0 _ r rfl rfl, by decide, by decide, by decide⟩

open Sample in
example : stripAnsi (Grammar.string (fun _ => []) ⟨rankRules, fun _ => none, .choice {} [.rule 0, .rule 2]⟩) = asc "GRAMMAR{Rank(S,B)}" := by
  decide +kernel

open Sample in
example : (match printRules (fun _ => []) (fun _ => .none) (fun s => if s = "A" then some 1 else none) rankRules "G" (asc "G") with
    | .ok out => ((out.splitOn 0x0A).take 5).map stripAnsi
    | .error _ => []) = [asc "+--------------- Grammar.Debug() ----------------------------------", asc "| name         : G", asc "| contentString: G",
      asc "| rules        : 3", asc "| "] := by
  decide +kernel

end Joeson
