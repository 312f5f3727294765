import Verif.Model.Joeson
/-!
# C30: merging an object into a parser
-/

namespace Joeson

/-- The label that a list of properties gives, if it gives nothing but labels. -/
def Spec.labelOf : List (String × JVal) → String → Option String
  | [], old => some old
  | (k, v) :: l, _ => if k ≠ "label" then none else match v with
    | .str b => Spec.labelOf l (nameOf b)
    | _ => none

/-- C30: an object merged into a parser (`merge` of parser_sequence.go) only ever sets the label of the parser. Any
other property, and a label that is not a string, panics; without properties the parser stays as it is. -/
theorem C30_merge_into_parser (kvs : List (String × JVal)) (n : Node) :
    JVal.merge (.parser n) (.map kvs) = match Spec.labelOf kvs n.info.label with
      | some l => .ok (.parser (n.setInfo fun i => { i with label := l }))
      | none => .error .assertion := by
  unfold JVal.merge
  dsimp only
  have hset : ∀ (m : Node), m.setInfo (fun i => { i with label := m.info.label }) = m := by intro m; cases m <;> rfl
  have hset2 : ∀ (m : Node) (a b : String), (m.setInfo fun i => { i with label := a }).setInfo (fun i => { i with label := b }) =
      m.setInfo fun i => { i with label := b } := by intro m a b; cases m <;> rfl
  have key : ∀ (kvs : List (String × JVal)) (l : String),
      (kvs.foldlM (fun n p => if p.1 = "label" then
          (match p.2 with
            | .str b => (.ok (n.setInfo fun i => { i with label := nameOf b }) : Except Panic Node)
            | _ => .error .assertion)
        else .error .assertion) (n.setInfo fun i => { i with label := l })) = match Spec.labelOf kvs l with
      | some l => .ok (n.setInfo fun i => { i with label := l })
      | none => .error .assertion := by
    intro kvs
    induction kvs with
    | nil => intro l; rfl
    | cons p kvs ih =>
      intro l
      obtain ⟨k, v⟩ := p
      rw [List.foldlM_cons]
      dsimp only
      unfold Spec.labelOf
      by_cases hk : k = "label"
      · subst hk
        rw [if_pos rfl, if_neg (by simp)]
        cases v <;> first | rfl | skip
        dsimp only
        rw [hset2]
        exact ih _
      · rw [if_neg hk, if_pos hk]
        rfl
  have := key kvs n.info.label
  rw [hset] at this
  refine (congrArg (· >>= fun n => pure (JVal.parser n)) this).trans ?_
  cases Spec.labelOf kvs n.info.label <;> rfl

/-- `label` is set, `inlineLabel` is not a property of parsers. -/
example : Spec.labelOf [("label", .str [97])] "" = some (nameOf [97]) ∧
    Spec.labelOf [("label", .str [97]), ("inlineLabel", .str [98])] "" = none := ⟨rfl, rfl⟩

end Joeson
