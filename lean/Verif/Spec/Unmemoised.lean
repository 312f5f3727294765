import Verif.Model.Engine
/-! # Rules that begin with themselves and are not memoised -/

namespace Joeson

/-- `Leads g S n`: the first thing that `n` tries, before any text is looked at, is one of the rules of `S`. -/
inductive Leads (g : Grammar) (S : Nat → Prop) : Node → Prop
  | rule {id} : S id → Leads g S (.rule id)
  | ref {i nm id} : g.lookup nm = some id → S id → Leads g S (.ref i nm)
  | choice {i c l} : Leads g S c → Leads g S (.choice i (c :: l))
  | seq {i r c l} : Leads g S c → Leads g S (.seq i r (c :: l))
  | exist {i n} : Leads g S n → Leads g S (.exist i n)
  | look {i n} : Leads g S n → Leads g S (.look i n)
  | not {i n} : Leads g S n → Leads g S (.not i n)
  | pattern {i n j mn mx} : Leads g S n → Leads g S (.pattern i n j mn mx)

/-- The rules of `S` are not memoised (`SkipCache`), and each begins with one of them. -/
def Grammar.Endless (g : Grammar) (S : Nat → Prop) : Prop :=
  ∀ id, S id → ∃ body, g.rules[id]? = some body ∧ body.info.skipCache = true ∧ Leads g S body

end Joeson
