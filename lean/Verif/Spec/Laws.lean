import Verif.Spec.Lang
/-!
# Laws for rewriting rule texts

On the parsing expressions of `Spec/Lang`. Written from what the operators are documented to mean; nothing of the engine.
-/

namespace Joeson.RuleText

/-- One rewriting, in either direction. -/
inductive Law : Pat → Pat → Prop
  /-- `a | (b | c) | d` and `a | b | c | d` -/
  | altFlat (xs ys zs) : Law (.alt (xs ++ .alt ys :: zs)) (.alt (xs ++ (ys ++ zs)))
  | altOne (p) : Law (.alt [p]) p
  /-- a second time the same alternative -/
  | altAgain (xs p ys zs) : Law (.alt (xs ++ p :: (ys ++ p :: zs))) (.alt (xs ++ p :: (ys ++ zs)))
  /-- `a | b | a c` and `a | b`: what begins with an earlier alternative is never reached -/
  | altHidden (xs p ys q zs) : Law (.alt (xs ++ p :: (ys ++ .seq (p :: q) :: zs))) (.alt (xs ++ p :: (ys ++ zs)))
  /-- `a b | a c` and `a (b | c)`, for any number of alternatives -/
  | factor (p l ls) : Law (.alt ((l :: ls).map fun l => .seq (p :: l))) (.seq [p, .alt ((l :: ls).map .seq)])
  /-- `a (b c) d` and `a b c d` -/
  | seqFlat (xs ys zs) : Law (.seq (xs ++ .seq ys :: zs)) (.seq (xs ++ (ys ++ zs)))
  | seqOne (p) : Law (.seq [p]) p
  | empty : Law (.lit []) (.seq [])
  | litJoin (a b) : Law (.seq [.lit a, .lit b]) (.lit (a ++ b))
  /-- `a?` and `a | ''` -/
  | opt (p) : Law (.opt p) (.alt [p, .seq []])
  /-- `?a` and `!(!a)` -/
  | look (p) : Law (.look p) (.not (.not p))
  /-- `!(a | b)` and `!a !b` -/
  | notAlt (l) : Law (.not (.alt l)) (.seq (l.map .not))
  /-- `a+` and `a a*` -/
  | plus (v) : Law (.rep v none 1 none) (.seq [v, .rep v none 0 none])
  /-- `a*` and `(a+)?`, with or without separators -/
  | star (v sep) : Law (.rep v sep 0 none) (.opt (.rep v sep 1 none))
  /-- `a+b` and `a (b a)*` -/
  | plusSep (v j) : Law (.rep v (some j) 1 none) (.seq [v, .rep (.seq [j, v]) none 0 none])
  /-- `a{3,3}` and `a a a`, for any number from 2 on (`C31_max_one_matches_two`) -/
  | times (v n) : 2 ≤ n → Law (.rep v none n (some n)) (.seq (List.replicate n v))

/-- Any number of rewritings, in both directions and anywhere inside. -/
inductive Rewrites : Pat → Pat → Prop
  | law {p q} : Law p q → Rewrites p q
  | refl (p) : Rewrites p p
  | symm {p q} : Rewrites p q → Rewrites q p
  | trans {p q r} : Rewrites p q → Rewrites q r → Rewrites p r
  | alt {p q} (xs zs) : Rewrites p q → Rewrites (.alt (xs ++ p :: zs)) (.alt (xs ++ q :: zs))
  | seq {p q} (xs zs) : Rewrites p q → Rewrites (.seq (xs ++ p :: zs)) (.seq (xs ++ q :: zs))
  | opt {p q} : Rewrites p q → Rewrites (.opt p) (.opt q)
  | not {p q} : Rewrites p q → Rewrites (.not p) (.not q)
  | look {p q} : Rewrites p q → Rewrites (.look p) (.look q)
  | rep {p q} (sep mn mx) : Rewrites p q → Rewrites (.rep p sep mn mx) (.rep q sep mn mx)
  | sep {p q} (v mn mx) : Rewrites p q → Rewrites (.rep v (some p) mn mx) (.rep v (some q) mn mx)

mutual
/-- The same line, with another text; callbacks do not matter. -/
inductive RewritesLine : GLine → GLine → Prop
  | alt {nm cb cb' b b'} : RewritesBody b b' → RewritesLine (.alt nm cb b) (.alt nm cb' b')
  | incl {nm cb cb' b b'} : RewritesBody b b' → RewritesLine (.incl nm cb b) (.incl nm cb' b')
/-- The same for what a rule is. -/
inductive RewritesBody : Body → Body → Prop
  | text {e e'} : Rewrites e.pat e'.pat → RewritesBody (.text e) (.text e')
  | rank {ls ls'} : RewritesLines ls ls' → RewritesBody (.rank ls) (.rank ls')
/-- The same for lines. -/
inductive RewritesLines : List GLine → List GLine → Prop
  | nil : RewritesLines [] []
  | cons {l l' ls ls'} : RewritesLine l l' → RewritesLines ls ls' → RewritesLines (l :: ls) (l' :: ls')
end

end Joeson.RuleText
