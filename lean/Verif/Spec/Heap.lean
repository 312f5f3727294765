import Verif.Model.Heap
/-!
# Reading a value out of the store
-/

namespace Joeson.Spec
open Joeson

mutual
/-- Read in store `h`, the value is the given tree; no cell in `P` is looked at. -/
inductive ReadsAs (P : Nat → Prop) (h : Store) : Val → Ast → Prop
  | undef : ReadsAs P h .undef .undef
  | str {s} : ReadsAs P h (.str s) (.str s)
  | int {n} : ReadsAs P h (.int n) (.int n)
  | error {m} : ReadsAs P h (.error m) (.error m)
  | arr {l l'} : ReadsAsList P h l l' → ReadsAs P h (.arr l) (.arr l')
  | user {t l l'} : ReadsAsList P h l l' → ReadsAs P h (.user t l) (.user t l')
  | ref {a kvs} : a < h.next → ¬ P a → ReadsAsMap P h (h.cells a) kvs → ReadsAs P h (.ref a) (.map kvs)
/-- Element by element. -/
inductive ReadsAsList (P : Nat → Prop) (h : Store) : List Val → List Ast → Prop
  | nil : ReadsAsList P h [] []
  | cons {v t l l'} : ReadsAs P h v t → ReadsAsList P h l l' → ReadsAsList P h (v :: l) (t :: l')
/-- Entry by entry. -/
inductive ReadsAsMap (P : Nat → Prop) (h : Store) : List (String × Val) → List (String × Ast) → Prop
  | nil : ReadsAsMap P h [] []
  | cons {k v t l l'} : ReadsAs P h v t → ReadsAsMap P h l l' → ReadsAsMap P h ((k, v) :: l) ((k, t) :: l')
end

/-- Read in store `h`, the value is the given tree. -/
def Reads (h : Store) (v : Val) (t : Ast) : Prop := ReadsAs (fun _ => False) h v t

/-- The maps of `h` are still there, unchanged. -/
def Keeps (h k : Store) : Prop := h.next ≤ k.next ∧ ∀ a, a < h.next → k.cells a = h.cells a

/-- A callback that changes no map it did not make itself, and whose result depends on the contents of its
argument in the way `tcb` says. -/
def PureCallbacks (cb : Nat → Val → Nat → Store → Except Panic (Option Val × Store))
    (tcb : Nat → Ast → Nat → Except Panic (Option Ast)) : Prop :=
  ∀ c p P h v t, ReadsAs P h v t →
    match cb c v p h, tcb c t p with
    | .ok (r, k), .ok r' => Keeps h k ∧ (match r, r' with
        | none, none => True
        | some x, some y => ReadsAs P k x y
        | _, _ => False)
    | .error e, .error e' => e = e'
    | _, _ => False

/-- No item of a sequence is labelled `&`, and before one labelled `@` there is one with a label of its own. -/
inductive OwnMaps (g : Grammar) : Node → Prop
  | str {i b} : OwnMaps g (.str i b)
  | regex {i re} : OwnMaps g (.regex i re)
  | choice {i l} : (∀ c ∈ l, OwnMaps g c) → OwnMaps g (.choice i l)
  | seq {i r l} : (∀ c ∈ l, OwnMaps g c) → (∀ c ∈ l, (g.info c).label ≠ "&") →
      (∀ l1 c l2, l = l1 ++ c :: l2 → (g.info c).label = "@" → ∃ d ∈ l1, (g.info d).label ≠ "" ∧ (g.info d).label ≠ "@") →
      OwnMaps g (.seq i r l)
  | exist {i n} : OwnMaps g n → OwnMaps g (.exist i n)
  | look {i n} : OwnMaps g n → OwnMaps g (.look i n)
  | not {i n} : OwnMaps g n → OwnMaps g (.not i n)
  | pattern {i v j mn mx} : OwnMaps g v → (∀ c, j = some c → OwnMaps g c) → OwnMaps g (.pattern i v j mn mx)
  | ref {i nm} : OwnMaps g (.ref i nm)
  | rule {id} : OwnMaps g (.rule id)

/-- No rule merges into a map that it did not make. -/
def GrammarOwnMaps (g : Grammar) : Prop := (∀ n ∈ g.rules, OwnMaps g n) ∧ OwnMaps g g.root

/-- Every cached result reads as a tree. -/
def Sound {H : Type} (store : H → Store) (s : St Val H) : Prop :=
  ∀ a v, (s.heap a).result = some v → ∃ t, Reads (store s.h) v t

end Joeson.Spec
