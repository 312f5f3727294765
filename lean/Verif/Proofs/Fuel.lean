import Verif.Model.Engine
/-! # More fuel never changes a result -/

namespace Joeson
open Out

namespace Out
/-- `x ⊑ y`: `x` ran out of fuel, or they are the same outcome. -/
def le {α : Type} (x y : Out α) : Prop := x = .oof ∨ x = y

@[simp] theorem bind_ok {α β : Type} (a : α) (f : α → Out β) : (Out.ok a >>= f) = f a := rfl
@[simp] theorem bind_panic {α β : Type} (e : Panic) (f : α → Out β) :
    ((Out.panic e : Out α) >>= f) = .panic e := rfl
@[simp] theorem bind_oof {α β : Type} (f : α → Out β) : ((Out.oof : Out α) >>= f) = .oof := rfl

theorem le_refl {α : Type} (x : Out α) : le x x := Or.inr rfl

theorem le_oof {α : Type} (x : Out α) : le .oof x := Or.inl rfl

theorem le_trans {α : Type} {x y z : Out α} (h : le x y) (h' : le y z) : le x z := by
  rcases h with h | h
  · exact Or.inl h
  · subst h; exact h'

theorem le_bind {α β : Type} {x x' : Out α} {f f' : α → Out β}
    (h : le x x') (hf : ∀ a, le (f a) (f' a)) : le (x >>= f) (x' >>= f') := by
  rcases h with h | h
  · subst h; exact Or.inl rfl
  · subst h
    cases x with
    | ok a => exact hf a
    | panic e => exact le_refl _
    | oof => exact le_refl _

theorem le_ite {α : Type} {c : Prop} [Decidable c] {x x' y y' : Out α}
    (h : le x x') (h' : le y y') : le (if c then x else y) (if c then x' else y') := by
  split <;> assumption

theorem le_eq {α : Type} {x y : Out α} (h : le x y) (hx : x ≠ .oof) : y = x := by
  rcases h with h | h
  · exact absurd h hx
  · exact h.symm

/-- A bind succeeds exactly when both parts do. -/
theorem bind_eq_ok {α β : Type} {x : Out α} {f : α → Out β} {b : β} :
    (x >>= f) = .ok b ↔ ∃ a, x = .ok a ∧ f a = .ok b := by
  cases x <;> simp

theorem bind_eq_panic {α β : Type} {x : Out α} {f : α → Out β} {e : Panic} :
    (x >>= f) = .panic e ↔ x = .panic e ∨ ∃ a, x = .ok a ∧ f a = .panic e := by
  cases x <;> simp

theorem bind_eq_oof {α β : Type} {x : Out α} {f : α → Out β} :
    (x >>= f) = .oof ↔ x = .oof ∨ ∃ a, x = .ok a ∧ f a = .oof := by
  cases x <;> simp

@[simp] theorem ofExcept_ok {α : Type} (a : α) : ofExcept (.ok a : Except Panic α) = .ok a := rfl
@[simp] theorem ofExcept_error {α : Type} (e : Panic) :
    ofExcept (.error e : Except Panic α) = .panic e := rfl
theorem ofExcept_ne_oof {α : Type} (x : Except Panic α) : ofExcept x ≠ .oof := by
  cases x <;> simp [ofExcept]

end Out

variable {V H : Type}

/-- `f ⊑ f'` pointwise. -/
def RunLe (f f' : Run V H) : Prop := ∀ s, Out.le (f s) (f' s)

theorem growLoop_mono (env : Env V H) (sh : Bool) (a startPos : Nat) {f f' : Run V H}
    (h : RunLe f f') : ∀ k k', k ≤ k' → ∀ r s,
    Out.le (growLoop env sh f a startPos k r s) (growLoop env sh f' a startPos k' r s)
  | 0, _, _, _, _ => Out.le_oof _
  | k + 1, 0, hk, _, _ => absurd hk (by omega)
  | k + 1, k' + 1, hk, r, s => by
    rw [growLoop, growLoop]
    refine Out.le_bind (Out.le_refl _) fun x => ?_
    refine Out.le_bind (Out.le_refl _) fun _ => ?_
    refine Out.le_bind (Out.le_refl _) fun s => ?_
    refine Out.le_bind (h _) fun y => ?_
    obtain ⟨r', s'⟩ := y
    refine Out.le_ite (Out.le_refl _) ?_
    cases r' with
    | none => exact Out.le_refl _
    | some v => exact growLoop_mono env sh a startPos h k k' (by omega) v s'

theorem loopify_mono (env : Env V H) (id : Nat) (i : Info) {f f' : Run V H} (h : RunLe f f')
    {k k' : Nat} (hk : k ≤ k') : RunLe (loopify env k id i f) (loopify env k' id i f') := by
  intro s
  unfold loopify
  refine Out.le_bind (Out.le_refl _) fun _ => ?_
  refine Out.le_ite (Out.le_bind (h _) fun _ => Out.le_refl _) ?_
  refine Out.le_bind (Out.le_refl _) fun x => ?_
  obtain ⟨a, s⟩ := x
  dsimp only
  refine Out.le_ite ?_ (Out.le_refl _)
  split
  · exact Out.le_refl _
  · refine Out.le_bind (h _) fun y => ?_
    obtain ⟨r, s⟩ := y
    refine Out.le_ite (Out.le_refl _) (Out.le_ite ?_ (Out.le_refl _))
    cases r with
    | none => exact Out.le_refl _
    | some v =>
      refine Out.le_bind (growLoop_mono env _ _ _ h k k' hk _ _) fun _ => Out.le_refl _

theorem prepareResult_mono (env : Env V H) (b : Bool) (i : Info) {f f' : Run V H} (h : RunLe f f') :
    RunLe (prepareResult env b i f) (prepareResult env b i f') := by
  intro s
  unfold prepareResult
  exact Out.le_bind (h _) fun _ => Out.le_refl _

theorem parseAlts_mono (env : Env V H) {f f' : Node → Run V H} (h : ∀ n, RunLe (f n) (f' n)) :
    ∀ l, RunLe (parseAlts env f l) (parseAlts env f' l)
  | [] => fun _ => Out.le_refl _
  | c :: cs => by
    intro s
    rw [parseAlts, parseAlts]
    refine Out.le_bind (h _ _) fun x => ?_
    obtain ⟨r, s'⟩ := x
    cases r with
    | none => exact Out.le_bind (Out.le_refl _) fun s'' => parseAlts_mono env h cs s''
    | some v => exact Out.le_refl _

theorem parseItems_mono (env : Env V H) {f f' : Node → Run V H} (h : ∀ n, RunLe (f n) (f' n))
    (repr : SeqRepr) : ∀ l acc, RunLe (parseItems env f repr l acc) (parseItems env f' repr l acc)
  | [], _ => fun _ => Out.le_refl _
  | c :: cs, acc => by
    intro s
    rw [parseItems, parseItems]
    refine Out.le_bind (h _ _) fun x => ?_
    obtain ⟨r, s'⟩ := x
    cases r with
    | none => exact Out.le_refl _
    | some v => exact Out.le_bind (Out.le_refl _) fun y => parseItems_mono env h repr cs _ _

theorem parseRep_mono (env : Env V H) {f f' : Node → Run V H} (h : ∀ n, RunLe (f n) (f' n))
    (value : Node) (join : Option Node) (mn mx : Int) (start : Nat) : ∀ k k', k ≤ k' → ∀ ms,
    RunLe (parseRep env f value join mn mx start k ms) (parseRep env f' value join mn mx start k' ms)
  | 0, _, _, _ => fun _ => Out.le_oof _
  | k + 1, 0, hk, _ => absurd hk (by omega)
  | k + 1, k' + 1, hk, ms => by
    intro s
    unfold parseRep
    refine Out.le_bind ?_ fun x => ?_
    · cases join with
      | none => exact Out.le_refl _
      | some j => exact Out.le_bind (h _ _) fun _ => Out.le_refl _
    · obtain ⟨joined, s'⟩ := x
      refine Out.le_ite (Out.le_refl _) (Out.le_bind (h _ _) fun y => ?_)
      obtain ⟨r, s''⟩ := y
      cases r with
      | none => exact Out.le_refl _
      | some v =>
        refine Out.le_ite (Out.le_refl _) ?_
        exact parseRep_mono env h value join mn mx start k k' (by omega) _ s''

theorem parseKind_mono (env : Env V H) {f f' : Node → Run V H} (h : ∀ n, RunLe (f n) (f' n))
    {k k' : Nat} (hk : k ≤ k') (n : Node) : RunLe (parseKind env f k n) (parseKind env f' k' n) := by
  intro s
  cases n with
  | str i b => exact Out.le_refl _
  | regex i re => exact Out.le_refl _
  | choice i alts => exact parseAlts_mono env h alts s
  | seq i repr items => exact parseItems_mono env h repr items {} s
  | exist i it => exact Out.le_bind (h _ _) fun _ => Out.le_refl _
  | look i it => exact Out.le_bind (h _ _) fun _ => Out.le_refl _
  | not i it => exact Out.le_bind (h _ _) fun _ => Out.le_refl _
  | pattern i value join mn mx =>
    rw [parseKind, parseKind]
    refine Out.le_bind (h _ _) fun x => ?_
    obtain ⟨r, s'⟩ := x
    cases r with
    | none => exact Out.le_refl _
    | some v => exact parseRep_mono env h value join mn mx _ k k' hk _ _
  | ref i name =>
    rw [parseKind, parseKind]
    split
    · exact Out.le_refl _
    · exact Out.le_bind (Out.le_refl _) fun _ => h _ _
  | rule id => exact h _ _

theorem wrap_mono (env : Env V H) {f f' : Node → Run V H} (h : ∀ n, RunLe (f n) (f' n))
    {k k' : Nat} (hk : k ≤ k') (n : Node) : RunLe (wrap env f k n) (wrap env f' k' n) := by
  intro s
  unfold wrap
  split
  · split
    · exact Out.le_refl _
    · refine Out.le_bind (Out.le_refl _) fun s => ?_
      refine Out.le_bind ?_ fun _ => Out.le_refl _
      exact loopify_mono env _ _ (prepareResult_mono env _ _ (parseKind_mono env h hk _)) hk _
  · refine Out.le_ite ?_ ?_
    · exact prepareResult_mono env _ _ (parseKind_mono env h hk _) _
    · exact parseKind_mono env h hk _ _

theorem parse_mono (env : Env V H) : ∀ k k', k ≤ k' → ∀ n, RunLe (parse env k n) (parse env k' n)
  | 0, _, _, _ => fun _ => Out.le_oof _
  | k + 1, 0, hk, _ => absurd hk (by omega)
  | k + 1, k' + 1, hk, n => by
    intro s
    rw [parse, parse]
    exact wrap_mono env (parse_mono env k k' (by omega)) (by omega) n s

/-- Once a result is reached, every larger fuel gives the same result. -/
theorem parse_fuel (env : Env V H) {k k' : Nat} (hk : k ≤ k') (n : Node) (s : St V H)
    (h : parse env k n s ≠ .oof) : parse env k' n s = parse env k n s :=
  Out.le_eq (parse_mono env k k' hk n s) h

end Joeson
