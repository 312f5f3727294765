import Verif.Proofs.Fuel
/-! # Defining an undefined name changes nothing unless it is looked up -/

namespace Joeson

namespace Out
/-- `x` panicked because of the undefined name, or they are the same outcome. -/
def leU {α : Type} (nm : String) (x y : Out α) : Prop := x = .panic (.undefinedRef nm) ∨ x = y

variable {nm : String}

theorem leU_refl {α : Type} (x : Out α) : leU nm x x := Or.inr rfl

theorem leU_bind {α β : Type} {x x' : Out α} {f f' : α → Out β}
    (h : leU nm x x') (hf : ∀ a, leU nm (f a) (f' a)) : leU nm (x >>= f) (x' >>= f') := by
  rcases h with h | h
  · subst h; exact Or.inl rfl
  · subst h
    cases x with
    | ok a => exact hf a
    | panic e => exact leU_refl _
    | oof => exact leU_refl _

theorem leU_ite {α : Type} {c : Prop} [Decidable c] {x x' y y' : Out α}
    (h : leU nm x x') (h' : leU nm y y') : leU nm (if c then x else y) (if c then x' else y') := by
  split <;> assumption

end Out

/-- The same grammar with the name `nm` bound to something else. -/
def Grammar.bind (g : Grammar) (nm : String) (x : Option Nat) : Grammar :=
  { g with lookup := fun n => if n = nm then x else g.lookup n }

/-- The same environment with the name bound. -/
def Env.bind {V H : Type} (env : Env V H) (nm : String) (x : Option Nat) : Env V H :=
  { env with g := env.g.bind nm x }

variable {V H : Type} {nm : String} {x : Option Nat}

/-- `f ⊑ f'` pointwise. -/
def RunLeU (nm : String) (f f' : Run V H) : Prop := ∀ s, Out.leU nm (f s) (f' s)

theorem growLoop_leU (env : Env V H) (sh : Bool) (a startPos : Nat) {f f' : Run V H}
    (h : RunLeU nm f f') : ∀ k r s,
    Out.leU nm (growLoop env sh f a startPos k r s) (growLoop (env.bind nm x) sh f' a startPos k r s)
  | 0, _, _ => Out.leU_refl _
  | k + 1, r, s => by
    rw [growLoop, growLoop]
    refine Out.leU_bind (Out.leU_refl _) fun x => ?_
    refine Out.leU_bind (Out.leU_refl _) fun _ => ?_
    refine Out.leU_bind (Out.leU_refl _) fun s => ?_
    refine Out.leU_bind (h _) fun y => ?_
    obtain ⟨r', s'⟩ := y
    refine Out.leU_ite (Out.leU_refl _) ?_
    cases r' with
    | none => exact Out.leU_refl _
    | some v => exact growLoop_leU env sh a startPos h k v s'

theorem loopify_leU (env : Env V H) (id : Nat) (i : Info) {f f' : Run V H} (h : RunLeU nm f f') (k : Nat) :
    RunLeU nm (loopify env k id i f) (loopify (env.bind nm x) k id i f') := by
  intro s
  unfold loopify
  refine Out.leU_bind (Out.leU_refl _) fun _ => ?_
  refine Out.leU_ite (Out.leU_bind (h _) fun _ => Out.leU_refl _) ?_
  refine Out.leU_bind (Out.leU_refl _) fun x => ?_
  obtain ⟨a, s⟩ := x
  dsimp only
  refine Out.leU_ite ?_ (Out.leU_refl _)
  split
  · exact Out.leU_refl _
  · refine Out.leU_bind (h _) fun y => ?_
    obtain ⟨r, s⟩ := y
    refine Out.leU_ite (Out.leU_refl _) (Out.leU_ite ?_ (Out.leU_refl _))
    cases r with
    | none => exact Out.leU_refl _
    | some v =>
      refine Out.leU_bind (growLoop_leU env _ _ _ h k _ _) fun _ => Out.leU_refl _

theorem prepareResult_leU (env : Env V H) (b : Bool) (i : Info) {f f' : Run V H} (h : RunLeU nm f f') :
    RunLeU nm (prepareResult env b i f) (prepareResult (env.bind nm x) b i f') := by
  intro s
  unfold prepareResult
  exact Out.leU_bind (h _) fun _ => Out.leU_refl _

theorem parseAlts_leU (env : Env V H) {f f' : Node → Run V H} (h : ∀ n, RunLeU nm (f n) (f' n)) :
    ∀ l, RunLeU nm (parseAlts env f l) (parseAlts (env.bind nm x) f' l)
  | [] => fun _ => Out.leU_refl _
  | c :: cs => by
    intro s
    rw [parseAlts, parseAlts]
    refine Out.leU_bind (h _ _) fun x => ?_
    obtain ⟨r, s'⟩ := x
    cases r with
    | none => exact Out.leU_bind (Out.leU_refl _) fun s'' => parseAlts_leU env h cs s''
    | some v => exact Out.leU_refl _

theorem parseItems_leU (env : Env V H) {f f' : Node → Run V H} (h : ∀ n, RunLeU nm (f n) (f' n))
    (repr : SeqRepr) : ∀ l acc, RunLeU nm (parseItems env f repr l acc) (parseItems (env.bind nm x) f' repr l acc)
  | [], _ => fun _ => Out.leU_refl _
  | c :: cs, acc => by
    intro s
    rw [parseItems, parseItems]
    refine Out.leU_bind (h _ _) fun x => ?_
    obtain ⟨r, s'⟩ := x
    cases r with
    | none => exact Out.leU_refl _
    | some v => exact Out.leU_bind (Out.leU_refl _) fun y => parseItems_leU env h repr cs _ _

theorem parseRep_leU (env : Env V H) {f f' : Node → Run V H} (h : ∀ n, RunLeU nm (f n) (f' n))
    (value : Node) (join : Option Node) (mn mx : Int) (start : Nat) : ∀ k ms,
    RunLeU nm (parseRep env f value join mn mx start k ms) (parseRep (env.bind nm x) f' value join mn mx start k ms)
  | 0, _ => fun _ => Out.leU_refl _
  | k + 1, ms => by
    intro s
    unfold parseRep
    refine Out.leU_bind ?_ fun x => ?_
    · cases join with
      | none => exact Out.leU_refl _
      | some j => exact Out.leU_bind (h _ _) fun _ => Out.leU_refl _
    · obtain ⟨joined, s'⟩ := x
      refine Out.leU_ite (Out.leU_refl _) (Out.leU_bind (h _ _) fun y => ?_)
      obtain ⟨r, s''⟩ := y
      cases r with
      | none => exact Out.leU_refl _
      | some v =>
        refine Out.leU_ite (Out.leU_refl _) ?_
        exact parseRep_leU env h value join mn mx start k _ s''

theorem parseKind_leU (env : Env V H) {f f' : Node → Run V H} (h : ∀ n, RunLeU nm (f n) (f' n)) (hu : env.g.lookup nm = none)
    (k : Nat) (n : Node) : RunLeU nm (parseKind env f k n) (parseKind (env.bind nm x) f' k n) := by
  intro s
  cases n with
  | str i b => exact Out.leU_refl _
  | regex i re => exact Out.leU_refl _
  | choice i alts => exact parseAlts_leU env h alts s
  | seq i repr items => exact parseItems_leU env h repr items {} s
  | exist i it => exact Out.leU_bind (h _ _) fun _ => Out.leU_refl _
  | look i it => exact Out.leU_bind (h _ _) fun _ => Out.leU_refl _
  | not i it => exact Out.leU_bind (h _ _) fun _ => Out.leU_refl _
  | pattern i value join mn mx =>
    rw [parseKind, parseKind]
    refine Out.leU_bind (h _ _) fun x => ?_
    obtain ⟨r, s'⟩ := x
    cases r with
    | none => exact Out.leU_refl _
    | some v => exact parseRep_leU env h value join mn mx _ k _ _
  | ref i name =>
    rw [parseKind, parseKind]
    by_cases hn : name = nm
    · subst hn
      rw [hu]
      exact Or.inl rfl
    · rw [show (env.bind nm x).g.lookup name = env.g.lookup name from if_neg hn]
      split
      · exact Out.leU_refl _
      · exact Out.leU_bind (Out.leU_refl _) fun _ => h _ _
  | rule id => exact h _ _

theorem wrap_leU (env : Env V H) {f f' : Node → Run V H} (h : ∀ n, RunLeU nm (f n) (f' n)) (hu : env.g.lookup nm = none)
    (k : Nat) (n : Node) : RunLeU nm (wrap env f k n) (wrap (env.bind nm x) f' k n) := by
  intro s
  unfold wrap
  split
  · rw [show (env.bind nm x).g.rules = env.g.rules from rfl]
    split
    · exact Out.leU_refl _
    · refine Out.leU_bind (Out.leU_refl _) fun s => ?_
      refine Out.leU_bind ?_ fun _ => Out.leU_refl _
      exact loopify_leU env _ _ (prepareResult_leU env _ _ (parseKind_leU env h hu k _)) k _
  · refine Out.leU_ite ?_ ?_
    · exact prepareResult_leU env _ _ (parseKind_leU env h hu k _) _
    · exact parseKind_leU env h hu k _ _

theorem parse_leU (env : Env V H) (hu : env.g.lookup nm = none) : ∀ k n,
    RunLeU nm (parse env k n) (parse (env.bind nm x) k n)
  | 0, _ => fun _ => Out.leU_refl _
  | k + 1, n => by
    intro s
    rw [parse, parse]
    exact wrap_leU env (parse_leU env hu k) hu k n s

end Joeson
