import Verif.Props.LispMachine
import Mathlib.Tactic.FinCases
/-!
# C67: calls with a wrong number of arguments
-/

namespace Joeson.Lisp

variable {F : FloatOps} {m : Machine}

/-- C67: with a wrong number of arguments the functions panic, whatever the arguments are and before one is evaluated: `-` and comparisons take at least
two, `%`, `alias` and `define` two, `not` and `list?` one, `if` three. -/
theorem C67_wrong_number (hm : Standard m) (k : Nat) (rest : List LExpr) :
    (rest.length < 2 → ∀ n ∈ [asc "-", asc "sub", asc "<", asc "lt", asc "<=", asc "le", asc ">", asc "gt", asc ">=", asc "ge", asc "==", asc "eq", asc "eq?", asc "!=",
      asc "neq", asc "neq?"], eval F (k + 1) (.list (.op n :: rest)) m = .error .arguments) ∧
    (rest.length ≠ 2 → ∀ n ∈ [asc "%", asc "alias", asc "define"], eval F (k + 1) (.list (.op n :: rest)) m = .error .arguments) ∧
    (rest.length ≠ 1 → ∀ n ∈ [asc "not", asc "list?", asc "car", asc "cdr"], eval F (k + 1) (.list (.op n :: rest)) m = .error .arguments) ∧
    (rest.length ≠ 3 → eval F (k + 1) (.list (.op (asc "if") :: rest)) m = .error .arguments) := by
  have plain : ∀ n b, newMachine.aliases n = none → newMachine.funcs n = some (.builtin b) →
      eval F (k + 1) (.list (.op n :: rest)) m = builtin F (eval F k) k b rest m := fun n b h1 h2 => by rw [eval_call (hm.plain h1 h2)]; rfl
  have via : ∀ n s b, newMachine.aliases n = some s → newMachine.funcs s = some (.builtin b) →
      eval F (k + 1) (.list (.op n :: rest)) m = builtin F (eval F k) k b rest m := fun n s b h1 h2 => by rw [eval_call (hm.via h1 h2)]; rfl
  refine ⟨fun h n hn => ?_, fun h n hn => ?_, fun h n hn => ?_, fun h => ?_⟩
  · have all : ∀ b ∈ [Builtin.sub, .lt, .le, .gt, .ge, .eq, .neq], builtin F (eval F k) k b rest m = .error .arguments := by
      intro b hb
      rcases rest with _ | ⟨e, _ | ⟨e', l⟩⟩
      · fin_cases hb <;> rfl
      · fin_cases hb <;> rfl
      · simp only [List.length_cons] at h; omega
    fin_cases hn
    · exact (via _ (asc "sub") .sub (by kernel_rfl) (by kernel_rfl)).trans (all _ (by simp))
    · exact (plain _ .sub (by kernel_rfl) (by kernel_rfl)).trans (all _ (by simp))
    · exact (via _ (asc "lt") .lt (by kernel_rfl) (by kernel_rfl)).trans (all _ (by simp))
    · exact (plain _ .lt (by kernel_rfl) (by kernel_rfl)).trans (all _ (by simp))
    · exact (via _ (asc "le") .le (by kernel_rfl) (by kernel_rfl)).trans (all _ (by simp))
    · exact (plain _ .le (by kernel_rfl) (by kernel_rfl)).trans (all _ (by simp))
    · exact (via _ (asc "gt") .gt (by kernel_rfl) (by kernel_rfl)).trans (all _ (by simp))
    · exact (plain _ .gt (by kernel_rfl) (by kernel_rfl)).trans (all _ (by simp))
    · exact (via _ (asc "ge") .ge (by kernel_rfl) (by kernel_rfl)).trans (all _ (by simp))
    · exact (plain _ .ge (by kernel_rfl) (by kernel_rfl)).trans (all _ (by simp))
    · exact (via _ (asc "eq") .eq (by kernel_rfl) (by kernel_rfl)).trans (all _ (by simp))
    · exact (plain _ .eq (by kernel_rfl) (by kernel_rfl)).trans (all _ (by simp))
    · exact (via _ (asc "eq") .eq (by kernel_rfl) (by kernel_rfl)).trans (all _ (by simp))
    · exact (via _ (asc "neq") .neq (by kernel_rfl) (by kernel_rfl)).trans (all _ (by simp))
    · exact (plain _ .neq (by kernel_rfl) (by kernel_rfl)).trans (all _ (by simp))
    · exact (via _ (asc "neq") .neq (by kernel_rfl) (by kernel_rfl)).trans (all _ (by simp))
  · have all : ∀ b ∈ [Builtin.remainder, .alias, .define], builtin F (eval F k) k b rest m = .error .arguments := by
      intro b hb
      rcases rest with _ | ⟨e, _ | ⟨e', _ | ⟨e'', l⟩⟩⟩
      · fin_cases hb <;> rfl
      · fin_cases hb <;> rfl
      · exact absurd rfl h
      · fin_cases hb <;> rfl
    fin_cases hn
    · exact (plain _ .remainder (by kernel_rfl) (by kernel_rfl)).trans (all _ (by simp))
    · exact (plain _ .alias (by kernel_rfl) (by kernel_rfl)).trans (all _ (by simp))
    · exact (plain _ .define (by kernel_rfl) (by kernel_rfl)).trans (all _ (by simp))
  · have all : ∀ b ∈ [Builtin.not, .isList, .car, .cdr], builtin F (eval F k) k b rest m = .error .arguments := by
      intro b hb
      rcases rest with _ | ⟨e, _ | ⟨e', l⟩⟩
      · fin_cases hb <;> rfl
      · exact absurd rfl h
      · fin_cases hb <;> first | rfl | (rcases e with s | x | (_ | ⟨a, l'⟩) | s <;> first | rfl | (cases a <;> rfl))
    fin_cases hn
    · exact (plain _ .not (by kernel_rfl) (by kernel_rfl)).trans (all _ (by simp))
    · exact (plain _ .isList (by kernel_rfl) (by kernel_rfl)).trans (all _ (by simp))
    · exact (plain _ .car (by kernel_rfl) (by kernel_rfl)).trans (all _ (by simp))
    · exact (plain _ .cdr (by kernel_rfl) (by kernel_rfl)).trans (all _ (by simp))
  · rw [plain (asc "if") .if_ (by kernel_rfl) (by kernel_rfl)]
    rcases rest with _ | ⟨e, _ | ⟨e', _ | ⟨e'', _ | ⟨e3, l⟩⟩⟩⟩
    · rfl
    · rfl
    · rfl
    · exact absurd rfl h
    · rfl

-- (- 1), (not), and (if (undefined)), whose argument would panic itself
example (k : Nat) : eval intOps (k + 1) (callE "-" [int 1]) newMachine = .error .arguments ∧ eval intOps (k + 1) (callE "not" []) newMachine = .error .arguments ∧
    eval intOps (k + 1) (callE "if" [callE "undefined" []]) newMachine = .error .arguments :=
  ⟨(C67_wrong_number standard_new k [int 1]).1 (by decide) (asc "-") (by simp), (C67_wrong_number standard_new k []).2.2.1 (by decide) (asc "not") (by simp),
    (C67_wrong_number standard_new k [callE "undefined" []]).2.2.2 (by decide)⟩

/-- C67: `+`, `*`, `and`, `or` and `cond` take any number of arguments: without any they give 0, 1, true, false and the empty list. -/
theorem C67_no_arguments (hm : Standard m) (k : Nat) :
    eval F (k + 1) (.list [.op (asc "+")]) m = .ok (.num f0, m) ∧ eval F (k + 1) (.list [.op (asc "*")]) m = .ok (.num f1, m) ∧
    eval F (k + 1) (.list [.op (asc "and")]) m = .ok (.num f1, m) ∧ eval F (k + 1) (.list [.op (asc "or")]) m = .ok (.num f0, m) ∧
    eval F (k + 1) (.list [.op (asc "cond")]) m = .ok (.list [], m) := by
  rw [eval_call (hm.via (n := asc "+") (s := asc "add") (f := .builtin .add) (by kernel_rfl) (by kernel_rfl)),
    eval_call (hm.via (n := asc "*") (s := asc "mul") (f := .builtin .mul) (by kernel_rfl) (by kernel_rfl)),
    eval_call (hm.plain (n := asc "and") (f := .builtin .and) (by kernel_rfl) (by kernel_rfl)),
    eval_call (hm.plain (n := asc "or") (f := .builtin .or) (by kernel_rfl) (by kernel_rfl)),
    eval_call (hm.plain (n := asc "cond") (f := .builtin .cond) (by kernel_rfl) (by kernel_rfl))]
  exact ⟨rfl, rfl, rfl, rfl, rfl⟩

example : eval intOps 1 (callE "+" []) newMachine = .ok (int 0, newMachine) := (C67_no_arguments standard_new 0).1

/-- The name, written as an operator or as a string. -/
def Names (e : LExpr) (n : Bytes) : Prop := e = .op n ∨ e = .str n

theorem names_eq {e : LExpr} {n : Bytes} (h : Names e n) : mustName e = pure n := by rcases h with rfl | rfl <;> rfl

theorem argNames_eq : ∀ {ps : List LExpr} {ns : List Bytes}, List.Forall₂ Names ps ns → argNames ps = pure ns
  | _, _, .nil => rfl
  | _, _, .cons h hs => by rw [argNames, names_eq h, argNames_eq hs]; rfl

/-- C67: `define` and `alias` take strings for names as well as operators; but a list that begins with a string is not a call. -/
theorem C67_string_names (hm : Standard m) (k : Nat) (f g : LExpr) (nf ng : Bytes) (hf : Names f nf) (hg : Names g ng) (ps : List LExpr) (ns : List Bytes)
    (hp : List.Forall₂ Names ps ns) (body : LExpr) (args : List LExpr) :
    eval F (k + 1) (.list [.op (asc "define"), .list (f :: ps), body]) m =
      eval F (k + 1) (.list [.op (asc "define"), .list (.op nf :: ns.map .op), body]) m ∧
    eval F (k + 1) (.list [.op (asc "alias"), f, g]) m = eval F (k + 1) (.list [.op (asc "alias"), .op nf, .op ng]) m ∧
    eval F (k + 1) (.list (.str nf :: args)) m = .ok (.list (.str nf :: args), m) := by
  have hop : List.Forall₂ Names (ns.map LExpr.op) ns := by
    clear hp
    induction ns with
    | nil => exact .nil
    | cons n ns ih => exact .cons (.inl rfl) ih
  refine ⟨?_, ?_, C67_itself _ (fun o rest h => by cases h) k⟩
  · rw [eval_call (hm.define), eval_call (hm.define)]
    show defineFn [.list (f :: ps), body] m = defineFn [.list (.op nf :: ns.map .op), body] m
    unfold defineFn
    simp only [mustList, pure_bind, names_eq hf, names_eq (.inl rfl : Names (.op nf) nf), argNames_eq hp, argNames_eq hop]
  · have ha : Means m (asc "alias") (.builtin .alias) := hm.plain (by decide +kernel) rfl
    rw [eval_call ha, eval_call ha]
    show aliasFn [f, g] m = aliasFn [.op nf, .op ng] m
    unfold aliasFn
    simp only [names_eq hf, names_eq hg, names_eq (.inl rfl : Names (.op nf) nf), names_eq (.inl rfl : Names (.op ng) ng)]

-- (define ("f" x) 1) and then (f 2)
example : Names (.str (asc "f")) (asc "f") ∧ List.Forall₂ Names [.op (asc "x")] [asc "x"] ∧
    (eval intOps 1 (callE "define" [.list [.str (asc "f"), .op (asc "x")], int 1]) newMachine).isOk ∧
    ((do let _ ← eval intOps 1 (callE "define" [.list [.str (asc "f"), .op (asc "x")], int 1])
         eval intOps 2 (callE "f" [int 2]) : Run LExpr) newMachine).map (·.1) = .ok (int 1) :=
  ⟨.inr rfl, .cons (.inl rfl) .nil, rfl, by kernel_rfl⟩

/-- C67: an alias stands for the name, not for the function: if a function is defined anew its aliases call the new one. Thus a definition of `add` changes
`+` as well, but a definition of `+` does not change `add`. -/
theorem C67_redefined (hm : Standard m) (a b : Bytes) (hab : m.aliases a = some b) (hne : a ≠ b) (params : List Bytes) (hp : params.Nodup) (body : LExpr) (j : Nat) :
    (∃ m', eval F (j + 1) (.list [.op (asc "define"), .list (.op b :: params.map .op), body]) m = .ok (.list [], m') ∧
      ∀ (args : List LExpr) (e : LExpr) (k : Nat), args.length = params.length → Replaced params args body e →
        eval F (k + 1) (.list (.op a :: args)) m' = eval F k e m') ∧
    ∃ m', eval F (j + 1) (.list [.op (asc "define"), .list (.op a :: params.map .op), body]) m = .ok (.list [], m') ∧
      m'.funcs b = m.funcs b ∧ m'.aliases b = m.aliases b ∧ m'.aliases a = none := by
  refine ⟨⟨_, define_eq hm b params body, fun args e k hl hr => ?_⟩, _, define_eq hm a params body, ?_, ?_, ?_⟩
  · have h1 : Means (m.defined b params body) a (.user params body) :=
      .via (s := b) (by simp [Machine.defined, deleteKey, hne, hab]) (by simp [Machine.defined, setKey])
    rw [eval_call h1]
    simp only [call]
    rw [if_pos hl, subst_eq hp hr]
  · simp [Machine.defined, setKey, Ne.symm hne]
  · simp [Machine.defined, deleteKey, Ne.symm hne]
  · simp [Machine.defined, deleteKey]

-- (define (add x) 7), then (+ 1); (define (+ x) 7), then (add 1)
example : newMachine.aliases (asc "+") = some (asc "add") ∧
    ((do let _ ← eval intOps 1 (callE "define" [callE "add" [.op (asc "x")], int 7])
         eval intOps 3 (callE "+" [int 1]) : Run LExpr) newMachine).map (·.1) = .ok (int 7) ∧
    ((do let _ ← eval intOps 1 (callE "define" [callE "+" [.op (asc "x")], int 7])
         eval intOps 3 (callE "add" [int 1]) : Run LExpr) newMachine).map (·.1) = .ok (int 1) :=
  ⟨by kernel_rfl, by kernel_rfl, by kernel_rfl⟩

end Joeson.Lisp
