import Verif.Proofs.LispMachine
import Verif.Props.Lisp
/-!
# C67: what the machine of the Lisp example computes
-/

namespace Joeson.Lisp

variable {F : FloatOps} {m : Machine}

/-- Machines after some expressions have been evaluated. -/
inductive Reached (F : FloatOps) : Machine → Prop
  | new : Reached F newMachine
  | eval {m m' : Machine} {k : Nat} {e v : LExpr} : Reached F m → eval F k e m = .ok (v, m') → Reached F m'

/-- C67: arithmetic, comparisons, logic and `if` in any nesting give the value, and leave the machine as it is. -/
theorem C67_arithmetic (hm : Standard m) (a : AExpr) (ha : a.Ok) (k : Nat) (hk : a.depth ≤ k) :
    eval F k a.expr m = .ok (.num (a.value F), m) := eval_arith hm a ha hk

/-- C67: from the text to the value. -/
theorem C67_text {rx : Bytes → Option Regex} {rs rn rw : Regex} (h : Classes rx rs rn rw) (u : UserString) (e : SExpr) (he : e.Ok) (hn : e.nest ≤ 500)
    (hm : Standard m) (a : AExpr) (ha : a.Ok) (hv : e.val F.ofInt = some a.expr) :
    ∃ v, LibGives rx (lispLines rs rn rw) (lispOps F.ofInt u) e.text (.ok (some (v, []))) ∧
      ∃ x, toExpr v = some x ∧ ∀ k, a.depth ≤ k → eval F k x m = .ok (.num (a.value F), m) := by
  have h1 := C66_reads h F.ofInt u e he hn [] [] (by simp) (by simp)
  rw [hv] at h1
  simp only [List.nil_append, List.append_nil] at h1
  exact ⟨_, h1, _, toExpr_ast _, fun k hk => C67_arithmetic hm a ha k hk⟩

/-- C67: of the branches of `if` only the one that counts is evaluated. -/
theorem C67_if (hm : Standard m) (c : AExpr) (hc : c.Ok) (k : Nat) (hk : c.depth ≤ k) (hk2 : 2 ≤ k) (t e : LExpr) :
    (IsTrue F (c.value F) → eval F (k + 1) (.list [.op (asc "if"), c.expr, t, e]) m = eval F k t m) ∧
    (¬ IsTrue F (c.value F) → eval F (k + 1) (.list [.op (asc "if"), c.expr, t, e]) m = eval F k e m) := by
  have h := if_eq hm t e (numberFrom_expr c hk2 (eval_arith (F := F) hm c hc hk) (by rintro y rfl; rfl))
  unfold IsTrue
  constructor
  · intro ht; rw [h, ht]; rfl
  · intro ht; rw [h, show F.eq (c.value F) f0 = true by simpa using ht]; rfl

/-- C67: `cond` evaluates the action of the first branch whose condition is true, and nothing after it. -/
theorem C67_cond (hm : Standard m) (bs : List (AExpr × LExpr)) (k : Nat) (hk : 1 ≤ k)
    (hb : ∀ b ∈ bs, b.1.Ok ∧ b.1.depth ≤ k ∧ ¬ IsTrue F (b.1.value F)) :
    (∀ (c : AExpr) (a : LExpr) (rest : List LExpr), c.Ok → c.depth ≤ k → IsTrue F (c.value F) →
      eval F (k + 1) (.list (.op (asc "cond") :: (bs.map (fun b => .list [b.1.expr, b.2]) ++ .list [c.expr, a] :: rest))) m = eval F k a m) ∧
    (∀ (a : LExpr) (rest : List LExpr),
      eval F (k + 1) (.list (.op (asc "cond") :: (bs.map (fun b => .list [b.1.expr, b.2]) ++ .list [.op (asc "else"), a] :: rest))) m = eval F k a m) ∧
    eval F (k + 1) (.list (.op (asc "cond") :: bs.map (fun b => .list [b.1.expr, b.2]))) m = .ok (.list [], m) := by
  refine ⟨fun c a rest hc hd ht => ?_, fun a rest => ?_, ?_⟩
  · rw [eval_call hm.cond]
    show condLoop F (eval F k) k _ m = _
    rw [cond_skip hm hk _ bs hb, cond_branch hm hk c hc hd, show F.eq (c.value F) f0 = false from ht]
    rfl
  · rw [eval_call hm.cond]
    show condLoop F (eval F k) k _ m = _
    rw [cond_skip hm hk _ bs hb, condLoop, bind_ok (show mustList (.list [.op (asc "else"), a]) m = .ok ([.op (asc "else"), a], m) from rfl)]
    rfl
  · rw [eval_call hm.cond]
    show condLoop F (eval F k) k _ m = _
    have := cond_skip hm hk [] bs hb
    rw [List.append_nil] at this
    rw [this]
    rfl

/-- C67: `and` and `or` do not evaluate what comes after the argument that decides. -/
theorem C67_and_or (hm : Standard m) (l : AList) (hl : l.Ok) (c : AExpr) (hc : c.Ok) (k : Nat) (hk : l.depth ≤ k) (hk' : c.depth ≤ k) (rest : List LExpr) :
    (¬ IsTrue F (c.value F) → eval F (k + 1) (.list (.op (asc "and") :: (l.exprs ++ c.expr :: rest))) m = .ok (.num f0, m)) ∧
    (IsTrue F (c.value F) → eval F (k + 1) (.list (.op (asc "or") :: (l.exprs ++ c.expr :: rest))) m = .ok (.num f1, m)) := by
  have h2 := l.two_le_depth
  have hx := numberFrom_expr c (Nat.le_trans h2 hk) (eval_arith (F := F) hm c hc hk') (by rintro y rfl; rfl)
  have hs := nums_arith (F := F) hm l hl hk
  constructor
  · intro ht
    rw [eval_call (hm.fn .all (by simp [Fn.names]))]
    exact logic_stop false _ rest hx (by unfold IsTrue at ht; simpa using ht) hs
  · intro ht
    rw [eval_call (hm.fn .any (by simp [Fn.names]))]
    exact logic_stop true _ rest hx (by unfold IsTrue at ht; simpa using ht) hs

/-- C67: after a definition, a call is the evaluation of the body with the arguments, as they are written, in place of the
parameters. Another number of arguments is refused. All other names mean what they did. -/
theorem C67_define (hm : Standard m) (f : Bytes) (params : List Bytes) (hp : params.Nodup) (body : LExpr) (j : Nat) :
    ∃ m', eval F (j + 1) (.list [.op (asc "define"), .list (.op f :: params.map .op), body]) m = .ok (.list [], m') ∧
      (∀ (args : List LExpr) (e : LExpr) (k : Nat), args.length = params.length → Replaced params args body e →
        eval F (k + 1) (.list (.op f :: args)) m' = eval F k e m') ∧
      (∀ (args : List LExpr) (k : Nat), args.length ≠ params.length → eval F (k + 1) (.list (.op f :: args)) m' = .error .arguments) ∧
      ∀ n, n ≠ f → m'.funcs n = m.funcs n ∧ m'.aliases n = m.aliases n := by
  refine ⟨_, define_eq hm f params body, fun args e k hl hr => ?_, fun args k hl => ?_, fun n hn => ?_⟩
  · rw [eval_call (defined_means f params body)]
    simp only [call]
    rw [if_pos hl, subst_eq hp hr]
  · rw [eval_call (defined_means f params body)]
    simp only [call]
    rw [if_neg hl]
    rfl
  · simp [Machine.defined, deleteKey, setKey, hn]

/-- C67: the factorials of main_test.go, for all numbers for which arithmetic is exact. -/
theorem C67_factorial {b : Nat} (hF : Exact F b) (j : Nat) :
    ∃ m', eval F (j + 1) (.list [.op (asc "define"), .list [.op (asc "fact"), .op (asc "n")], factBody F]) newMachine = .ok (.list [], m') ∧
      ∀ n : Nat, n.factorial ≤ b → ∀ k, 10 * n + 7 ≤ k →
        eval F k (.list [.op (asc "fact"), .num (F.ofInt n)]) m' = .ok (.num (F.ofInt (n.factorial : Nat)), m') := by
  have h0 : Standard newMachine := fun _ _ => ⟨rfl, rfl⟩
  refine ⟨_, define_eq h0 (asc "fact") [asc "n"] (factBody F), fun n hn k hk => ?_⟩
  exact fact_eval hF (defined_standard h0 (by kernel_rfl) (by kernel_rfl) _ _) (defined_means _ _ _) n 1 _ hn (.num _) k (by omega)

/-- C67: an alias of a function is that function; there are no aliases of aliases. -/
theorem C67_alias (hm : Standard m) (a b : Bytes) (j : Nat) :
    (m.funcs b = none → eval F (j + 1) (.list [.op (asc "alias"), .op a, .op b]) m = .error .notDefined) ∧
    (m.funcs b ≠ none → m.aliases b = none → a ≠ b →
      ∃ m', eval F (j + 1) (.list [.op (asc "alias"), .op a, .op b]) m = .ok (.list [], m') ∧
        ∀ (k : Nat) (args : List LExpr), eval F k (.list (.op a :: args)) m' = eval F k (.list (.op b :: args)) m') := by
  have ha : Means m (asc "alias") (.builtin .alias) := hm.plain (by decide +kernel) rfl
  constructor
  · intro hb
    rw [eval_call ha]
    show aliasFn [.op a, .op b] m = _
    simp only [aliasFn]
    rw [bind_ok (show mustName (.op a) m = .ok (a, m) from rfl), bind_ok (show mustName (.op b) m = .ok (b, m) from rfl), bind_ok (run_get m), hb]
    rfl
  · intro hb hn hab
    cases hf : m.funcs b with
    | none => exact absurd hf hb
    | some f =>
      refine ⟨{ m with aliases := setKey m.aliases a b }, ?_, fun k args => ?_⟩
      · rw [eval_call ha]
        show aliasFn [.op a, .op b] m = _
        simp only [aliasFn]
        rw [bind_ok (show mustName (.op a) m = .ok (a, m) from rfl), bind_ok (show mustName (.op b) m = .ok (b, m) from rfl), bind_ok (run_get m), hf]
        rfl
      · cases k with
        | zero => rfl
        | succ k =>
          rw [eval_call (Means.via (m := { m with aliases := setKey m.aliases a b }) (s := b) (by simp [setKey]) hf),
            eval_call (Means.plain (m := { m with aliases := setKey m.aliases a b }) (by simp [setKey, Ne.symm hab, hn]) hf)]

/-- C67: aliases point to functions, whatever has been evaluated. -/
theorem C67_aliases (h : Reached F m) : (∀ n s, m.aliases n = some s → m.funcs s ≠ none) ∧ ∀ k e, eval F k e m ≠ .error .badAlias := by
  have hok : AliasOk m := by
    induction h with
    | new =>
      intro n s hs
      simp only [newMachine, mapOf, Option.map_eq_some_iff] at hs
      obtain ⟨p, hp, rfl⟩ := hs
      have hp' := List.mem_of_find?_eq_some hp
      simp only [List.mem_cons, List.not_mem_nil, or_false] at hp'
      rcases hp' with rfl | rfl | rfl | rfl | rfl | rfl | rfl | rfl | rfl | rfl | rfl <;>
        exact fun h => absurd h (by intro h; cases h)
    | @eval m m' k e v _ he ih =>
      have := safe_eval (F := F) k e m ih
      rw [he] at this
      exact this
  refine ⟨hok, fun k e he => ?_⟩
  have := safe_eval (F := F) k e m hok
  rw [he] at this
  exact this rfl

/-- C67: more fuel does not change a result. So a result does not depend on the fuel. -/
theorem C67_fuel (k k' : Nat) (hk : k ≤ k') (e : LExpr) (h : eval F k e m ≠ .error .fuel) : eval F k' e m = eval F k e m :=
  (below_eval hk e m).resolve_left h

/-- C67: elements of lists, `(car (cdr (cdr ... l)))`. -/
theorem C67_nth (hm : Standard m) (l : List LExpr) (hl : Plain l) (i : Nat) (e : LExpr) (hi : l[i]? = some e) (k : Nat) (hk : i < k) :
    eval F (k + 1) (.list [.op (asc "car"), cdrs l i]) m = .ok (e, m) := by
  have hne : l ≠ [] := by rintro rfl; simp at hi
  rw [eval_call hm.car]
  show builtin F (eval F k) k .car [cdrs l i] m = _
  simp only [builtin]
  rw [bind_ok (unnest_cdrs hm hl hne i k hk), bind_ok (show mustList (.list (l.drop i)) m = .ok (l.drop i, m) from rfl)]
  have : l.drop i = e :: l.drop (i + 1) := by
    obtain ⟨h1, h2⟩ := List.getElem?_eq_some_iff.1 hi
    rw [List.drop_eq_getElem_cons h1, h2]
  rw [this]
  rfl

/-- C67: a list that is not a call, where a number is expected, is evaluated again and again. The comments of `and` and `or`
say that `(and ())` is true and `(or ())` false: both never return. -/
theorem C67_never_returns (hm : Standard m) (f : Fn) (name : Bytes) (hn : name ∈ f.names) (l : List LExpr) (hl : Plain l) (rest : List LExpr)
    (ht : f.Takes (rest.length + 1)) (k : Nat) : eval F k (.list (.op name :: .list l :: rest)) m = .error .fuel := by
  cases k with
  | zero => rfl
  | succ k =>
    rw [eval_call (hm.fn f hn)]
    exact fn_plain f ht (number_plain hl k k)

/-- C67: `not` does not negate. -/
theorem C67_not (hm : Standard m) (a : AExpr) (ha : a.Ok) (k : Nat) (hk : a.depth ≤ k) (hk2 : 2 ≤ k) :
    eval F (k + 1) (.list [.op (asc "not"), a.expr]) m = .ok (.num (truth (IsTrue F (a.value F))), m) := by
  rw [eval_call (hm.plain (f := .builtin .not) (by decide +kernel) rfl)]
  show builtin F (eval F k) k .not [a.expr] m = _
  simp only [builtin]
  rw [bind_ok (boolFrom_eq (numberFrom_expr a hk2 (eval_arith (F := F) hm a ha hk) (by rintro y rfl; rfl)))]
  unfold IsTrue
  cases h : F.eq (a.value F) f0 with
  | true => rw [truth_neg (by simp)]; rfl
  | false => rw [truth_pos rfl]; rfl

/-- C67: calling what is neither a function nor an alias panics. -/
theorem C67_undefined (o : Bytes) (ha : m.aliases o = none) (hf : m.funcs o = none) (rest : List LExpr) (k : Nat) :
    eval F (k + 1) (.list (.op o :: rest)) m = .error .undefined := by
  have : resolve o m = .ok (o, m) := by
    unfold resolve
    rw [bind_ok (show (get : Run Machine) m = .ok (m, m) from rfl), ha]
    rfl
  simp only [eval]
  rw [bind_ok this]
  show (match m.funcs o with | some f => call F (eval F k) k f rest | none => fail .undefined) m = _
  rw [hf]
  rfl

example (k : Nat) : eval F (k + 1) (.list [.op (asc "sqrt"), .num f1]) newMachine = .error .undefined :=
  C67_undefined _ (by decide +kernel) (by rfl) _ k

/-- C67: what is not a call is its own value. -/
theorem C67_itself (e : LExpr) (he : ∀ o rest, e ≠ .list (.op o :: rest)) (k : Nat) : eval F (k + 1) e m = .ok (e, m) := by
  simp only [eval]
  rfl

/-- C67: `list?` looks at the argument as it is written. The comment says that `(list? (+ 1 2 3))` is false. -/
theorem C67_list (hm : Standard m) (k : Nat) (l : List LExpr) : eval F (k + 1) (.list [.op (asc "list?"), .list l]) m = .ok (.num f1, m) := by
  rw [eval_call (hm.plain (f := .builtin .isList) (by decide +kernel) rfl)]
  rfl

/-- C67: `(car ())` and `(cdr ())` are out of range, though both have a case for empty lists. -/
theorem C67_empty (hm : Standard m) (k : Nat) :
    eval F (k + 1) (.list [.op (asc "car"), .list []]) m = .error .index ∧ eval F (k + 1) (.list [.op (asc "cdr"), .list []]) m = .error .index := by
  rw [eval_call hm.car, eval_call hm.cdr]
  exact ⟨rfl, rfl⟩

/-! ## Concrete cases -/

/-- In place of `float64`, for the examples: integers, with the bits of `1.` for 1 and of `0.` for 0. -/
def toInt (x : Float64) : Int :=
  if x = f1 then 1 else if x.toNat % 2 = 0 then x.toNat / 2 else -((x.toNat + 1) / 2)

/-- The other way round. -/
def ofInt (n : Int) : Float64 :=
  if n = 1 then f1 else UInt64.ofNat (if 0 ≤ n then 2 * n.toNat else 2 * n.natAbs - 1)

/-- Arithmetic of integers. -/
def intOps : FloatOps where
  ofInt := ofInt
  add x y := ofInt (toInt x + toInt y)
  sub x y := ofInt (toInt x - toInt y)
  mul x y := ofInt (toInt x * toInt y)
  mod x y := ofInt (Int.tmod (toInt x) (toInt y))
  eq x y := decide (toInt x = toInt y)
  lt x y := decide (toInt x < toInt y)
  le x y := decide (toInt x ≤ toInt y)

theorem toInt_ofInt (n : Int) (h : n.natAbs ≤ 2 ^ 53) : toInt (ofInt n) = n := by
  unfold ofInt
  by_cases h1 : n = 1
  · rw [if_pos h1, h1]; rfl
  rw [if_neg h1]
  have hlt : (if 0 ≤ n then 2 * n.toNat else 2 * n.natAbs - 1) < 2 ^ 55 := by split <;> omega
  have ht : (UInt64.ofNat (if 0 ≤ n then 2 * n.toNat else 2 * n.natAbs - 1)).toNat = if 0 ≤ n then 2 * n.toNat else 2 * n.natAbs - 1 := by
    rw [UInt64.toNat_ofNat']
    exact Nat.mod_eq_of_lt (by omega)
  unfold toInt
  rw [if_neg, ht]
  · split <;> split <;> omega
  · intro he
    have he := congrArg UInt64.toNat he
    rw [ht] at he
    have : f1.toNat = 0x3FF0000000000000 := rfl
    omega

theorem intOps_exact : Exact intOps (2 ^ 53) where
  one := rfl
  zero := rfl
  sub x y hx hy _ := by show ofInt (toInt (ofInt x) - toInt (ofInt y)) = _; rw [toInt_ofInt x hx, toInt_ofInt y hy]; rfl
  mul x y hx hy _ := by show ofInt (toInt (ofInt x) * toInt (ofInt y)) = _; rw [toInt_ofInt x hx, toInt_ofInt y hy]; rfl
  le x y hx hy := by show decide (toInt (ofInt x) ≤ toInt (ofInt y)) = _; rw [toInt_ofInt x hx, toInt_ofInt y hy]
  eq x y hx hy := by show decide (toInt (ofInt x) = toInt (ofInt y)) = _; rw [toInt_ofInt x hx, toInt_ofInt y hy]

theorem standard_new : Standard newMachine := fun _ _ => ⟨rfl, rfl⟩

/-- A number. -/
def int (i : Int) : LExpr := .num (ofInt i)

/-- A call. -/
def callE (s : String) (l : List LExpr) : LExpr := .list (.op (asc s) :: l)

-- (- (+ 1 2) (if (< 1 2 1) 5 7)) is -4
example : ∃ a : AExpr, a.Ok ∧ a.depth ≤ 6 ∧ a.expr = callE "-" [callE "+" [int 1, int 2], callE "if" [callE "<" [int 1, int 2, int 1], int 5, int 7]] ∧
    eval intOps 6 a.expr newMachine = .ok (int (-4), newMachine) := by
  refine ⟨.app .diff (asc "-") (.cons (.app .sum (asc "+") (.cons (.num (ofInt 1)) (.cons (.num (ofInt 2)) .nil)))
    (.cons (.ite (.app .lt (asc "<") (.cons (.num (ofInt 1)) (.cons (.num (ofInt 2)) (.cons (.num (ofInt 1)) .nil)))) (.num (ofInt 5)) (.num (ofInt 7))) .nil)),
    ?_, by decide, rfl, by kernel_rfl⟩
  simp [AExpr.Ok, AList.Ok, Fn.names, Fn.Takes, AList.length]

-- (* 6 -7), from the text to -42
example (u : UserString) : ∃ v, LibGives lispRx (lispLines Sample.notQuoteRe numberRe wordRe) (lispOps intOps.ofInt u) (asc "(* 6 -7)") (.ok (some (v, []))) ∧
    ∃ x, toExpr v = some x ∧ eval intOps 3 x newMachine = .ok (int (-42), newMachine) := by
  obtain ⟨v, h1, x, h2, h3⟩ := C67_text (F := intOps) classes_ex u
    (.list (.cons [] (.op [0x2A]) (.cons [0x20] (.num false [0x36]) (.cons [0x20] (.num true [0x37]) .nil))) [])
    (by simp only [SExpr.Ok, SItems.Ok]
        exact ⟨⟨by simp, by decide, .inr (by decide), by unfold IsSpace; decide, by decide, ⟨by decide, by unfold Arith.IsDigit; decide⟩, by unfold IsSpace; decide, by decide,
          ⟨by decide, by unfold Arith.IsDigit; decide⟩, trivial⟩, by simp⟩) (by decide) standard_new
    (.app .prod (asc "*") (.cons (.num (ofInt 6)) (.cons (.num (ofInt (-7))) .nil)))
    (by simp [AExpr.Ok, AList.Ok, Fn.names, Fn.Takes]) (by kernel_rfl)
  exact ⟨v, h1, x, h2, (h3 3 (by decide)).trans (by kernel_rfl)⟩

-- C67_if, C67_cond, C67_and_or: what is not evaluated may be anything
example : eval intOps 9 (callE "if" [int 0, callE "nonsense" [], int 2]) newMachine = .ok (int 2, newMachine) := by kernel_rfl
example : eval intOps 9 (callE "cond" [.list [callE ">" [int 6, int 9], int 1], .list [callE ">" [int 6, int 5], int 2], int 3]) newMachine = .ok (int 2, newMachine) := by kernel_rfl
example : eval intOps 9 (callE "or" [int 0, int 5, .str []]) newMachine = .ok (int 1, newMachine) := by kernel_rfl

-- the factorial of 18 is exact
example : ∃ m', eval intOps 1 (callE "define" [.list [.op (asc "fact"), .op (asc "n")], factBody intOps]) newMachine = .ok (.list [], m') ∧
    eval intOps 187 (callE "fact" [int 18]) m' = .ok (int 6402373705728000, m') := by
  obtain ⟨m', h1, h2⟩ := C67_factorial intOps_exact 0
  exact ⟨m', h1, h2 18 (by decide) 187 (by decide)⟩

-- (define (f x y) (- y x)), then (f 1 (+ 2 3)) is (- (+ 2 3) 1)
example : ∃ m', eval intOps 1 (callE "define" [.list [.op (asc "f"), .op (asc "x"), .op (asc "y")], callE "-" [.op (asc "y"), .op (asc "x")]]) newMachine = .ok (.list [], m') ∧
    (∀ k, eval intOps (k + 1) (callE "f" [int 1, callE "+" [int 2, int 3]]) m' = eval intOps k (callE "-" [callE "+" [int 2, int 3], int 1]) m') ∧
    eval intOps 5 (callE "f" [int 1]) m' = .error .arguments := by
  obtain ⟨m', h1, h2, h3, _⟩ := C67_define (F := intOps) standard_new (asc "f") [asc "x", asc "y"] (by decide +kernel) (callE "-" [.op (asc "y"), .op (asc "x")]) 0
  refine ⟨m', h1, fun k => h2 [int 1, callE "+" [int 2, int 3]] _ k rfl ?_, h3 [int 1] 4 (by decide)⟩
  exact .cons (.other (by decide +kernel)) (.cons (.param (i := 1) rfl rfl) (.cons (.param (i := 0) rfl rfl) .nil))

-- (alias foo add) works, (alias foo +) does not: + is an alias
example : newMachine.funcs (asc "add") ≠ none ∧ newMachine.aliases (asc "add") = none ∧ newMachine.funcs (asc "+") = none :=
  ⟨by (intro h; cases h), by kernel_rfl, by kernel_rfl⟩

-- a machine with another alias has been reached
example : ∃ m, Reached intOps m ∧ m.aliases (asc "foo") = some (asc "add") := by
  obtain ⟨m, h, _⟩ := (C67_alias (F := intOps) standard_new (asc "foo") (asc "add") 0).2 (by intro h; cases h) (by kernel_rfl) (by decide +kernel)
  refine ⟨m, .eval .new h, ?_⟩
  have : eval intOps 1 (.list [.op (asc "alias"), .op (asc "foo"), .op (asc "add")]) newMachine =
    .ok (.list [], { newMachine with aliases := setKey newMachine.aliases (asc "foo") (asc "add") }) := by rfl
  rw [this] at h
  cases h
  simp [setKey]

-- results that do not run out of fuel
example : eval intOps 3 (callE "+" [int 1, callE "*" [int 2, int 3]]) newMachine ≠ .error .fuel := by
  intro h
  have : eval intOps 3 (callE "+" [int 1, callE "*" [int 2, int 3]]) newMachine = .ok (int 7, newMachine) := by kernel_rfl
  rw [this] at h
  cases h

-- (car (cdr (cdr (10 "a" (9))))) is (9)
example : Plain [int 10, .str (asc "a"), .list [int 9]] ∧ [int 10, .str (asc "a"), .list [int 9]][2]? = some (.list [int 9]) :=
  ⟨by intro e he; cases he; rfl, rfl⟩

-- (and ()), (or ()) and (+ (1 2) 3) never return
example : (∀ k, eval intOps k (callE "and" [.list []]) newMachine = .error .fuel) ∧ (∀ k, eval intOps k (callE "or" [.list []]) newMachine = .error .fuel) ∧
    ∀ k, eval intOps k (callE "+" [.list [int 1, int 2], int 3]) newMachine = .error .fuel :=
  ⟨fun k => C67_never_returns standard_new .all _ (by simp [Fn.names]) [] (by intro e he; cases he) [] trivial k,
    fun k => C67_never_returns standard_new .any _ (by simp [Fn.names]) [] (by intro e he; cases he) [] trivial k,
    fun k => C67_never_returns standard_new .sum _ (by simp [Fn.names]) [int 1, int 2] (by intro e he; cases he; rfl) [int 3] trivial k⟩

-- (not 1) is 1 and (not (== 7 8)) is 0
example : eval intOps 9 (callE "not" [int 1]) newMachine = .ok (int 1, newMachine) ∧ eval intOps 9 (callE "not" [callE "==" [int 7, int 8]]) newMachine = .ok (int 0, newMachine) :=
  ⟨by kernel_rfl, by kernel_rfl⟩

end Joeson.Lisp
