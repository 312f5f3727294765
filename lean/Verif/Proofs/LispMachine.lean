import Verif.Spec.LispMachine
import Mathlib.Data.Nat.Factorial.Basic
/-!
# Lemmas about the machine of the Lisp example
-/

namespace Joeson.Lisp

theorem run_bind {α β : Type} (x : Run α) (f : α → Run β) (m : Machine) :
    (x >>= f) m = match x m with
      | .ok (a, m') => f a m'
      | .error e => .error e := by
  show (StateT.bind x f) m = _
  unfold StateT.bind
  show (x m >>= fun p => f p.1 p.2) = _
  cases x m with
  | ok p => rfl
  | error e => rfl

theorem bind_ok {α β : Type} {x : Run α} {f : α → Run β} {m m' : Machine} {a : α} (h : x m = .ok (a, m')) : (x >>= f) m = f a m' := by
  rw [run_bind, h]

theorem bind_error {α β : Type} {x : Run α} {f : α → Run β} {m : Machine} {e : Fault} (h : x m = .error e) : (x >>= f) m = .error e := by
  rw [run_bind, h]

theorem run_pure {α : Type} (a : α) (m : Machine) : (pure a : Run α) m = .ok (a, m) := rfl

theorem run_get (m : Machine) : (get : Run Machine) m = .ok (m, m) := rfl

theorem truth_pos {p : Prop} (h : p) : truth p = f1 := by unfold truth; rw [if_pos h]

theorem truth_neg {p : Prop} (h : ¬ p) : truth p = f0 := by unfold truth; rw [if_neg h]

/-! ## Names -/

/-- The name is that of a function of machine_primitives.go. -/
def Means (m : Machine) (n : Bytes) (f : Funcdef) : Prop :=
  ∃ op, resolve n m = .ok (op, m) ∧ m.funcs op = some f

theorem Means.plain {m : Machine} {n : Bytes} {f : Funcdef} (h : m.aliases n = none) (hf : m.funcs n = some f) : Means m n f := by
  refine ⟨n, ?_, hf⟩
  unfold resolve
  rw [bind_ok (run_get m), h]
  rfl

theorem Means.via {m : Machine} {n s : Bytes} {f : Funcdef} (h : m.aliases n = some s) (hf : m.funcs s = some f) : Means m n f := by
  refine ⟨s, ?_, hf⟩
  unfold resolve
  rw [bind_ok (run_get m), h]
  dsimp only
  rw [hf]
  rfl

theorem eval_call {F : FloatOps} {k : Nat} {m : Machine} {n : Bytes} {f : Funcdef} (h : Means m n f) (rest : List LExpr) :
    eval F (k + 1) (.list (.op n :: rest)) m = call F (eval F k) k f rest m := by
  obtain ⟨op, h1, h2⟩ := h
  rw [eval]
  rw [bind_ok h1, bind_ok (run_get m), h2]

/-- A name of machine.go:17-58 in a standard machine. -/
theorem Standard.plain {m : Machine} (h : Standard m) {n : Bytes} {f : Funcdef} (ha : newMachine.aliases n = none) (hf : newMachine.funcs n = some f) :
    Means m n f := by
  obtain ⟨h1, h2⟩ := h n (.inl (by rw [hf]; simp))
  exact .plain (h2.trans ha) (h1.trans hf)

theorem Standard.via {m : Machine} (h : Standard m) {n s : Bytes} {f : Funcdef} (ha : newMachine.aliases n = some s) (hf : newMachine.funcs s = some f) :
    Means m n f := by
  obtain ⟨_, h2⟩ := h n (.inr (by rw [ha]; simp))
  obtain ⟨h1, _⟩ := h s (.inl (by rw [hf]; simp))
  exact .via (h2.trans ha) (h1.trans hf)

/-- The function of machine_primitives.go. -/
def Fn.builtin : Fn → Builtin
  | .sum => .add | .diff => .sub | .prod => .mul | .rem => .remainder | .lt => .lt | .le => .le | .gt => .gt | .ge => .ge
  | .eq => .eq | .neq => .neq | .all => .and | .any => .or

theorem Standard.fn {m : Machine} (h : Standard m) (f : Fn) {n : Bytes} (hn : n ∈ f.names) : Means m n (.builtin f.builtin) := by
  cases f <;> simp only [Fn.names, List.mem_cons, List.not_mem_nil, or_false] at hn <;>
    (first
      | (rcases hn with rfl | rfl | rfl)
      | (rcases hn with rfl | rfl)
      | subst hn) <;>
    first
      | exact h.plain (by decide +kernel) rfl
      | exact h.via (s := asc "add") (by decide +kernel) rfl
      | exact h.via (s := asc "sub") (by decide +kernel) rfl
      | exact h.via (s := asc "mul") (by decide +kernel) rfl
      | exact h.via (s := asc "lt") (by decide +kernel) rfl
      | exact h.via (s := asc "le") (by decide +kernel) rfl
      | exact h.via (s := asc "gt") (by decide +kernel) rfl
      | exact h.via (s := asc "ge") (by decide +kernel) rfl
      | exact h.via (s := asc "eq") (by decide +kernel) rfl
      | exact h.via (s := asc "neq") (by decide +kernel) rfl

/-! ## Numbers -/

/-- The expressions are numbers, or have numbers as values; the machine stays as it is. -/
def Nums (ev : LExpr → Run LExpr) (k : Nat) (m : Machine) : List LExpr → List Float64 → Prop
  | [], [] => True
  | e :: es, v :: vs => numberFrom ev k e m = .ok (v, m) ∧ Nums ev k m es vs
  | _, _ => False

theorem Nums.length {ev : LExpr → Run LExpr} {k : Nat} {m : Machine} : ∀ {es : List LExpr} {vs : List Float64}, Nums ev k m es vs → es.length = vs.length
  | [], [], _ => rfl
  | _ :: _, _ :: _, h => by simp [h.2.length]

theorem foldNums_eq {ev : LExpr → Run LExpr} {k : Nat} {m : Machine} (f : Float64 → Float64 → Float64) :
    ∀ {es : List LExpr} {vs : List Float64} (r : Float64), Nums ev k m es vs → foldNums ev k f r es m = .ok (vs.foldl f r, m)
  | [], [], r, _ => rfl
  | _ :: _, v :: _, r, h => by
    rw [foldNums, bind_ok h.1]
    exact foldNums_eq f (f r v) h.2

open Classical in
theorem cmpLoop_eq {ev : LExpr → Run LExpr} {k : Nat} {m : Machine} (p : Float64 → Float64 → Bool) (r : Float64 → Float64 → Prop)
    (hp : ∀ a b, p a b = true ↔ r a b) :
    ∀ {es : List LExpr} {vs : List Float64} (x : Float64), Nums ev k m es vs →
      cmpLoop ev k p x es m = .ok (.num (truth (neighbours r (x :: vs))), m)
  | [], [], x, _ => by simp [cmpLoop, neighbours, truth, ofBool, run_pure]
  | _ :: _, v :: _, x, h => by
    rw [cmpLoop, bind_ok h.1]
    cases hc : p x v with
    | true =>
      simp only [↓reduceIte]
      rw [cmpLoop_eq p r hp v h.2]
      simp [neighbours, (hp x v).1 hc]
    | false =>
      have : ¬ r x v := fun hr => by rw [(hp x v).2 hr] at hc; cases hc
      simp [neighbours, this, truth, ofBool, run_pure]

theorem cmpNum_eq {ev : LExpr → Run LExpr} {k : Nat} {m : Machine} (p : Float64 → Float64 → Bool) (r : Float64 → Float64 → Prop)
    (hp : ∀ a b, p a b = true ↔ r a b) {es : List LExpr} {vs : List Float64} (h : Nums ev k m es vs) (hl : 2 ≤ es.length) :
    cmpNum ev k p es m = .ok (.num (truth (neighbours r vs)), m) := by
  match es, vs, h, hl with
  | e :: e' :: l, v :: v' :: vs, h, _ =>
    rw [cmpNum, bind_ok h.1]
    exact cmpLoop_eq p r hp v h.2

open Classical in
theorem logic_eq {F : FloatOps} {ev : LExpr → Run LExpr} {k : Nat} {m : Machine} (stop : Bool) :
    ∀ {es : List LExpr} {vs : List Float64}, Nums ev k m es vs →
      logic F ev k stop es m = .ok (ofBool (if ∃ x ∈ vs, (!F.eq x f0) = stop then stop else !stop), m)
  | [], [], _ => by simp [logic, run_pure]
  | e :: _, v :: vs, h => by
    have hb : boolFrom F ev k e m = .ok (!F.eq v f0, m) := by
      unfold boolFrom
      rw [bind_ok h.1]
      rfl
    rw [logic, bind_ok hb]
    by_cases hc : (!F.eq v f0) = stop
    · rw [if_pos hc, if_pos ⟨v, by simp, hc⟩]
      rfl
    · have he : (∃ x ∈ v :: vs, (!F.eq x f0) = stop) = (∃ x ∈ vs, (!F.eq x f0) = stop) := propext
        ⟨fun ⟨x, hx, h'⟩ => (List.mem_cons.1 hx).elim (fun e => absurd (e ▸ h') hc) (fun hx => ⟨x, hx, h'⟩),
          fun ⟨x, hx, h'⟩ => ⟨x, List.mem_cons_of_mem _ hx, h'⟩⟩
      rw [if_neg hc, logic_eq stop h.2]
      simp only [he]

theorem all_eq {F : FloatOps} {ev : LExpr → Run LExpr} {k : Nat} {m : Machine} {es : List LExpr} {vs : List Float64} (h : Nums ev k m es vs) :
    logic F ev k false es m = .ok (.num (truth (∀ x ∈ vs, IsTrue F x)), m) := by
  rw [logic_eq false h]
  unfold truth ofBool IsTrue
  by_cases hc : ∃ x ∈ vs, (!F.eq x f0) = false
  · rw [if_pos hc, if_neg (c := ∀ x ∈ vs, _)]
    · rfl
    · obtain ⟨x, hx, hx'⟩ := hc
      intro hall
      rw [hall x hx] at hx'
      cases hx'
  · rw [if_neg hc, if_pos (c := ∀ x ∈ vs, _)]
    · rfl
    · intro x hx
      cases hq : F.eq x f0 with
      | false => rfl
      | true => exact absurd ⟨x, hx, by rw [hq]; rfl⟩ hc

theorem any_eq {F : FloatOps} {ev : LExpr → Run LExpr} {k : Nat} {m : Machine} {es : List LExpr} {vs : List Float64} (h : Nums ev k m es vs) :
    logic F ev k true es m = .ok (.num (truth (∃ x ∈ vs, IsTrue F x)), m) := by
  rw [logic_eq true h]
  unfold truth ofBool IsTrue
  by_cases hc : ∃ x ∈ vs, (!F.eq x f0) = true
  · rw [if_pos hc, if_pos (c := ∃ x ∈ vs, F.eq x f0 = false)]
    · rfl
    · obtain ⟨x, hx, hx'⟩ := hc
      exact ⟨x, hx, by simpa using hx'⟩
  · rw [if_neg hc, if_neg (c := ∃ x ∈ vs, F.eq x f0 = false)]
    · rfl
    · rintro ⟨x, hx, hx'⟩
      exact hc ⟨x, hx, by simp [hx']⟩

/-- A function of numbers. -/
theorem fn_eq {F : FloatOps} {ev : LExpr → Run LExpr} {k : Nat} {m : Machine} (f : Fn) {es : List LExpr} {vs : List Float64}
    (h : Nums ev k m es vs) (ht : f.Takes es.length) : builtin F ev k f.builtin es m = .ok (.num (f.apply F vs), m) := by
  cases f with
  | sum => simp only [Fn.builtin, builtin]; rw [bind_ok (foldNums_eq _ _ h)]; rfl
  | prod => simp only [Fn.builtin, builtin]; rw [bind_ok (foldNums_eq _ _ h)]; rfl
  | diff =>
    match es, vs, h, ht with
    | e :: e' :: l, v :: v' :: vs, h, _ =>
      simp only [Fn.builtin, builtin]
      rw [bind_ok h.1, bind_ok (foldNums_eq _ _ h.2)]
      rfl
  | rem =>
    match es, vs, h, ht with
    | [e, e'], [v, v'], h, _ =>
      simp only [Fn.builtin, builtin]
      rw [bind_ok h.1, bind_ok h.2.1]
      rfl
  | lt => exact cmpNum_eq _ _ (by intros; rfl) h ht
  | le => exact cmpNum_eq _ _ (by intros; rfl) h ht
  | gt => exact cmpNum_eq _ _ (by intros; rfl) h ht
  | ge => exact cmpNum_eq _ _ (by intros; rfl) h ht
  | eq => exact cmpNum_eq _ _ (by intros; rfl) h ht
  | neq => exact cmpNum_eq _ _ (by intros; simp) h ht
  | all => exact all_eq h
  | any => exact any_eq h

/-! ## Arithmetic -/

theorem AList.exprs_length : ∀ l : AList, l.exprs.length = l.length
  | .nil => rfl
  | .cons _ l => by simp [AList.exprs, AList.length, AList.exprs_length l]

theorem AList.two_le_depth : ∀ l : AList, 2 ≤ l.depth
  | .nil => Nat.le_refl _
  | .cons _ l => Nat.le_trans l.two_le_depth (Nat.le_max_right _ _)

theorem AExpr.one_le_depth : ∀ a : AExpr, 1 ≤ a.depth
  | .num _ => Nat.le_refl _
  | .app _ _ _ => Nat.le_add_left ..
  | .ite _ _ _ => by unfold AExpr.depth; omega

/-- The number that an expression has as value. -/
theorem numberFrom_value {ev : LExpr → Run LExpr} {k : Nat} {m m' : Machine} {l : List LExpr} {x : Float64} (h : ev (.list l) m = .ok (.num x, m')) :
    numberFrom ev (k + 2) (.list l) m = .ok (x, m') := by
  rw [numberFrom, bind_ok h]
  rfl

theorem numberFrom_expr {ev : LExpr → Run LExpr} {k : Nat} {m : Machine} (a : AExpr) {x : Float64} (hk : 2 ≤ k) (h : ev a.expr m = .ok (.num x, m))
    (hx : ∀ y, a = .num y → y = x) : numberFrom ev k a.expr m = .ok (x, m) := by
  obtain ⟨k, rfl⟩ := Nat.exists_eq_add_of_le' hk
  cases a with
  | num y => rw [hx y rfl]; rfl
  | app f n l => exact numberFrom_value h
  | ite c t e => exact numberFrom_value h

theorem boolFrom_eq {F : FloatOps} {ev : LExpr → Run LExpr} {k : Nat} {m m' : Machine} {e : LExpr} {x : Float64} (h : numberFrom ev k e m = .ok (x, m')) :
    boolFrom F ev k e m = .ok (!F.eq x f0, m') := by
  unfold boolFrom
  rw [bind_ok h]
  rfl

theorem Standard.if_ {m : Machine} (h : Standard m) : Means m (asc "if") (.builtin .if_) := h.plain (by decide +kernel) rfl

/-- Only one of the branches is evaluated. -/
theorem if_eq {F : FloatOps} {k : Nat} {m m' : Machine} (hm : Standard m) {c : LExpr} {x : Float64} (t e : LExpr)
    (h : numberFrom (eval F k) k c m = .ok (x, m')) :
    eval F (k + 1) (.list [.op (asc "if"), c, t, e]) m = eval F k (if F.eq x f0 then e else t) m' := by
  rw [eval_call hm.if_]
  show builtin F (eval F k) k .if_ [c, t, e] m = _
  simp only [builtin]
  rw [bind_ok (boolFrom_eq h)]
  cases F.eq x f0 <;> rfl

mutual
theorem eval_arith {F : FloatOps} {m : Machine} (hm : Standard m) : ∀ (a : AExpr) {k : Nat}, a.Ok → a.depth ≤ k →
    eval F k a.expr m = .ok (.num (a.value F), m)
  | .num x, k, _, hk => by
    obtain ⟨k, rfl⟩ := Nat.exists_eq_add_of_le' hk
    rfl
  | .app f n l, k, h, hk => by
    unfold AExpr.Ok at h
    unfold AExpr.depth at hk
    obtain ⟨k, rfl⟩ := Nat.exists_eq_add_of_le' (Nat.le_trans (Nat.le_add_left 1 _) hk)
    rw [AExpr.expr, eval_call (hm.fn f h.1)]
    exact fn_eq f (nums_arith hm l h.2.2 (by omega)) (by rw [l.exprs_length]; exact h.2.1)
  | .ite c t e, k, h, hk => by
    unfold AExpr.Ok at h
    unfold AExpr.depth at hk
    obtain ⟨k, rfl⟩ := Nat.exists_eq_add_of_le' (Nat.le_trans (Nat.le_add_left 1 _) hk)
    have h1 := c.one_le_depth
    have hc := eval_arith (F := F) hm c (k := k) h.1 (by omega)
    rw [AExpr.expr, if_eq hm _ _ (numberFrom_expr c (by omega) hc (by rintro y rfl; rfl)), AExpr.value]
    unfold IsTrue
    cases F.eq (c.value F) f0 with
    | true => simpa using eval_arith hm e (k := k) h.2.2 (by omega)
    | false => simpa using eval_arith hm t (k := k) h.2.1 (by omega)
theorem nums_arith {F : FloatOps} {m : Machine} (hm : Standard m) : ∀ (l : AList) {k : Nat}, l.Ok → l.depth ≤ k →
    Nums (eval F k) k m l.exprs (l.values F)
  | .nil, _, _, _ => trivial
  | .cons a l, k, h, hk => by
    unfold AList.Ok at h
    have h2 := (AList.cons a l).two_le_depth
    unfold AList.depth at hk h2
    exact ⟨numberFrom_expr a (by omega) (eval_arith hm a h.1 (by omega)) (by rintro y rfl; rfl), nums_arith hm l h.2 (by omega)⟩
end

/-! ## Definitions -/

theorem bindArgs_none : ∀ {ks : List Bytes} {es : List LExpr} {s : Bytes}, s ∉ ks → bindArgs ks es s = none
  | [], _, _, _ => by unfold bindArgs; rfl
  | _ :: _, [], _, _ => by unfold bindArgs; rfl
  | k :: ks, _ :: es, s, h => by
    simp only [List.mem_cons, not_or] at h
    simp only [bindArgs]
    rw [bindArgs_none h.2, if_neg h.1]
    rfl

theorem bindArgs_some : ∀ {ks : List Bytes} {es : List LExpr} {s : Bytes} {e : LExpr} {i : Nat}, ks.Nodup → ks[i]? = some s → es[i]? = some e →
    bindArgs ks es s = some e
  | [], _, _, _, _, _, h, _ => by simp at h
  | _ :: _, [], _, _, _, _, _, h => by simp at h
  | k :: ks, _ :: es, s, e, 0, hd, h, h' => by
    simp only [List.getElem?_cons_zero, Option.some.injEq] at h h'
    subst h h'
    simp only [bindArgs]
    rw [bindArgs_none (List.nodup_cons.1 hd).1]
    simp
  | k :: ks, _ :: es, s, e, i + 1, hd, h, h' => by
    simp only [List.getElem?_cons_succ] at h h'
    simp only [bindArgs]
    rw [bindArgs_some (List.nodup_cons.1 hd).2 h h']
    rfl

theorem subst_eq {ks : List Bytes} {es : List LExpr} (hd : ks.Nodup) {e e' : LExpr} (h : Replaced ks es e e') : substArgs (bindArgs ks es) e = e' := by
  induction h with
  | str => simp [substArgs]
  | num => simp [substArgs]
  | param h h' => simp [substArgs, bindArgs_some hd h h']
  | other h => simp [substArgs, bindArgs_none h]
  | nil => simp [substArgs, substAll]
  | cons _ _ ih ih' =>
    simp only [substArgs, LExpr.list.injEq] at ih'
    simp [substArgs, substAll, ih, ih']

theorem argNames_op {m : Machine} : ∀ ks : List Bytes, argNames (ks.map .op) m = .ok (ks, m)
  | [] => rfl
  | k :: ks => by
    simp only [List.map_cons, argNames]
    rw [bind_ok (show mustName (.op k) m = .ok (k, m) from rfl), bind_ok (argNames_op ks)]
    rfl

/-- The machine after a definition. -/
def Machine.defined (m : Machine) (f : Bytes) (ks : List Bytes) (body : LExpr) : Machine :=
  { m with aliases := deleteKey m.aliases f, funcs := setKey m.funcs f (.user ks body) }

theorem Standard.define {m : Machine} (h : Standard m) : Means m (asc "define") (.builtin .define) := h.plain (by decide +kernel) rfl

theorem define_eq {F : FloatOps} {k : Nat} {m : Machine} (hm : Standard m) (f : Bytes) (ks : List Bytes) (body : LExpr) :
    eval F (k + 1) (.list [.op (asc "define"), .list (.op f :: ks.map .op), body]) m = .ok (.list [], m.defined f ks body) := by
  rw [eval_call hm.define]
  show defineFn [.list (.op f :: ks.map .op), body] m = _
  simp only [defineFn]
  rw [bind_ok (show mustList (.list (.op f :: ks.map .op)) m = .ok (.op f :: ks.map .op, m) from rfl)]
  dsimp only
  rw [bind_ok (show mustName (.op f) m = .ok (f, m) from rfl), bind_ok (argNames_op ks)]
  rfl

theorem defined_means {m : Machine} (f : Bytes) (ks : List Bytes) (body : LExpr) : Means (m.defined f ks body) f (.user ks body) :=
  .plain (by simp [Machine.defined, deleteKey]) (by simp [Machine.defined, setKey])

theorem defined_standard {m : Machine} (h : Standard m) {f : Bytes} (hf : newMachine.funcs f = none) (ha : newMachine.aliases f = none)
    (ks : List Bytes) (body : LExpr) : Standard (m.defined f ks body) := by
  intro n hn
  have hne : n ≠ f := by rintro rfl; simp [hf, ha] at hn
  simpa [Machine.defined, deleteKey, setKey, hne] using h n hn

/-! ## Factorials -/

/-- A number whatever is left of the fuel. -/
def Number (F : FloatOps) (m : Machine) (n : Nat) (e : LExpr) (x : Float64) : Prop :=
  ∀ k, n ≤ k → numberFrom (eval F k) k e m = .ok (x, m)

theorem Number.num {F : FloatOps} {m : Machine} (x : Float64) : Number F m 1 (.num x) x := by
  intro k hk
  obtain ⟨k, rfl⟩ := Nat.exists_eq_add_of_le' hk
  rfl

theorem Number.mono {F : FloatOps} {m : Machine} {n n' : Nat} {e : LExpr} {x : Float64} (h : Number F m n e x) (hn : n ≤ n') : Number F m n' e x :=
  fun k hk => h k (Nat.le_trans hn hk)

theorem Number.of_eval {F : FloatOps} {m : Machine} {n : Nat} {l : List LExpr} {x : Float64} (h : ∀ k, n ≤ k → eval F k (.list l) m = .ok (.num x, m)) :
    Number F m (max n 2) (.list l) x := by
  intro k hk
  obtain ⟨k, rfl⟩ := Nat.exists_eq_add_of_le' (Nat.le_trans (Nat.le_max_right _ _) hk)
  exact numberFrom_value (h _ (Nat.le_trans (Nat.le_max_left _ _) hk))

theorem eval_fn {F : FloatOps} {m : Machine} (hm : Standard m) (f : Fn) {name : Bytes} (hn : name ∈ f.names) (ht : f.Takes 2) {n : Nat} {a b : LExpr}
    {x y : Float64} (ha : Number F m n a x) (hb : Number F m n b y) (k : Nat) (hk : n + 1 ≤ k) :
    eval F k (.list [.op name, a, b]) m = .ok (.num (f.apply F [x, y]), m) := by
  obtain ⟨k, rfl⟩ := Nat.exists_eq_add_of_le' (Nat.le_trans (Nat.le_add_left 1 n) hk)
  rw [eval_call (hm.fn f hn)]
  exact fn_eq f ⟨ha _ (by omega), hb _ (by omega), trivial⟩ ht

theorem body_replaced {F : FloatOps} (e : LExpr) : Replaced [asc "n"] [e] (factBody F)
    (.list [.op (asc "if"), .list [.op (asc "<="), e, .num (F.ofInt 0)], .num (F.ofInt 1),
      .list [.op (asc "*"), e, .list [.op (asc "fact"), .list [.op (asc "-"), e, .num (F.ofInt 1)]]]]) := by
  have hn : Replaced [asc "n"] [e] (.op (asc "n")) e := .param (i := 0) rfl rfl
  unfold factBody
  refine .cons (.other (by decide +kernel)) (.cons (.cons (.other (by decide +kernel)) (.cons hn (.cons .num .nil))) (.cons .num (.cons ?_ .nil)))
  exact .cons (.other (by decide +kernel)) (.cons hn (.cons (.cons (.other (by decide +kernel)) (.cons
    (.cons (.other (by decide +kernel)) (.cons hn (.cons .num .nil))) .nil)) .nil))

theorem fact_step {F : FloatOps} {b : Nat} (hF : Exact F b) {m : Machine} (hm : Standard m) (hf : Means m (asc "fact") (.user [asc "n"] (factBody F)))
    {j : Nat} (hj : j ≤ b) (hb : 1 ≤ b) {n : Nat} {e : LExpr} (he : Number F m n e (F.ofInt j)) (k : Nat) (hk : n + 3 ≤ k) :
    eval F (k + 2) (.list [.op (asc "fact"), e]) m = eval F k (if j = 0 then .num (F.ofInt 1) else
      .list [.op (asc "*"), e, .list [.op (asc "fact"), .list [.op (asc "-"), e, .num (F.ofInt 1)]]]) m := by
  rw [eval_call hf]
  simp only [call, List.length_cons, List.length_nil, ↓reduceIte]
  rw [subst_eq (by simp) (body_replaced e)]
  have hle := Number.of_eval (eval_fn hm .le (name := asc "<=") (by simp [Fn.names]) (Nat.le_refl 2) (he.mono (Nat.le_add_right n 1))
    ((Number.num (F.ofInt 0)).mono (Nat.le_add_left 1 n)))
  rw [if_eq hm _ _ (hle k (by omega))]
  have h0 := hF.le j 0 (by simpa using hj) (by simp)
  by_cases hz : j = 0
  · subst hz
    have h1 := hF.eq 1 0 (by simpa using hb) (by simp)
    rw [hF.one, hF.zero] at h1
    have : Fn.le.apply F [F.ofInt (0 : Nat), F.ofInt 0] = f1 := by
      exact truth_pos ⟨h0.trans rfl, trivial⟩
    rw [this, h1]
    simp
  · have h1 := hF.eq 0 0 (by simp) (by simp)
    rw [hF.zero] at h1
    have : Fn.le.apply F [F.ofInt j, F.ofInt 0] = f0 := by
      refine truth_neg fun h => ?_
      have := of_decide_eq_true (h0.symm.trans h.1)
      omega
    rw [this, h1, if_neg hz]
    simp

theorem fact_eval {F : FloatOps} {b : Nat} (hF : Exact F b) {m : Machine} (hm : Standard m) (hf : Means m (asc "fact") (.user [asc "n"] (factBody F))) :
    ∀ (j : Nat) (n : Nat) (e : LExpr), j.factorial ≤ b → Number F m n e (F.ofInt j) →
      ∀ k, n + 10 * j + 6 ≤ k → eval F k (.list [.op (asc "fact"), e]) m = .ok (.num (F.ofInt (j.factorial : Nat)), m) := by
  intro j
  induction j with
  | zero =>
    intro n e hb he k hk
    obtain ⟨k, rfl⟩ := Nat.exists_eq_add_of_le' (show 3 ≤ k by omega)
    rw [fact_step hF hm hf (Nat.zero_le _) hb he (k + 1) (by omega)]
    rfl
  | succ j ih =>
    intro n e hb he k hk
    have hj : j + 1 ≤ b := Nat.le_trans (Nat.self_le_factorial _) hb
    have hjb : j.factorial ≤ b := Nat.le_trans (Nat.factorial_le (Nat.le_succ j)) hb
    obtain ⟨k, rfl⟩ := Nat.exists_eq_add_of_le' (show 2 ≤ k by omega)
    rw [fact_step hF hm hf hj (by omega) he k (by omega), if_neg (Nat.succ_ne_zero j)]
    have hsub := Number.of_eval (eval_fn hm .diff (name := asc "-") (by simp [Fn.names]) (Nat.le_refl 2) (he.mono (Nat.le_add_right n 1))
      ((Number.num (F.ofInt 1)).mono (Nat.le_add_left 1 n)))
    have hv : Fn.diff.apply F [F.ofInt (j + 1 : Nat), F.ofInt 1] = F.ofInt j := by
      simp only [Fn.apply, List.tail_cons, List.headD_cons, List.foldl_cons, List.foldl_nil]
      rw [hF.sub _ _ (by omega) (by omega) (by omega)]
      congr 1
      omega
    rw [hv] at hsub
    have hrec := Number.of_eval (ih _ _ hjb hsub)
    rw [eval_fn hm .prod (name := asc "*") (by simp [Fn.names]) trivial (he.mono (n' := n + 10 * j + 10) (by omega)) (hrec.mono (by omega)) k (by omega)]
    have hm1 : Fn.prod.apply F [F.ofInt (j + 1 : Nat), F.ofInt (j.factorial : Nat)] = F.ofInt ((j + 1).factorial : Nat) := by
      simp only [Fn.apply, List.foldl_cons, List.foldl_nil]
      rw [← hF.one, hF.mul _ _ (by omega) (by omega) (by omega), Int.one_mul]
      have : ((j + 1 : Nat) : Int) * (j.factorial : Nat) = ((j + 1).factorial : Nat) := by
        rw [Nat.factorial_succ]; push_cast; rfl
      rw [hF.mul _ _ (by omega) (by omega) (by rw [this]; omega), this]
    rw [hm1]

/-! ## More fuel -/

/-- With more fuel nothing changes, unless there was not enough. -/
def Below {α : Type} (x y : Run α) : Prop := ∀ m, x m = .error .fuel ∨ y m = x m

theorem Below.refl {α : Type} (x : Run α) : Below x x := fun _ => .inr rfl

theorem Below.fuel {α : Type} (y : Run α) : Below (fail .fuel) y := fun _ => .inl rfl

theorem Below.bind {α β : Type} {x y : Run α} {f g : α → Run β} (h : Below x y) (hf : ∀ a, Below (f a) (g a)) : Below (x >>= f) (y >>= g) := by
  intro m
  rcases h m with h | h
  · exact .inl (bind_error h)
  · rw [run_bind x, run_bind y, h]
    cases x m with
    | error e => exact .inr rfl
    | ok p => exact hf p.1 p.2

section
variable {F : FloatOps} {ev ev' : LExpr → Run LExpr} (h : ∀ e, Below (ev e) (ev' e)) {k k' : Nat} (hk : k ≤ k')
include h

theorem below_number : ∀ {k k' : Nat} (_ : k ≤ k') (e : LExpr), Below (numberFrom ev k e) (numberFrom ev' k' e)
  | 0, _, _, _ => by unfold numberFrom; exact .fuel _
  | k + 1, k' + 1, hk, e => by
    cases e with
    | list l =>
      simp only [numberFrom]
      exact (h _).bind fun v => below_number (by omega) v
    | _ => exact .refl _

include hk

theorem below_bool (e : LExpr) : Below (boolFrom F ev k e) (boolFrom F ev' k' e) :=
  (below_number h hk e).bind fun _ => .refl _

theorem below_fold (f : Float64 → Float64 → Float64) : ∀ (r : Float64) (l : List LExpr), Below (foldNums ev k f r l) (foldNums ev' k' f r l)
  | _, [] => .refl _
  | _, e :: l => (below_number h hk e).bind fun _ => below_fold f _ l

theorem below_cmp (p : Float64 → Float64 → Bool) : ∀ (x : Float64) (l : List LExpr), Below (cmpLoop ev k p x l) (cmpLoop ev' k' p x l)
  | _, [] => .refl _
  | x, e :: l => (below_number h hk e).bind fun y => by
    split
    · exact below_cmp p _ l
    · exact .refl _

theorem below_cmpNum (p : Float64 → Float64 → Bool) (l : List LExpr) : Below (cmpNum ev k p l) (cmpNum ev' k' p l) := by
  match l with
  | [] => exact .refl _
  | [_] => exact .refl _
  | e :: e' :: l => exact (below_number h hk e).bind fun _ => below_cmp h hk p _ _

theorem below_logic (stop : Bool) : ∀ l : List LExpr, Below (logic F ev k stop l) (logic F ev' k' stop l)
  | [] => .refl _
  | e :: l => (below_bool h hk e).bind fun b => by
    split
    · exact .refl _
    · exact below_logic stop l

omit hk in
theorem below_unnest (l : List LExpr) : Below (unnest ev l) (unnest ev' l) := by
  unfold unnest
  split
  · exact h _
  all_goals exact .refl _

theorem below_cond : ∀ l : List LExpr, Below (condLoop F ev k l) (condLoop F ev' k' l)
  | [] => .refl _
  | branch :: rest => by
    have hr := below_cond rest
    have hb : ∀ (e a : LExpr), Below (do let b ← boolFrom F ev k e; if b then ev a else condLoop F ev k rest)
        (do let b ← boolFrom F ev' k' e; if b then ev' a else condLoop F ev' k' rest) := fun e a =>
      (below_bool h hk e).bind fun b => by
        cases b with
        | true => exact h a
        | false => exact hr
    unfold condLoop
    refine (Below.refl _).bind fun a => ?_
    split
    · split
      · split
        · exact h _
        · exact hb _ _
      · exact (h _).bind fun v => hb _ _
      · exact hb _ _
    · exact .refl _

theorem below_builtin (b : Builtin) (a : List LExpr) : Below (builtin F ev k b a) (builtin F ev' k' b a) := by
  cases b <;> simp only [builtin]
  case add => exact (below_fold h hk _ _ _).bind fun _ => .refl _
  case sub =>
    split
    · exact (below_number h hk _).bind fun _ => (below_fold h hk _ _ _).bind fun _ => .refl _
    · exact .refl _
  case mul => exact (below_fold h hk _ _ _).bind fun _ => .refl _
  case car => exact (below_unnest h a).bind fun _ => .refl _
  case cdr => exact (below_unnest h a).bind fun _ => .refl _
  case «alias» => exact .refl _
  case define => exact .refl _
  case and => exact below_logic h hk _ _
  case or => exact below_logic h hk _ _
  case not =>
    split
    · exact (below_bool h hk _).bind fun _ => .refl _
    · exact .refl _
  case if_ =>
    split
    · refine (below_bool h hk _).bind fun b => ?_
      split
      · exact h _
      · exact h _
    · exact .refl _
  case cond => exact below_cond h hk _
  case isList => exact .refl _
  case remainder =>
    split
    · exact (below_number h hk _).bind fun _ => (below_number h hk _).bind fun _ => .refl _
    · exact .refl _
  all_goals exact below_cmpNum h hk _ _

theorem below_call (f : Funcdef) (a : List LExpr) : Below (call F ev k f a) (call F ev' k' f a) := by
  cases f with
  | builtin b => exact below_builtin h hk b a
  | user ks body =>
    simp only [call]
    split
    · exact h _
    · exact .refl _

end

theorem below_eval {F : FloatOps} : ∀ {k k' : Nat} (_ : k ≤ k') (e : LExpr), Below (eval F k e) (eval F k' e)
  | 0, _, _, _ => by unfold eval; exact .fuel _
  | k + 1, k' + 1, hk, e => by
    unfold eval
    split
    · refine (Below.refl _).bind fun op => (Below.refl _).bind fun m => ?_
      split
      · exact below_call (fun e => below_eval (by omega) e) (by omega) _ _
      · exact .refl _
    · exact .refl _

/-! ## Aliases -/

/-- Aliases point to functions. -/
def AliasOk (m : Machine) : Prop := ∀ n s, m.aliases n = some s → m.funcs s ≠ none

/-- Aliases keep pointing to functions, and that is never what is complained about. -/
def Safe {α : Type} (x : Run α) : Prop :=
  ∀ m, AliasOk m → match x m with
    | .ok (_, m') => AliasOk m'
    | .error e => e ≠ .badAlias

theorem Safe.pure {α : Type} (a : α) : Safe (pure a : Run α) := fun _ h => h

theorem Safe.fail {α : Type} {e : Fault} (h : e ≠ .badAlias) : Safe (fail e : Run α) := fun _ _ => h

theorem Safe.get : Safe (get : Run Machine) := fun _ h => h

theorem Safe.bind {α β : Type} {x : Run α} {f : α → Run β} (h : Safe x) (hf : ∀ a, Safe (f a)) : Safe (x >>= f) := by
  intro m hm
  have h1 := h m hm
  rw [run_bind]
  cases hx : x m with
  | error e => rw [hx] at h1; exact h1
  | ok p => rw [hx] at h1; exact hf p.1 p.2 h1

theorem Safe.mustName (e : LExpr) : Safe (mustName e) := by
  unfold Lisp.mustName
  split
  · exact .pure _
  · exact .pure _
  · exact .fail (by decide)

theorem Safe.mustList (e : LExpr) : Safe (mustList e) := by
  unfold Lisp.mustList
  split
  · exact .pure _
  · exact .fail (by decide)

theorem Safe.argNames : ∀ l : List LExpr, Safe (argNames l)
  | [] => .pure _
  | e :: l => (Safe.mustName e).bind fun _ => (Safe.argNames l).bind fun _ => .pure _

theorem Safe.alias (l : List LExpr) : Safe (aliasFn l) := by
  unfold aliasFn
  split
  · refine (Safe.mustName _).bind fun a => (Safe.mustName _).bind fun b => ?_
    intro m hm
    rw [bind_ok (run_get m)]
    cases hf : m.funcs b with
    | none => exact (by decide : Fault.notDefined ≠ .badAlias)
    | some f =>
      show AliasOk _
      intro n s hs
      simp only [setKey] at hs
      split at hs
      · cases hs; simp [hf]
      · exact hm n s hs
  · exact .fail (by decide)

theorem Safe.define (l : List LExpr) : Safe (defineFn l) := by
  unfold defineFn
  split
  · refine (Safe.mustList _).bind fun d => ?_
    split
    · exact .fail (by decide)
    · refine (Safe.mustName _).bind fun f => (Safe.argNames _).bind fun ks => ?_
      intro m hm
      show AliasOk _
      intro n s hs
      simp only [deleteKey] at hs
      simp only [setKey]
      split at hs
      · cases hs
      · split
        · simp
        · exact hm n s hs
  · exact .fail (by decide)

section
variable {F : FloatOps} {ev : LExpr → Run LExpr} (h : ∀ e, Safe (ev e))
include h

theorem safe_number : ∀ (k : Nat) (e : LExpr), Safe (numberFrom ev k e)
  | 0, _ => by unfold numberFrom; exact .fail (by decide)
  | k + 1, e => by
    cases e with
    | list l => exact (h _).bind fun v => safe_number k v
    | num x => exact .pure _
    | _ => exact .fail (by decide)

theorem safe_bool (k : Nat) (e : LExpr) : Safe (boolFrom F ev k e) := (safe_number h k e).bind fun _ => .pure _

theorem safe_fold (k : Nat) (f : Float64 → Float64 → Float64) : ∀ (r : Float64) (l : List LExpr), Safe (foldNums ev k f r l)
  | _, [] => .pure _
  | _, e :: l => (safe_number h k e).bind fun _ => safe_fold k f _ l

theorem safe_cmp (k : Nat) (p : Float64 → Float64 → Bool) : ∀ (x : Float64) (l : List LExpr), Safe (cmpLoop ev k p x l)
  | _, [] => .pure _
  | _, e :: l => (safe_number h k e).bind fun y => by
    split
    · exact safe_cmp k p _ l
    · exact .pure _

theorem safe_cmpNum (k : Nat) (p : Float64 → Float64 → Bool) (l : List LExpr) : Safe (cmpNum ev k p l) := by
  match l with
  | [] => exact .fail (by decide)
  | [_] => exact .fail (by decide)
  | e :: e' :: l => exact (safe_number h k e).bind fun _ => safe_cmp h k p _ _

theorem safe_logic (k : Nat) (stop : Bool) : ∀ l : List LExpr, Safe (logic F ev k stop l)
  | [] => .pure _
  | e :: l => (safe_bool h k e).bind fun b => by
    split
    · exact .pure _
    · exact safe_logic k stop l

theorem safe_unnest (l : List LExpr) : Safe (unnest ev l) := by
  unfold unnest
  split
  · exact h _
  · exact .pure _
  all_goals exact .fail (by decide)

theorem safe_cond (k : Nat) : ∀ l : List LExpr, Safe (condLoop F ev k l)
  | [] => .pure _
  | branch :: rest => by
    have hr := safe_cond k rest
    have hb : ∀ (e a : LExpr), Safe (do let b ← boolFrom F ev k e; if b then ev a else condLoop F ev k rest) := fun e a =>
      (safe_bool h k e).bind fun b => by
        cases b with
        | true => exact h a
        | false => exact hr
    unfold condLoop
    refine (Safe.mustList _).bind fun a => ?_
    split
    · split
      · split
        · exact h _
        · exact hb _ _
      · exact (h _).bind fun v => hb _ _
      · exact hb _ _
    · exact .fail (by decide)

theorem safe_builtin (k : Nat) (b : Builtin) (a : List LExpr) : Safe (builtin F ev k b a) := by
  cases b <;> simp only [builtin]
  case add => exact (safe_fold h k _ _ _).bind fun _ => .pure _
  case sub =>
    split
    · exact (safe_number h k _).bind fun _ => (safe_fold h k _ _ _).bind fun _ => .pure _
    · exact .fail (by decide)
  case mul => exact (safe_fold h k _ _ _).bind fun _ => .pure _
  case car =>
    refine (safe_unnest h a).bind fun _ => (Safe.mustList _).bind fun l => ?_
    split
    · exact .pure _
    · exact .fail (by decide)
  case cdr => exact (safe_unnest h a).bind fun _ => (Safe.mustList _).bind fun l => .pure _
  case «alias» => exact .alias _
  case define => exact .define _
  case and => exact safe_logic h k _ _
  case or => exact safe_logic h k _ _
  case not =>
    split
    · exact (safe_bool h k _).bind fun _ => .pure _
    · exact .fail (by decide)
  case if_ =>
    split
    · refine (safe_bool h k _).bind fun b => ?_
      split
      · exact h _
      · exact h _
    · exact .fail (by decide)
  case cond => exact safe_cond h k _
  case isList =>
    split
    · exact .pure _
    · exact .pure _
    · exact .fail (by decide)
  case remainder =>
    split
    · exact (safe_number h k _).bind fun _ => (safe_number h k _).bind fun _ => .pure _
    · exact .fail (by decide)
  all_goals exact safe_cmpNum h k _ _

end

theorem safe_resolve (op : Bytes) : Safe (resolve op) := by
  intro m hm
  unfold resolve
  rw [bind_ok (run_get m)]
  cases ha : m.aliases op with
  | none => exact hm
  | some s =>
    cases hf : m.funcs s with
    | none => exact absurd hf (hm op s ha)
    | some f => simp only [hf]; exact hm

theorem safe_eval {F : FloatOps} : ∀ (k : Nat) (e : LExpr), Safe (eval F k e)
  | 0, _ => by unfold eval; exact .fail (by decide)
  | k + 1, e => by
    unfold eval
    split
    · refine (safe_resolve _).bind fun op => Safe.get.bind fun m => ?_
      split
      · rename_i f _
        cases f with
        | builtin b => exact safe_builtin (safe_eval k) k b _
        | user ks body =>
          simp only [call]
          split
          · exact safe_eval k _
          · exact .fail (by decide)
      · exact .fail (by decide)
    · exact .pure _

/-! ## Lists -/

theorem Standard.car {m : Machine} (h : Standard m) : Means m (asc "car") (.builtin .car) := h.plain (by decide +kernel) rfl
theorem Standard.cdr {m : Machine} (h : Standard m) : Means m (asc "cdr") (.builtin .cdr) := h.plain (by decide +kernel) rfl

theorem eval_plain {F : FloatOps} {k : Nat} {l : List LExpr} (h : Plain l) (m : Machine) : eval F (k + 1) (.list l) m = .ok (.list l, m) := by
  match l, h with
  | [], _ => rfl
  | .op o :: l, h => exact absurd (h (.op o) (by simp)) (by simp [LExpr.isOp])
  | .str _ :: _, _ => rfl
  | .num _ :: _, _ => rfl
  | .list _ :: _, _ => rfl

theorem unnest_cdrs {F : FloatOps} {m : Machine} (hm : Standard m) {l : List LExpr} (hl : Plain l) (hne : l ≠ []) :
    ∀ (i k : Nat), i < k → unnest (eval F k) [cdrs l i] m = .ok (.list (l.drop i), m)
  | 0, k, _ => by
    match l, hne with
    | e :: l, _ =>
      have := hl e (by simp)
      cases e with
      | op o => simp [LExpr.isOp] at this
      | _ => rfl
  | i + 1, k + 1, h => by
    show eval F (k + 1) (.list [.op (asc "cdr"), cdrs l i]) m = _
    rw [eval_call hm.cdr]
    show builtin F (eval F k) k .cdr [cdrs l i] m = _
    simp only [builtin]
    rw [bind_ok (unnest_cdrs hm hl hne i k (by omega)), bind_ok (show mustList (.list (l.drop i)) m = .ok (l.drop i, m) from rfl)]
    simp [run_pure]

/-! ## Never returning -/

theorem number_plain {F : FloatOps} {m : Machine} {l : List LExpr} (h : Plain l) (j : Nat) : ∀ k, numberFrom (eval F j) k (.list l) m = .error .fuel
  | 0 => rfl
  | k + 1 => by
    cases j with
    | zero => exact bind_error rfl
    | succ j =>
      rw [numberFrom, bind_ok (eval_plain h m)]
      exact number_plain h _ k

theorem fn_plain {F : FloatOps} {m : Machine} (f : Fn) {ev : LExpr → Run LExpr} {k : Nat} {e : LExpr} {rest : List LExpr} (ht : f.Takes (rest.length + 1))
    (h : numberFrom ev k e m = .error .fuel) : builtin F ev k f.builtin (e :: rest) m = .error .fuel := by
  have hc : ∀ p, 2 ≤ rest.length + 1 → cmpNum ev k p (e :: rest) m = .error .fuel := by
    intro p hl
    match rest, hl with
    | e' :: l, _ => rw [cmpNum]; exact bind_error h
  have hlog : ∀ s, logic F ev k s (e :: rest) m = .error .fuel := by
    intro s
    rw [logic]
    exact bind_error (by unfold boolFrom; exact bind_error h)
  cases f with
  | sum => exact bind_error (by rw [foldNums]; exact bind_error h)
  | prod => exact bind_error (by rw [foldNums]; exact bind_error h)
  | diff =>
    match rest, ht with
    | e' :: l, _ => exact bind_error h
  | rem =>
    match rest, ht with
    | [e'], _ => exact bind_error h
  | all => exact hlog _
  | any => exact hlog _
  | lt => exact hc _ ht
  | le => exact hc _ ht
  | gt => exact hc _ ht
  | ge => exact hc _ ht
  | eq => exact hc _ ht
  | neq => exact hc _ ht

/-! ## Branches -/

theorem Standard.cond {m : Machine} (h : Standard m) : Means m (asc "cond") (.builtin .cond) := h.plain (by decide +kernel) rfl

theorem cond_branch {F : FloatOps} {m : Machine} (hm : Standard m) {k : Nat} (hk : 1 ≤ k) (c : AExpr) (hc : c.Ok) (hd : c.depth ≤ k) (a : LExpr) (rest : List LExpr) :
    condLoop F (eval F k) k (.list [c.expr, a] :: rest) m =
      if F.eq (c.value F) f0 then condLoop F (eval F k) k rest m else eval F k a m := by
  have he := eval_arith (F := F) hm c hc hd
  have hb : boolFrom F (eval F k) k (.num (c.value F)) m = .ok (!F.eq (c.value F) f0, m) := by
    obtain ⟨k, rfl⟩ := Nat.exists_eq_add_of_le' hk
    exact boolFrom_eq rfl
  have hif : ∀ x y : Run LExpr, (if (!F.eq (c.value F) f0) = true then x else y) m = if F.eq (c.value F) f0 then y m else x m := by
    intro x y
    cases F.eq (c.value F) f0 <;> rfl
  rw [condLoop, bind_ok (show mustList (.list [c.expr, a]) m = .ok ([c.expr, a], m) from rfl)]
  cases c with
  | num x => dsimp only [AExpr.expr]; rw [AExpr.value] at *; rw [bind_ok hb]; exact hif _ _
  | app f n l => dsimp only [AExpr.expr]; rw [AExpr.expr] at he; rw [bind_ok he, bind_ok hb]; exact hif _ _
  | ite c t e => dsimp only [AExpr.expr]; rw [AExpr.expr] at he; rw [bind_ok he, bind_ok hb]; exact hif _ _

theorem cond_skip {F : FloatOps} {m : Machine} (hm : Standard m) {k : Nat} (hk : 1 ≤ k) (rest : List LExpr) :
    ∀ bs : List (AExpr × LExpr), (∀ b ∈ bs, b.1.Ok ∧ b.1.depth ≤ k ∧ ¬ IsTrue F (b.1.value F)) →
      condLoop F (eval F k) k (bs.map (fun b => .list [b.1.expr, b.2]) ++ rest) m = condLoop F (eval F k) k rest m
  | [], _ => rfl
  | b :: bs, h => by
    obtain ⟨h1, h2, h3⟩ := h b (by simp)
    rw [List.map_cons, List.cons_append, cond_branch hm hk b.1 h1 h2, if_pos (by unfold IsTrue at h3; simpa using h3)]
    exact cond_skip hm hk rest bs fun b hb => h b (by simp [hb])

theorem logic_stop {F : FloatOps} {ev : LExpr → Run LExpr} {k : Nat} {m : Machine} (stop : Bool) (e : LExpr) (rest : List LExpr) {x : Float64}
    (hx : numberFrom ev k e m = .ok (x, m)) (hs : (!F.eq x f0) = stop) :
    ∀ {es : List LExpr} {vs : List Float64}, Nums ev k m es vs → logic F ev k stop (es ++ e :: rest) m = .ok (ofBool stop, m)
  | [], [], _ => by
    rw [List.nil_append, logic, bind_ok (boolFrom_eq hx), if_pos hs]
    rfl
  | e' :: es, v :: vs, h => by
    rw [List.cons_append, logic, bind_ok (boolFrom_eq h.1)]
    split
    · rfl
    · exact logic_stop stop e rest hx hs h.2

end Joeson.Lisp
