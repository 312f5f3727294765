import Verif.Proofs.Fuel
import Verif.Spec.Operators
import Verif.Model.Samples
/-!
# C28 - C32: the operators, at every call in every parse

Nothing is assumed about the grammar, the state, the memo table or the operands; in particular the
theorems hold in the middle of growing a left recursion.
-/

namespace Joeson
open Spec
variable {V H : Type} {env : Env V H} {k : Nat} {i : Info} {s s' : St V H} {r : Option V}

theorem setPos_ok_iff {n : Nat} : setPos env n s = .ok s' ↔ n ≤ env.st.len ∧ s' = { s with pos := n } := by
  unfold setPos
  split
  · rename_i h; simp [h, eq_comm]
  · rename_i h; simp [h]

theorem prepareResult_ok {o : Bool} {f : Run V H} (h : prepareResult env o i f s = .ok (r, s')) :
    ∃ r1 s1, f { s with counter := s.counter + 1 } = .ok (r1, s1) ∧ s'.pos = s1.pos ∧
      (r.isSome → r1.isSome) ∧ (i.cb = none → r1.isSome → r.isSome) := by
  unfold prepareResult at h
  extract_lets s0 at h
  obtain ⟨⟨r1, s1⟩, h1, h⟩ := Out.bind_eq_ok.mp h
  refine ⟨r1, s1, h1, ?_⟩
  dsimp only at h
  cases r1 with
  | none => cases h; exact ⟨rfl, fun h => h, fun _ h => h⟩
  | some v =>
    dsimp only at h
    cases hcb : i.cb with
    | none =>
      rw [hcb] at h
      obtain ⟨t, -, h⟩ := Out.bind_eq_ok.mp h
      cases h
      exact ⟨rfl, fun _ => rfl, fun _ _ => rfl⟩
    | some c =>
      rw [hcb] at h
      obtain ⟨⟨rv, hh⟩, -, h⟩ := Out.bind_eq_ok.mp h
      dsimp only at h
      cases rv with
      | none => cases h; exact ⟨rfl, fun h => by simp at h, fun h => by simp at h⟩
      | some w =>
        obtain ⟨t, -, h⟩ := Out.bind_eq_ok.mp h
        cases h
        exact ⟨rfl, fun _ => rfl, fun _ _ => rfl⟩

/-- A node that is not a rule: run its `parse` function, then attach label and callback. -/
theorem parse_node {n : Node} (hn : ∀ id, n ≠ .rule id) (h : parse env (k + 1) n s = .ok (r, s')) :
    ∃ s0 r1 s1, s0.pos = s.pos ∧ parseKind env (parse env k) k n s0 = .ok (r1, s1) ∧ s'.pos = s1.pos ∧
      (r.isSome → r1.isSome) ∧ (n.info.cb = none → r1.isSome → r.isSome) ∧
      (n.info.cb = none → n.info.ownLabel = false → r = r1) := by
  rw [parse] at h
  unfold wrap at h
  split at h
  · exact absurd rfl (hn _)
  · split at h
    · rename_i hw
      obtain ⟨r1, s1, h1, h2, h3, h4⟩ := prepareResult_ok h
      refine ⟨{ s with counter := s.counter + 1 }, r1, s1, rfl, h1, h2, h3, h4, ?_⟩
      intro hc hl
      simp [hc, hl] at hw
    · exact ⟨s, r, s', rfl, h, rfl, fun h => h, fun _ h => h, fun _ _ => rfl⟩

/-! ## C28 -/

/-- C28, `!e`: the position does not change; it succeeds exactly when `e` fails (a callback on the
predicate may still turn a success into a failure). -/
theorem C28_not (it : Node) (h : parse env (k + 1) (.not i it) s = .ok (r, s')) :
    s'.pos = s.pos ∧
    ((∃ v q, GivesAt (parse env k) it s.pos v q) ∧ r = none ∨
      FailsAt (parse env k) it s.pos ∧ (i.cb = none → r.isSome)) := by
  obtain ⟨s0, r1, s1, hp, h1, h2, h3, h4, -⟩ := parse_node (by simp) h
  rw [parseKind] at h1
  obtain ⟨⟨r2, s2⟩, h5, h1⟩ := Out.bind_eq_ok.mp h1
  obtain ⟨s3, h6, h1⟩ := Out.bind_eq_ok.mp h1
  obtain ⟨-, rfl⟩ := setPos_ok_iff.mp h6
  cases r2 with
  | none =>
    cases h1
    exact ⟨by rw [h2]; exact hp, Or.inr ⟨⟨s0, s2, hp, h5⟩, fun hc => h4 hc rfl⟩⟩
  | some v =>
    cases h1
    refine ⟨by rw [h2]; exact hp, Or.inl ⟨⟨v, s2.pos, s0, s2, hp, h5, rfl⟩, ?_⟩⟩
    cases r with
    | none => rfl
    | some w => exact absurd (h3 rfl) (by simp)

/-- C28, `?e`: the position does not change; it succeeds exactly when `e` succeeds, with `e`'s value. -/
theorem C28_lookahead (it : Node) (h : parse env (k + 1) (.look i it) s = .ok (r, s')) :
    s'.pos = s.pos ∧
    ((∃ v q, GivesAt (parse env k) it s.pos v q ∧ (i.cb = none → r.isSome) ∧
        (i.cb = none → i.ownLabel = false → r = some v)) ∨
      FailsAt (parse env k) it s.pos ∧ r = none) := by
  obtain ⟨s0, r1, s1, hp, h1, h2, h3, h4, h7⟩ := parse_node (by simp) h
  rw [parseKind] at h1
  obtain ⟨⟨r2, s2⟩, h5, h1⟩ := Out.bind_eq_ok.mp h1
  obtain ⟨s3, h6, h1⟩ := Out.bind_eq_ok.mp h1
  obtain ⟨-, rfl⟩ := setPos_ok_iff.mp h6
  cases h1
  refine ⟨by rw [h2]; exact hp, ?_⟩
  cases r1 with
  | none =>
    refine Or.inr ⟨⟨s0, s2, hp, h5⟩, ?_⟩
    cases r with
    | none => rfl
    | some w => exact absurd (h3 rfl) (by simp)
  | some v =>
    exact Or.inl ⟨v, s2.pos, ⟨s0, s2, hp, h5, rfl⟩, fun hc => h4 hc rfl, h7⟩

/-! ## C29 -/

theorem parseAlts_spec {rec_ : Node → Run V H} : ∀ (l : List Node) (s s' : St V H) (r : Option V),
    parseAlts env rec_ l s = .ok (r, s') →
    (r = none ∧ s'.pos = s.pos ∧ ∀ c ∈ l, FailsAt rec_ c s.pos) ∨
    ∃ v pre c post, r = some v ∧ l = pre ++ c :: post ∧ GivesAt rec_ c s.pos v s'.pos ∧
      ∀ b ∈ pre, FailsAt rec_ b s.pos
  | [], s, s', r, h => by cases h; exact Or.inl ⟨rfl, rfl, by simp⟩
  | c :: cs, s, s', r, h => by
    rw [parseAlts] at h
    obtain ⟨⟨r1, s1⟩, h1, h⟩ := Out.bind_eq_ok.mp h
    cases r1 with
    | some v => cases h; exact Or.inr ⟨v, [], c, cs, rfl, rfl, ⟨s, s', rfl, h1, rfl⟩, by simp⟩
    | none =>
      obtain ⟨s2, h2, h⟩ := Out.bind_eq_ok.mp h
      obtain ⟨-, rfl⟩ := setPos_ok_iff.mp h2
      have hc : FailsAt rec_ c s.pos := ⟨s, s1, rfl, h1⟩
      rcases parseAlts_spec cs _ s' r h with ⟨h3, h4, h5⟩ | ⟨v, pre, d, post, h3, h4, h5, h6⟩
      · exact Or.inl ⟨h3, h4, by simpa using ⟨hc, h5⟩⟩
      · exact Or.inr ⟨v, c :: pre, d, post, h3, by rw [h4]; rfl, h5, by simpa using ⟨hc, h6⟩⟩

/-- C29: a choice gives the result of the first alternative that succeeds; all alternatives tried are
tried at the position of the choice; when all fail the position is restored. -/
theorem C29_choice (alts : List Node) (h : parse env (k + 1) (.choice i alts) s = .ok (r, s')) :
    (r = none ∧ s'.pos = s.pos ∧ ∀ c ∈ alts, FailsAt (parse env k) c s.pos) ∨
    ∃ v pre c post, alts = pre ++ c :: post ∧ GivesAt (parse env k) c s.pos v s'.pos ∧
      (∀ b ∈ pre, FailsAt (parse env k) b s.pos) ∧
      (i.cb = none → r.isSome) ∧ (i.cb = none → i.ownLabel = false → r = some v) := by
  obtain ⟨s0, r1, s1, hp, h1, h2, h3, h4, h7⟩ := parse_node (by simp) h
  rw [parseKind] at h1
  rw [← hp, h2]
  rcases parseAlts_spec _ _ _ _ h1 with ⟨rfl, h5, h6⟩ | ⟨v, pre, c, post, rfl, h8, h9, h10⟩
  · refine Or.inl ⟨?_, h5, h6⟩
    cases r with
    | none => rfl
    | some w => exact absurd (h3 rfl) (by simp)
  · exact Or.inr ⟨v, pre, c, post, h8, h9, h10, fun hc => h4 hc rfl, h7⟩

/-! ## C30 -/

/-- The values of the captured elements, in order. -/
def captured (g : Grammar) (items : List Node) (vs : List V) : List V :=
  ((items.zip vs).filter fun x => (g.info x.1).capture).map (·.2)

/-- `seqAdd` over the elements. -/
inductive Accum (ops : Ops V H) (g : Grammar) (repr : SeqRepr) : List Node → List V → SeqAcc V → SeqAcc V → Prop
  | nil {acc} : Accum ops g repr [] [] acc acc
  | cons {c cs v vs acc acc1 acc2 h h'} : seqAdd ops repr (g.info c) acc v h = .ok (acc1, h') →
      Accum ops g repr cs vs acc1 acc2 → Accum ops g repr (c :: cs) (v :: vs) acc acc2

theorem parseItems_spec {rec_ : Node → Run V H} {repr : SeqRepr} : ∀ (l : List Node) (acc : SeqAcc V)
    (s s' : St V H) (r : Option V), parseItems env rec_ repr l acc s = .ok (r, s') →
    (∃ vs acc' v h h', Chain rec_ l s.pos vs s'.pos ∧ Accum env.ops env.g repr l vs acc acc' ∧
      seqDone env.ops repr acc' h = (v, h') ∧ r = some v) ∨
    ∃ pre c post vs q, r = none ∧ l = pre ++ c :: post ∧ Chain rec_ pre s.pos vs q ∧ FailsAt rec_ c q
  | [], acc, s, s', r, h => by
    simp only [parseItems, Out.ok.injEq, Prod.mk.injEq] at h
    obtain ⟨rfl, rfl⟩ := h
    exact Or.inl ⟨[], acc, _, s.h, _, .nil, .nil, rfl, rfl⟩
  | c :: cs, acc, s, s', r, h => by
    rw [parseItems] at h
    obtain ⟨⟨r1, s1⟩, h1, h⟩ := Out.bind_eq_ok.mp h
    cases r1 with
    | none => cases h; exact Or.inr ⟨[], c, cs, [], s.pos, rfl, rfl, .nil, ⟨s, s', rfl, h1⟩⟩
    | some v =>
      obtain ⟨⟨acc2, hh⟩, h2, h⟩ := Out.bind_eq_ok.mp h
      have hg : GivesAt rec_ c s.pos v s1.pos := ⟨s, s1, rfl, h1, rfl⟩
      have h2' : seqAdd env.ops repr (env.g.info c) acc v s1.h = .ok (acc2, hh) := by
        cases hx : seqAdd env.ops repr (env.g.info c) acc v s1.h with
        | ok x => rw [hx] at h2; cases h2; rfl
        | error e => rw [hx] at h2; cases h2
      rcases parseItems_spec cs acc2 _ s' r h with ⟨vs, acc', w, a, b, h3, h4, h5, h6⟩ |
        ⟨pre, d, post, vs, q, h3, h4, h5, h6⟩
      · exact Or.inl ⟨v :: vs, acc', w, a, b, .cons hg h3, .cons h2' h4, h5, h6⟩
      · exact Or.inr ⟨c :: pre, d, post, v :: vs, q, h3, by rw [h4]; rfl, .cons hg h5, h6⟩

theorem captured_cons (g : Grammar) (c : Node) (cs : List Node) (v : V) (vs : List V) :
    captured g (c :: cs) (v :: vs) = (if (g.info c).capture then [v] else []) ++ captured g cs vs := by
  unfold captured
  simp only [List.zip_cons_cons, List.filter_cons]
  split <;> simp

theorem Accum.array {ops : Ops V H} {g : Grammar} {l : List Node} {vs : List V} {acc acc' : SeqAcc V}
    (h : Accum ops g .array l vs acc acc') : acc'.many = acc.many ++ captured g l vs := by
  induction h with
  | nil => simp [captured]
  | cons h1 _ ih =>
    rw [ih, captured_cons]
    simp only [seqAdd, Except.ok.injEq, Prod.mk.injEq] at h1
    obtain ⟨rfl, -⟩ := h1
    split <;> simp

theorem Accum.single {ops : Ops V H} {g : Grammar} {l : List Node} {vs : List V} {acc acc' : SeqAcc V}
    (h : Accum ops g .single l vs acc acc') :
    acc'.one = (captured g l vs).getLast?.or acc.one := by
  induction h with
  | nil => simp [captured]
  | cons h1 _ ih =>
    rw [ih, captured_cons]
    simp only [seqAdd, Except.ok.injEq, Prod.mk.injEq] at h1
    obtain ⟨rfl, -⟩ := h1
    rw [List.getLast?_append, Option.or_assoc]
    split <;> simp

/-- C30, matching: a sequence succeeds exactly when all its elements match one after the other. -/
theorem C30_sequence_matches (repr : SeqRepr) (items : List Node)
    (h : parse env (k + 1) (.seq i repr items) s = .ok (r, s')) :
    (∃ vs, Chain (parse env k) items s.pos vs s'.pos ∧ (i.cb = none → r.isSome)) ∨
    (r = none ∧ ∃ pre c post vs q, items = pre ++ c :: post ∧ Chain (parse env k) pre s.pos vs q ∧
      FailsAt (parse env k) c q) := by
  obtain ⟨s0, r1, s1, hp, h1, h2, h3, h4, h7⟩ := parse_node (by simp) h
  rw [parseKind] at h1
  rw [← hp, h2]
  rcases parseItems_spec _ _ _ _ _ h1 with ⟨vs, acc', v, a, b, h5, h6, h8, rfl⟩ | ⟨pre, c, post, vs, q, rfl, h5, h6, h8⟩
  · exact Or.inl ⟨vs, h5, fun hc => h4 hc rfl⟩
  · refine Or.inr ⟨?_, pre, c, post, vs, q, h5, h6, h8⟩
    cases r with
    | none => rfl
    | some w => exact absurd (h3 rfl) (by simp)

/-- C30, several captures: the result is the array of the captured elements in order. -/
theorem C30_array {v : V} (items : List Node) (hc : i.cb = none) (hl : i.ownLabel = false)
    (h : parse env (k + 1) (.seq i .array items) s = .ok (some v, s')) :
    ∃ vs h1, Chain (parse env k) items s.pos vs s'.pos ∧ v = (env.ops.arr (captured env.g items vs) h1).1 := by
  obtain ⟨s0, r1, s1, hp, h1, h2, h3, h4, h7⟩ := parse_node (by simp) h
  obtain rfl := h7 hc hl
  rw [parseKind] at h1
  rw [← hp, h2]
  rcases parseItems_spec _ _ _ _ _ h1 with ⟨vs, acc', v, a, b, h5, h6, h8, h9⟩ | ⟨pre, c, post, vs, q, h9, h5, h6, h8⟩
  · cases h9
    refine ⟨vs, a, h5, ?_⟩
    have := h6.array
    simp only [seqDone, this, List.nil_append] at h8
    rw [h8]
  · cases h9

/-- C30, at most one capture: the result is the captured element, or undefined. -/
theorem C30_single {v : V} (items : List Node) (hc : i.cb = none) (hl : i.ownLabel = false)
    (h : parse env (k + 1) (.seq i .single items) s = .ok (some v, s')) :
    ∃ vs, Chain (parse env k) items s.pos vs s'.pos ∧
      v = (captured env.g items vs).getLast?.getD env.ops.undef := by
  obtain ⟨s0, r1, s1, hp, h1, h2, h3, h4, h7⟩ := parse_node (by simp) h
  obtain rfl := h7 hc hl
  rw [parseKind] at h1
  rw [← hp, h2]
  rcases parseItems_spec _ _ _ _ _ h1 with ⟨vs, acc', v, a, b, h5, h6, h8, h9⟩ | ⟨pre, c, post, vs, q, h9, h5, h6, h8⟩
  · cases h9
    refine ⟨vs, h5, ?_⟩
    have := h6.single
    simp only [seqDone, this] at h8
    cases hx : (captured env.g items vs).getLast? with
    | none => rw [hx] at h8; cases h8; rfl
    | some w => rw [hx] at h8; cases h8; rfl
  · cases h9

/-- The labelled elements with their values. -/
def labelled (g : Grammar) (items : List Node) (vs : List V) : List (String × V) :=
  ((items.zip vs).map fun x => ((g.info x.1).label, x.2)).filter fun x => x.1 != ""

theorem labelled_cons (g : Grammar) (c : Node) (cs : List Node) (v : V) (vs : List V) :
    labelled g (c :: cs) (v :: vs) =
      (if (g.info c).label = "" then [] else [((g.info c).label, v)]) ++ labelled g cs vs := by
  unfold labelled
  simp only [List.zip_cons_cons, List.map_cons, List.filter_cons]
  by_cases h : (g.info c).label = "" <;> simp [h]

/-- The value of key `l` in an association list. -/
def valueOfKey {α : Type} (l : String) (kvs : List (String × α)) : Option α := (kvs.find? (·.1 == l)).map (·.2)

theorem kvSet_get {α : Type} (k l : String) (v : α) (m : List (String × α)) :
    valueOfKey l (kvSet k v m) = if l = k then some v else valueOfKey l m := by
  induction m with
  | nil =>
    unfold valueOfKey
    by_cases h : l = k
    · simp [kvSet, h]
    · have : ¬ k = l := fun h' => h h'.symm
      simp [kvSet, h, this]
  | cons x m ih =>
    obtain ⟨k', v'⟩ := x
    unfold valueOfKey at *
    simp only [kvSet]
    by_cases h1 : k' = k
    · subst h1
      by_cases h2 : l = k'
      · subst h2; simp
      · have : ¬ k' = l := fun h' => h2 h'.symm
        simp [h2, this]
    · simp only [h1, if_false, List.find?_cons]
      by_cases h2 : k' = l
      · subst h2
        simp [h1]
      · have : (k' == l) = false := by simpa using h2
        rw [this]
        exact ih

theorem kvSet_keys {α : Type} (k : String) (v : α) (m : List (String × α)) :
    (kvSet k v m).map (·.1) = if k ∈ m.map (·.1) then m.map (·.1) else m.map (·.1) ++ [k] := by
  induction m with
  | nil => simp [kvSet]
  | cons x m ih =>
    obtain ⟨k', v'⟩ := x
    simp only [kvSet]
    by_cases h : k' = k
    · simp [h]
    · have : ¬ k = k' := fun h' => h h'.symm
      simp only [h, if_false, List.map_cons, ih, List.mem_cons, this, false_or]
      split <;> simp

/-- Object accumulation for trees with plain labels: a map that lists, in order of first appearance,
every label with its last value. -/
theorem Accum.object {cb : Nat → Ast → Nat → H → Except Panic (Option Ast × H)} {g : Grammar} {l : List Node}
    {vs : List Ast} {acc acc' : SeqAcc Ast}
    (h : Accum (treeOps cb) g .object l vs acc acc')
    (hp : ∀ c ∈ l, (g.info c).label ≠ "@" ∧ (g.info c).label ≠ "&")
    (ha : acc.one = none ∨ ∃ kvs, acc.one = some (.map kvs)) :
    let old := match acc.one with | some (.map kvs) => kvs | _ => []
    let lab := labelled g l vs
    (lab = [] → acc'.one = acc.one) ∧
    (lab ≠ [] → ∃ kvs, acc'.one = some (.map kvs) ∧
      kvs = lab.foldl (fun m x => kvSet x.1 x.2 m) old) := by
  induction h with
  | nil => simp [labelled]
  | @cons c cs v vs acc acc1 acc2 hh hh' h1 h2 ih =>
    intro old lab
    have hc := hp c (by simp)
    simp only [lab, labelled_cons]
    simp only [seqAdd, hc.1, hc.2, if_false] at h1
    by_cases hlab : (g.info c).label = ""
    · simp only [hlab, if_true, Except.ok.injEq, Prod.mk.injEq] at h1 ⊢
      obtain ⟨rfl, -⟩ := h1
      simpa using ih (fun c hc => hp c (by simp [hc])) ha
    · simp only [hlab, if_false] at h1 ⊢
      have hone : acc1.one = some (.map (kvSet (g.info c).label v old)) := by
        rcases ha with ha | ⟨kvs, ha⟩
        · simp only [SeqAcc.cur, ha, treeOps, Except.ok.injEq, Prod.mk.injEq] at h1
          obtain ⟨rfl, -⟩ := h1
          simp [old, ha, kvSet]
        · simp only [SeqAcc.cur, ha, treeOps, Bool.false_eq_true, if_false] at h1
          cases h1
          simp [old, ha]
      have := ih (fun c hc => hp c (by simp [hc])) (Or.inr ⟨_, hone⟩)
      rw [hone] at this
      obtain ⟨i1, i2⟩ := this
      refine ⟨by simp, fun _ => ?_⟩
      by_cases he : labelled g cs vs = []
      · exact ⟨_, i1 he, by simp [he]⟩
      · obtain ⟨kvs, j1, j2⟩ := i2 he
        exact ⟨kvs, j1, by simpa using j2⟩

theorem foldl_kvSet_get {α : Type} (l : String) (lab : List (String × α)) : ∀ m,
    valueOfKey l (lab.foldl (fun m x => kvSet x.1 x.2 m) m) =
      ((lab.filter (·.1 == l)).map (·.2)).getLast?.or (valueOfKey l m) := by
  induction lab with
  | nil => intro m; simp
  | cons x lab ih =>
    intro m
    rw [List.foldl_cons, ih, kvSet_get]
    by_cases h : x.1 = l
    · subst h
      rw [List.filter_cons_of_pos (by simp), List.map_cons, ← List.singleton_append, List.getLast?_append,
        Option.or_assoc, if_pos rfl]
      simp
    · have : ¬ l = x.1 := fun h' => h h'.symm
      simp [h, this]

/-- C30, labels (`@` and `&` apart): the result is an object holding, for every label, the last value
with that label. -/
theorem C30_object {cb : Nat → Ast → Nat → H → Except Panic (Option Ast × H)} {env : Env Ast H}
    (henv : env.ops = treeOps cb) {s s' : St Ast H} {v : Ast} (items : List Node) (hc : i.cb = none)
    (hl : i.ownLabel = false) (hp : ∀ c ∈ items, (env.g.info c).label ≠ "@" ∧ (env.g.info c).label ≠ "&")
    (h : parse env (k + 1) (.seq i .object items) s = .ok (some v, s')) :
    ∃ vs, Chain (parse env k) items s.pos vs s'.pos ∧
      (labelled env.g items vs = [] → v = .undef) ∧
      (labelled env.g items vs ≠ [] → ∃ kvs, v = .map kvs ∧
        ∀ l, valueOfKey l kvs = (((labelled env.g items vs).filter (·.1 == l)).map (·.2)).getLast?) := by
  obtain ⟨s0, r1, s1, hp0, h1, h2, h3, h4, h7⟩ := parse_node (by simp) h
  obtain rfl := h7 hc hl
  rw [parseKind] at h1
  rw [← hp0, h2]
  rcases parseItems_spec _ _ _ _ _ h1 with ⟨vs, acc', v, a, b, h5, h6, h8, h9⟩ | ⟨pre, c, post, vs, q, h9, h5, h6, h8⟩
  · cases h9
    refine ⟨vs, h5, ?_⟩
    rw [henv] at h6
    obtain ⟨i1, i2⟩ := h6.object hp (Or.inl rfl)
    constructor
    · intro he
      have := i1 he
      simp only [seqDone, this, henv] at h8
      cases h8
      rfl
    · intro he
      obtain ⟨kvs, j1, j2⟩ := i2 he
      simp only [seqDone, j1] at h8
      cases h8
      refine ⟨kvs, rfl, fun l => ?_⟩
      rw [j2, foldl_kvSet_get]
      simp [valueOfKey]
  · cases h9

/-! ## C31 -/

/-- Outcome of a repetition that starts at `p`: it fails for want of `mn` matches, or gives all the
values found. -/
def RepeatDone (rec_ : Node → Run V H) (ops : Ops V H) (value : Node) (join : Option Node) (mn mx : Int)
    (p : Nat) (r : Option V) (p' : Nat) : Prop :=
  ∃ vs q, (vs = [] ∧ q = p ∧ FailsAt rec_ value p ∨
      Repeated rec_ value join p vs q ∧ (NoMore rec_ value join q ∨ 0 ≤ mx ∧ mx ≤ vs.length)) ∧
    (2 ≤ mx → (vs.length : Int) ≤ mx) ∧
    (r = none ∧ (vs.length : Int) < mn ∧ p' = p ∨
     (∃ h, r = some (ops.arr vs h).1) ∧ mn ≤ vs.length ∧ p' = q)

theorem parseRep_spec {rec_ : Node → Run V H} {value : Node} {join : Option Node} {mn mx : Int} {p : Nat} :
    ∀ (n : Nat) (ms : List V) (s s' : St V H) (r : Option V),
    parseRep env rec_ value join mn mx p n ms s = .ok (r, s') →
    Repeated rec_ value join p ms s.pos → (2 ≤ mx → (ms.length : Int) < mx) →
    RepeatDone rec_ env.ops value join mn mx p r s'.pos
  | 0, _, _, _, _, h, _, _ => by cases h
  | n + 1, ms, s, s', r, h, hrep, hmx => by
    unfold parseRep at h
    extract_lets pos2 finish at h
    have hpos : 0 < ms.length := by
      cases hrep with
      | one => simp
      | more => simp
    -- stopping at `pos2`
    have stop : ∀ t t' : St V H, NoMore rec_ value join s.pos → setPos env pos2 t = .ok t' →
        finish t' = .ok (r, s') → RepeatDone rec_ env.ops value join mn mx p r s'.pos := by
      intro t t' hno ht hf
      obtain ⟨-, rfl⟩ := setPos_ok_iff.mp ht
      refine ⟨ms, s.pos, Or.inr ⟨hrep, Or.inl hno⟩, fun h => by have := hmx h; omega, ?_⟩
      simp only [finish] at hf
      split at hf
      · rename_i hlt
        obtain ⟨u, hu, hf⟩ := Out.bind_eq_ok.mp hf
        obtain ⟨-, rfl⟩ := setPos_ok_iff.mp hu
        cases hf
        exact Or.inl ⟨rfl, hlt.2, rfl⟩
      · rename_i hlt
        cases hf
        exact Or.inr ⟨⟨_, rfl⟩, by omega, rfl⟩
    -- after the join
    have cont : ∀ t : St V H, (match join with | none => t.pos = s.pos | some j => ∃ w, GivesAt rec_ j s.pos w t.pos) →
        (do
          let (r, s) ← rec_ value t
          match r with
          | none => do
            let s ← setPos env pos2 s
            finish s
          | some v =>
            let ms' := ms ++ [v]
            if mx > -1 ∧ (ms'.length : Int) ≥ mx then
              if mn > -1 ∧ mn > (ms'.length : Int) then do
                let s ← setPos env p s
                .ok (none, s)
              else
                let (v, h) := env.ops.arr ms' s.h
                .ok (some v, { s with h := h })
            else parseRep env rec_ value join mn mx p n ms' s) = .ok (r, s') →
        RepeatDone rec_ env.ops value join mn mx p r s'.pos := by
      intro t hj hh
      obtain ⟨⟨r1, s1⟩, h1, hh⟩ := Out.bind_eq_ok.mp hh
      cases r1 with
      | none =>
        obtain ⟨u, hu, hh⟩ := Out.bind_eq_ok.mp hh
        refine stop _ _ ?_ hu hh
        unfold NoMore
        cases join with
        | none => exact ⟨t, s1, hj, h1⟩
        | some j =>
          obtain ⟨w, hw⟩ := hj
          exact Or.inr ⟨w, t.pos, hw, t, s1, rfl, h1⟩
      | some v =>
        have hrep' : Repeated rec_ value join p (ms ++ [v]) s1.pos := by
          refine .more (q' := t.pos) hrep ?_ ⟨t, s1, rfl, h1, rfl⟩
          cases join with
          | none => exact hj
          | some j => exact hj
        dsimp only at hh
        have hlen : ((ms ++ [v]).length : Int) = ms.length + 1 := by simp
        split at hh
        · rename_i hfull
          refine ⟨ms ++ [v], s1.pos, Or.inr ⟨hrep', Or.inr (by omega)⟩,
            fun h => by have := hmx h; omega, ?_⟩
          split at hh
          · rename_i hlt
            obtain ⟨u, hu, hh⟩ := Out.bind_eq_ok.mp hh
            obtain ⟨-, rfl⟩ := setPos_ok_iff.mp hu
            cases hh
            exact Or.inl ⟨rfl, hlt.2, rfl⟩
          · rename_i hlt
            cases hh
            exact Or.inr ⟨⟨_, rfl⟩, by omega, rfl⟩
        · exact parseRep_spec n _ _ _ _ hh hrep' (by intro h; omega)
    cases join with
    | none =>
      simp only [Out.bind_ok, Bool.not_true, Bool.false_eq_true, if_false] at h
      exact cont s rfl h
    | some j =>
      dsimp only at h
      obtain ⟨⟨jd, s1⟩, h1, h⟩ := Out.bind_eq_ok.mp h
      obtain ⟨⟨jr, s2⟩, h2, h1⟩ := Out.bind_eq_ok.mp h1
      cases h1
      cases jr with
      | none =>
        simp only [Option.isSome_none, Bool.not_false, if_true] at h
        obtain ⟨u, hu, h⟩ := Out.bind_eq_ok.mp h
        exact stop _ _ (Or.inl ⟨s, s2, rfl, h2⟩) hu h
      | some w =>
        simp only [Option.isSome_some, Bool.not_true, Bool.false_eq_true, if_false] at h
        exact cont s2 ⟨w, s, s2, rfl, h2, rfl⟩ h

/-- C31: `e*j{m,n}` gives the values of `t` matches of `e` separated by matches of `j` (a trailing `j` is
not consumed), with `m <= t`, and `t <= n` when `n >= 2`; it stops early only because no further `j e`
matches, and fails only when fewer than `m` matches are available, without consuming anything.
What is missing: `t <= n` for `n = 0` and `n = 1`, see `C31_max_one_matches_two`. -/
theorem C31_repetition_partial (value : Node) (join : Option Node) (mn mx : Int) (hc : i.cb = none)
    (hl : i.ownLabel = false) (h : parse env (k + 1) (.pattern i value join mn mx) s = .ok (r, s')) :
    RepeatDone (parse env k) env.ops value join mn mx s.pos r s'.pos := by
  obtain ⟨s0, r1, s1, hp, h1, h2, h3, h4, h7⟩ := parse_node (by simp) h
  obtain rfl := h7 hc hl
  rw [parseKind] at h1
  rw [← hp, h2]
  obtain ⟨⟨r2, s2⟩, h5, h1⟩ := Out.bind_eq_ok.mp h1
  cases r2 with
  | none =>
    obtain ⟨u, hu, h1⟩ := Out.bind_eq_ok.mp h1
    obtain ⟨-, rfl⟩ := setPos_ok_iff.mp hu
    refine ⟨[], s0.pos, Or.inl ⟨rfl, rfl, s0, s2, rfl, h5⟩, fun h => by simp; omega, ?_⟩
    split at h1
    · cases h1; exact Or.inl ⟨rfl, by simpa, rfl⟩
    · rename_i hmn; cases h1; exact Or.inr ⟨⟨_, rfl⟩, by simp; omega, rfl⟩
  | some v =>
    exact parseRep_spec k [v] s2 s1 r h1 (.one ⟨s0, s2, rfl, h5, rfl⟩) (by simp; omega)

/-- `S: 'a'{0,1}`. -/
def maxOne : Grammar where
  rules := [.pattern (Sample.ri "S") (.str {} (asc "a")) none 0 1]
  lookup n := if n = "S" then some 0 else none
  root := .choice {} [.rule 0]

/-- C31, counterexample: `'a'{0,1}` matches twice on "aa". -/
theorem C31_max_one_matches_two : Sample.valueOf (parseString Sample.ops maxOne {} [] 20 () (asc "aa")) =
    some (.arr [.str (asc "a"), .str (asc "a")]) := by decide +kernel

example : Sample.valueOf (parseString Sample.ops Sample.rep {} [] 40 () (asc "abbb")) =
    some (.arr [.arr [.str (asc "a")], .arr [.str (asc "b"), .str (asc "b"), .str (asc "b")]]) ∧
    Sample.errorOf (parseString Sample.ops Sample.rep {} [] 40 () (asc "abbbb")) = some 4 := by
  decide +kernel

/-! ## C32 -/

/-- C32: `e?` never fails: it gives `e`'s result, or undefined with the position unchanged when `e`
fails. -/
theorem C32_optional (it : Node) (hc : i.cb = none) (h : parse env (k + 1) (.exist i it) s = .ok (r, s')) :
    r.isSome ∧
    ((∃ v, GivesAt (parse env k) it s.pos v s'.pos ∧ (i.ownLabel = false → r = some v)) ∨
      FailsAt (parse env k) it s.pos ∧ s'.pos = s.pos ∧ (i.ownLabel = false → r = some env.ops.undef)) := by
  obtain ⟨s0, r1, s1, hp, h1, h2, h3, h4, h7⟩ := parse_node (by simp) h
  rw [parseKind] at h1
  obtain ⟨⟨r2, s2⟩, h5, h1⟩ := Out.bind_eq_ok.mp h1
  cases r2 with
  | none =>
    obtain ⟨s3, h6, h1⟩ := Out.bind_eq_ok.mp h1
    obtain ⟨-, rfl⟩ := setPos_ok_iff.mp h6
    cases h1
    exact ⟨h4 hc rfl, Or.inr ⟨⟨s0, s2, hp, h5⟩, by rw [h2]; exact hp, h7 hc⟩⟩
  | some v =>
    cases h1
    exact ⟨h4 hc rfl, Or.inl ⟨v, ⟨s0, s1, hp, h5, h2.symm⟩, h7 hc⟩⟩

/-! ## Labels outside of sequences -/

/-- C30, labels: a parser without callback that is not a rule and that stands in a sequence (which handles the labels of
its parts itself), or has no parent at all, gives the value its operator gives, labelled or not. -/
theorem C30_label_left_to_sequence {n : Node} (hn : ∀ id, n ≠ .rule id) (hc : n.info.cb = none)
    (hp : n.info.parent = none ∨ n.info.parent = some true) :
    parse env (k + 1) n s = parseKind env (parse env k) k n s := by
  rw [parse]
  have hl : n.info.ownLabel = false := by rcases hp with hp | hp <;> simp [Info.ownLabel, hp]
  cases n <;> first | (exact absurd rfl (hn _)) | simp [wrap, hl, hc]

/-- C30, labels: anywhere else the value of a labelled parser is wrapped in a map with its label as the only key (and is
given its origin); the wrapping decides neither success nor position. -/
theorem C30_label_elsewhere {n : Node} (hn : ∀ id, n ≠ .rule id) (hc : n.info.cb = none)
    (hp : n.info.parent = some false) (hl : n.info.label ≠ "") (h : parse env (k + 1) n s = .ok (r, s')) :
    ∃ r1 s1, parseKind env (parse env k) k n { s with counter := s.counter + 1 } = .ok (r1, s1) ∧ s'.pos = s1.pos ∧
      (r1 = none → r = none) ∧
      ∀ v, r1 = some v → ∃ o, r = some (env.ops.origin (env.ops.newMap n.info.label v s1.h).1 o
        (env.ops.newMap n.info.label v s1.h).2).1 := by
  have ho : n.info.ownLabel = true := by simp [Info.ownLabel, hp, hl]
  have hw : parse env (k + 1) n s = prepareResult env false n.info (parseKind env (parse env k) k n) s := by
    rw [parse]
    cases n <;> first | (exact absurd rfl (hn _)) | simp [wrap, ho, hc]
  rw [hw] at h
  unfold prepareResult at h
  extract_lets s0 at h
  obtain ⟨⟨r1, s1⟩, h1, h⟩ := Out.bind_eq_ok.mp h
  refine ⟨r1, s1, h1, ?_⟩
  dsimp only at h
  cases r1 with
  | none => cases h; exact ⟨rfl, fun _ => rfl, fun v hv => by cases hv⟩
  | some v =>
    dsimp only at h
    rw [hc] at h
    simp only [ho, if_true] at h
    obtain ⟨t, -, h⟩ := Out.bind_eq_ok.mp h
    cases h
    refine ⟨rfl, ?_, ?_⟩
    · intro hv
      cases hv
    · intro w hw
      cases hw
      exact ⟨_, rfl⟩

/-- The three places: `S: x:'a'`-like parsers without parent, in a sequence, and as an alternative. -/
def labelGrammar (parent : Option Bool) : Grammar where
  rules := [.choice (Sample.ri "S") [.str { parent, label := "x" } (asc "a"), .str { parent } (asc "b")]]
  lookup n := if n = "S" then some 0 else none
  root := .choice {} [.rule 0]

example : Sample.valueOf (parseString Sample.ops (labelGrammar none) {} [] 20 () (asc "a")) = some (.str (asc "a")) ∧
    Sample.valueOf (parseString Sample.ops (labelGrammar (some true)) {} [] 20 () (asc "a")) = some (.str (asc "a")) ∧
    Sample.valueOf (parseString Sample.ops (labelGrammar (some false)) {} [] 20 () (asc "a")) =
      some (.map [("x", .str (asc "a"))]) ∧
    Sample.valueOf (parseString Sample.ops (labelGrammar (some false)) {} [] 20 () (asc "b")) = some (.str (asc "b")) := by
  decide +kernel

/-! ## Concrete runs -/

/-- `S: !'b' x:'a' y:'c'? ?'d'` and so on: all operators at once. -/
def opsGrammar : Grammar where
  rules := [
    .seq (Sample.ri "S") .object [.not { parent := some true } (Sample.lit "b"),
      .str { parent := some true, label := "x" } (asc "a"),
      .exist { parent := some true, label := "y" } (.str {} (asc "c")),
      .look { parent := some true } (.str {} (asc "d")),
      .choice { parent := some true, label := "x" } [.str {} (asc "e"), .str {} (asc "d")]]]
  lookup n := if n = "S" then some 0 else none
  root := .choice {} [.rule 0]

example : Sample.valueOf (parseString Sample.ops opsGrammar {} [] 20 () (asc "acd")) =
      some (.map [("x", .str (asc "d")), ("y", .str (asc "c"))]) ∧
    Sample.valueOf (parseString Sample.ops opsGrammar {} [] 20 () (asc "ad")) =
      some (.map [("x", .str (asc "d")), ("y", .undef)]) ∧
    Sample.errorOf (parseString Sample.ops opsGrammar {} [] 20 () (asc "b")) = some 0 := by decide +kernel

end Joeson
