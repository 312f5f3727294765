import Verif.Proofs.Heap
import Verif.Model.Samples
/-!
# C42: values keep their content
-/

namespace Joeson
open Spec

/-! ## C42 -/

/-- C42: while anything is parsed, values that exist already keep their content, in the cache and elsewhere.
What is missing: sequences with the label `&`, or with `@` before any label of their own, for which it is false
(`C42_cached_value_changes`, `C42_cached_value_extended`), and callbacks that change the maps they are given. -/
theorem C42_values_keep_content_partial (cb : Nat → Val → Nat → Store → Except Panic (Option Val × Store))
    (tcb : Nat → Ast → Nat → Except Panic (Option Ast)) (hcb : PureCallbacks cb tcb) (st : Stream) (g : Grammar)
    (hg : GrammarOwnMaps g) (tr : Trace) (sl : Bool) (k : Nat) (n : Node) (hn : OwnMaps g n)
    (s s1 : St Val Store) (r : Option Val) (hs : Sound id s)
    (h : parse { ops := heapOps cb, st := st, g := g, trace := tr, skipLog := sl } k n s = .ok (r, s1)) :
    (∀ v t, Reads s.h v t → Reads s1.h v t) ∧ Sound id s1 ∧ ∀ v, r = some v → ∃ t, Reads s1.h v t := by
  classical
  have ex : ∀ a, ∃ o, ORel (Reads s.h) (s.heap a).result o := by
    intro a
    cases hr : (s.heap a).result with
    | none => exact ⟨none, .none⟩
    | some v => exact (hs a v hr).elim fun t ht => ⟨some t, .some ht⟩
  obtain ⟨res, hres⟩ := Classical.skolem.mp ex
  let s' : St Ast Unit :=
    { pos := s.pos, heap := fun a => { result := res a, endpos := (s.heap a).endpos, loopstage := (s.heap a).loopstage,
                                       wipemask := (s.heap a).wipemask, pos := (s.heap a).pos, id := (s.heap a).id },
      next := s.next, table := s.table, stack := s.stack, counter := s.counter, loopStack := s.loopStack, h := (),
      calls := s.calls }
  have hsr : (heapSim hcb).SR (fun _ => False) s s' := by
    refine ⟨rfl, rfl, rfl, rfl, rfl, rfl, rfl, fun a ha => ha.elim, fun a => ⟨rfl, rfl, rfl, rfl, rfl, hres a⟩⟩
  have key := (heapSim hcb).parse_rel (env := { ops := heapOps cb, st := st, g := g, trace := tr, skipLog := sl }) rfl
    (fun n hn => ownMaps_all hcb (hg.1 n hn)) k n (ownMaps_all hcb hn) _ s s' hsr
  rw [h] at key
  revert key
  cases parse _ k n s' with
  | panic e => intro h; exact h.elim
  | oof => intro h; exact h.elim
  | ok x =>
    rintro ⟨k1, k2, k3⟩
    refine ⟨fun v t hv => readsAs_keeps k2 hv, ?_, ?_⟩
    · intro a v hv
      have := (k1.heap a).result
      dsimp only at this
      rw [hv] at this
      revert this
      generalize (x.2.heap a).result = y
      intro this
      cases this with
      | some h => exact ⟨_, h⟩
    · intro v hv
      dsimp only at k3
      rw [hv] at k3
      revert k3
      generalize x.1 = y
      intro this
      cases this with
      | some h => exact ⟨_, h⟩

/-- C42: where sequences merge only into maps of their own the outcome is the one got with values that cannot be changed at all. -/
theorem C42_same_as_immutable_partial (cb : Nat → Val → Nat → Store → Except Panic (Option Val × Store))
    (tcb : Nat → Ast → Nat → Except Panic (Option Ast)) (hcb : PureCallbacks cb tcb) (g : Grammar)
    (hg : GrammarOwnMaps g) (tr : Trace) (opts : List ParseOption) (k : Nat) (text : Bytes) :
    match (parseString (heapOps cb) g tr opts k Store.empty text).1,
      (parseString (treeOps (treeCb tcb)) g tr opts k () text).1 with
    | .ok (o, s), .ok (o', _) => (match o, o' with
      | .value v, .value t => Reads s.h v t
      | .error r, .error r' => r = r'
      | .nil, .nil => True
      | _, _ => False)
    | .panic e, .panic e' => e = e'
    | .oof, .oof => True
    | _, _ => False := by
  have key := ((heapSim hcb).grammarParse_rel (Stream.ofText text) (runeReport text) g tr
    (opts.foldl CtxOptions.apply {}) (fun n hn => ownMaps_all hcb (hg.1 n hn)) (ownMaps_all hcb hg.2) k
    (w := fun _ => False) (h := Store.empty) (h' := ()) (fun a ha => ha.elim) 0).2
  change OutRel _ (parseString (heapOps cb) g tr opts k Store.empty text).1
    (parseString (treeOps (treeCb tcb)) g tr opts k () text).1 at key
  revert key
  generalize (parseString (heapOps cb) g tr opts k Store.empty text).1 = x
  generalize (parseString (treeOps (treeCb tcb)) g tr opts k () text).1 = y
  intro key
  cases x <;> cases y <;> first | exact key.elim | skip
  · rename_i a b
    obtain ⟨o, s⟩ := a
    obtain ⟨o', s'⟩ := b
    obtain ⟨-, -, h⟩ := key
    dsimp only at *
    cases h with
    | nil => trivial
    | error r => rfl
    | value h => exact h
  · exact key
  · trivial

namespace Sample

/-- The first lines of a value, maps followed to a given depth. -/
def show_ (h : Store) : Nat → Val → Ast
  | 0, _ => .undef
  | _ + 1, .undef => .undef
  | _ + 1, .str s => .str s
  | _ + 1, .int n => .int n
  | _ + 1, .error m => .error m
  | k + 1, .arr l => .arr (l.map (show_ h k))
  | k + 1, .user t l => .user t (l.map (show_ h k))
  | k + 1, .ref a => .map ((h.cells a).map fun p => (p.1, show_ h k p.2))

/-- The value a parse returned, read in the final store. -/
def shown (x : Out (Outcome Val × St Val Store) × Trace) : Option Ast :=
  match x.1 with
  | .ok (.value v, s) => some (show_ s.h 9 v)
  | _ => none

/-- No callbacks. -/
def noCbH : Nat → Val → Nat → Store → Except Panic (Option Val × Store) := fun _ v _ h => .ok (some v, h)

theorem noCbH_pure : PureCallbacks noCbH fun _ t _ => .ok (some t) :=
  fun _ _ _ h _ _ hv => ⟨Keeps.refl h, hv⟩

/-- An item with a label. -/
def labelled (l : String) (n : Node) : Node :=
  match n with
  | .ref i nm => .ref { i with label := l, parent := some true } nm
  | .str i s => .str { i with label := l, parent := some true } s
  | n => n

/-- `S: @:A rest:'b' 'x' | A 'by'` and `A: k:'a'`. -/
def spliced : Grammar where
  rules := [
    .choice (ri "S") [
      .seq { parent := some false } .object [labelled "@" (ref "A"), labelled "rest" (.str {} (asc "b")), lit "x"],
      .seq { parent := some false } .single [ref "A", lit "by"]],
    .seq (ri "A") .object [labelled "k" (.str {} (asc "a"))]]
  lookup := lookupIn [("S", 0), ("A", 1)]
  root := .choice {} [.rule 0]

/-- `S: p:A rest:'b' 'x' | A 'by'` and `A: k:'a'`. -/
def unspliced : Grammar where
  rules := [
    .choice (ri "S") [
      .seq { parent := some false } .object [labelled "p" (ref "A"), labelled "rest" (.str {} (asc "b")), lit "x"],
      .seq { parent := some false } .single [ref "A", lit "by"]],
    .seq (ri "A") .object [labelled "k" (.str {} (asc "a"))]]
  lookup := lookupIn [("S", 0), ("A", 1)]
  root := .choice {} [.rule 0]

end Sample

/-! ### What splicing does -/

/-- C42: what `@` and `&` do to maps. The map that is extended (at `a`) gets the entries of the other one, read as trees:
as `Ast.merge` says. It is the same map as before, and every value that does not contain it keeps its content. -/
theorem C42_merge_extends_in_place (h : Store) (a : Nat) (ha : a < h.next) (w : Val) (m : List (String × Ast)) (u : Ast)
    (hm : ReadsAsMap (· = a) h (h.cells a) m) (hw : ReadsAs (· = a) h w u) :
    match Val.merge (.ref a) w h, Ast.merge (.map m) u with
    | .ok (x, k), .ok t => x = .ref a ∧ Reads k x t ∧ k.next = h.next ∧ (∀ b, b ≠ a → k.cells b = h.cells b) ∧
        ∀ v t', ReadsAs (· = a) h v t' → Reads k v t'
    | .error e, .error e' => e = e'
    | _, _ => False := by
  have keep : ∀ kvs v t', ReadsAs (· = a) h v t' → Reads (h.put a kvs) v t' := fun kvs v t' hv =>
    readsAs_mono (k := h.put a kvs) (Nat.le_refl h.next) (fun b _ hb => if_neg hb) (fun _ _ _ h => h) hv
  cases hw with
  | undef => exact ⟨rfl, .ref ha (fun h => h) (readsAsMap_mono (Nat.le_refl _) (fun _ _ _ => rfl) (fun _ _ _ h => h) hm), rfl,
      fun _ _ => rfl, fun v t' hv => readsAs_mono (Nat.le_refl _) (fun _ _ _ => rfl) (fun _ _ _ h => h) hv⟩
  | str => rfl
  | int => rfl
  | error => rfl
  | arr _ => rfl
  | user _ => rfl
  | @ref b kvs hb hp hk =>
    refine ⟨rfl, .ref ha (fun h => h) ?_, rfl, fun b hb => if_neg hb, fun v t' hv => keep _ v t' hv⟩
    show ReadsAsMap _ _ (if a = a then _ else _) _
    rw [if_pos rfl]
    exact readsAsMap_mono (k := h.put a _) (Nat.le_refl h.next) (fun b _ hb => if_neg hb) (fun _ _ _ h => h)
      (readsAsMap_fold hk hm)

/-- The map at 0 is `{k: a}`, the one at 1 is `{k: b, l: c}`: the first becomes `{k: b, l: c}`. -/
example : let h := (Store.empty.alloc [("k", .str (asc "a"))]).alloc [("k", .str (asc "b")), ("l", .str (asc "c"))]
    (ReadsAsMap (· = 0) h (h.cells 0) [("k", .str (asc "a"))] ∧
      ReadsAs (· = 0) h (.ref 1) (.map [("k", .str (asc "b")), ("l", .str (asc "c"))])) ∧
    (match Val.merge (.ref 0) (.ref 1) h with
      | .ok (x, k) => Sample.show_ k 3 x = .map [("k", .str (asc "b")), ("l", .str (asc "c"))] ∧
          Sample.show_ k 3 (.ref 1) = .map [("k", .str (asc "b")), ("l", .str (asc "c"))]
      | .error _ => False) := by
  refine ⟨⟨.cons .str .nil, .ref (by decide) (by decide) (.cons .str (.cons .str .nil))⟩, ?_⟩
  show Sample.show_ _ 3 _ = _ ∧ Sample.show_ _ 3 _ = _
  decide +kernel

/-- C42: what is not a map cannot be extended. Nothing (`undefined`) stays nothing; merging into it panics if the other map has an entry
that is not a string called `label`, and so does merging into any other value. No map changes. -/
theorem C42_merge_into_nothing (h : Store) (v : Val) (hv : ∀ a, v ≠ .ref a) (b : Nat) :
    (∀ x k, Val.merge v (.ref b) h = .ok (x, k) ↔
      (v = .undef ∧ x = .undef ∧ k = h ∧ ∀ key w, (key, w) ∈ h.cells b → key = "label" ∧ ∃ s, w = .str s)) ∧
    (∀ e, Val.merge v (.ref b) h = .error e → e = .assertion) := by
  have hall : ((h.cells b).all (fun p => p.1 == "label" && p.2.isStr) = true) ↔
      ∀ key w, (key, w) ∈ h.cells b → key = "label" ∧ ∃ s, w = .str s := by
    rw [List.all_eq_true]
    constructor
    · intro hh key w hm
      have := hh _ hm
      simp only [Bool.and_eq_true, beq_iff_eq] at this
      refine ⟨this.1, ?_⟩
      cases w <;> first | exact ⟨_, rfl⟩ | exact absurd this.2 (by simp [Val.isStr])
    · intro hh p hm
      obtain ⟨h1, s, h2⟩ := hh p.1 p.2 hm
      simp [h1, h2, Val.isStr]
  cases v with
  | ref a => exact absurd rfl (hv a)
  | undef =>
    refine ⟨fun x k => ?_, fun e => ?_⟩
    · rw [← hall]
      show (if _ then _ else _) = _ ↔ _
      split
      · rename_i hc
        constructor
        · intro hh; cases hh; exact ⟨rfl, rfl, rfl, hc⟩
        · rintro ⟨-, rfl, rfl, -⟩; rfl
      · rename_i hc
        constructor
        · intro hh; cases hh
        · rintro ⟨-, -, -, hh⟩; exact absurd hh hc
    · show (if _ then _ else _) = _ → _
      split
      · intro hh; cases hh
      · intro hh; cases hh; rfl
  | _ =>
    refine ⟨fun x k => Iff.intro (fun hh => ?_) (fun hh => ?_), fun e hh => ?_⟩
    · cases hh
    · cases hh.1
    · cases hh; rfl

/-- Nothing extended by `{label: a}` is nothing; extended by `{k: a}` or by `{label: 1}` a panic. -/
example : (match Val.merge .undef (.ref 0) (Store.empty.alloc [("label", .str (asc "a"))]) with | .ok _ => true | _ => false) = true ∧
    (match Val.merge .undef (.ref 0) (Store.empty.alloc [("k", .str (asc "a"))]) with | .ok _ => true | _ => false) = false ∧
    (match Val.merge .undef (.ref 0) (Store.empty.alloc [("label", .int 1)]) with | .ok _ => true | _ => false) = false := by
  decide +kernel

/-- C42 is false with `@`: on `aby` the first alternative fails, but it has already written `rest` into the cached
result of `A`, and the second alternative returns it. With values that cannot be changed the result is `{k: a}`. -/
theorem C42_cached_value_changes :
    Sample.shown (parseString (heapOps Sample.noCbH) Sample.spliced {} [] 60 Store.empty (asc "aby")) =
      some (.map [("k", .str (asc "a")), ("rest", .str (asc "b"))]) ∧
    Sample.valueOf (parseString Sample.ops Sample.spliced {} [] 60 () (asc "aby")) =
      some (.map [("k", .str (asc "a"))]) := by decide +kernel

/-- `S: w:'a' &:A 'x' | 'a' A 'y'` and `A: k:'b'`. -/
def Sample.merged : Grammar where
  rules := [
    .choice (Sample.ri "S") [
      .seq { parent := some false } .object [Sample.labelled "w" (.str {} (asc "a")), Sample.labelled "&" (Sample.ref "A"), Sample.lit "x"],
      .seq { parent := some false } .single [Sample.lit "a", Sample.ref "A", Sample.lit "y"]],
    .seq (Sample.ri "A") .object [Sample.labelled "k" (.str {} (asc "b"))]]
  lookup := lookupIn [("S", 0), ("A", 1)]
  root := .choice {} [.rule 0]

/-- C42 is false with `&` as well: on `aby` the first alternative has extended the cached result of `A` with `w`. -/
theorem C42_cached_value_extended :
    Sample.shown (parseString (heapOps Sample.noCbH) Sample.merged {} [] 60 Store.empty (asc "aby")) =
      some (.map [("k", .str (asc "b")), ("w", .str (asc "a"))]) ∧
    Sample.shown (parseString (heapOps Sample.noCbH) Sample.merged {} [] 60 Store.empty (asc "abx")) =
      some (.map [("k", .str (asc "b")), ("w", .str (asc "a"))]) ∧
    Sample.valueOf (parseString Sample.ops Sample.merged {} [] 60 () (asc "aby")) =
      some (.map [("k", .str (asc "b"))]) := by decide +kernel

/-- The second alternative alone, on the same text, gives `{k: a}`: an alternative that failed is visible in the
result of the one that was chosen. -/
example : Sample.shown (parseString (heapOps Sample.noCbH) { Sample.spliced with rules := [
      .choice (Sample.ri "S") [.seq { parent := some false } .single [Sample.ref "A", Sample.lit "by"]],
      .seq (Sample.ri "A") .object [Sample.labelled "k" (.str {} (asc "a"))]] } {} [] 60 Store.empty (asc "aby")) =
    some (.map [("k", .str (asc "a"))]) := by decide +kernel

/-- The hypotheses of the theorems are met by the grammar with an ordinary label instead of `@`. -/
example : GrammarOwnMaps Sample.unspliced ∧
    Sample.shown (parseString (heapOps Sample.noCbH) Sample.unspliced {} [] 60 Store.empty (asc "aby")) =
      some (.map [("k", .str (asc "a"))]) ∧
    Sample.shown (parseString (heapOps Sample.noCbH) Sample.unspliced {} [] 60 Store.empty (asc "abx")) =
      some (.map [("p", .map [("k", .str (asc "a"))]), ("rest", .str (asc "b"))]) := by
  refine ⟨⟨?_, ?_⟩, by decide +kernel, by decide +kernel⟩
  · intro n hn
    simp only [Sample.unspliced, List.mem_cons, List.not_mem_nil, or_false] at hn
    rcases hn with rfl | rfl
    · refine .choice ?_
      intro c hc
      simp only [List.mem_cons, List.not_mem_nil, or_false] at hc
      rcases hc with rfl | rfl
      · refine ownMaps_seq ?_ (by decide)
        intro c hc
        simp only [List.mem_cons, List.not_mem_nil, or_false] at hc
        rcases hc with rfl | rfl | rfl
        · exact .ref
        · exact .str
        · exact .str
      · refine ownMaps_seq ?_ (by decide)
        intro c hc
        simp only [List.mem_cons, List.not_mem_nil, or_false] at hc
        rcases hc with rfl | rfl
        · exact .ref
        · exact .str
    · refine ownMaps_seq ?_ (by decide)
      intro c hc
      simp only [List.mem_cons, List.not_mem_nil, or_false] at hc
      rw [hc]
      exact .str
  · refine .choice ?_
    intro c hc
    simp only [List.mem_cons, List.not_mem_nil, or_false] at hc
    rw [hc]
    exact .rule

/-- `S: p:'a' @:A 'x' | 'a' A 'y'` and `A: k:'b' l:'c'`. -/
def Sample.after : Grammar where
  rules := [
    .choice (Sample.ri "S") [
      .seq { parent := some false } .object [Sample.labelled "p" (.str {} (asc "a")), Sample.labelled "@" (Sample.ref "A"), Sample.lit "x"],
      .seq { parent := some false } .single [Sample.lit "a", Sample.ref "A", Sample.lit "y"]],
    .seq (Sample.ri "A") .object [Sample.labelled "k" (.str {} (asc "b")), Sample.labelled "l" (.str {} (asc "c"))]]
  lookup := lookupIn [("S", 0), ("A", 1)]
  root := .choice {} [.rule 0]

/-- The hypotheses are met by a grammar with `@` after an ordinary label: what the first alternative merged is not seen in the
second. -/
example : GrammarOwnMaps Sample.after ∧
    Sample.shown (parseString (heapOps Sample.noCbH) Sample.after {} [] 60 Store.empty (asc "abcy")) =
      some (.map [("k", .str (asc "b")), ("l", .str (asc "c"))]) ∧
    Sample.shown (parseString (heapOps Sample.noCbH) Sample.after {} [] 60 Store.empty (asc "abcx")) =
      some (.map [("p", .str (asc "a")), ("k", .str (asc "b")), ("l", .str (asc "c"))]) := by
  refine ⟨⟨?_, ?_⟩, by decide +kernel, by decide +kernel⟩
  · intro n hn
    simp only [Sample.after, List.mem_cons, List.not_mem_nil, or_false] at hn
    rcases hn with rfl | rfl
    · refine .choice ?_
      intro c hc
      simp only [List.mem_cons, List.not_mem_nil, or_false] at hc
      rcases hc with rfl | rfl
      · refine ownMaps_seq ?_ (by decide)
        intro c hc
        simp only [List.mem_cons, List.not_mem_nil, or_false] at hc
        rcases hc with rfl | rfl | rfl
        · exact .str
        · exact .ref
        · exact .str
      · refine ownMaps_seq ?_ (by decide)
        intro c hc
        simp only [List.mem_cons, List.not_mem_nil, or_false] at hc
        rcases hc with rfl | rfl | rfl
        · exact .str
        · exact .ref
        · exact .str
    · refine ownMaps_seq ?_ (by decide)
      intro c hc
      simp only [List.mem_cons, List.not_mem_nil, or_false] at hc
      rcases hc with rfl | rfl <;> exact .str
  · refine .choice ?_
    intro c hc
    simp only [List.mem_cons, List.not_mem_nil, or_false] at hc
    rw [hc]
    exact .rule

end Joeson
