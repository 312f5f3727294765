import Verif.Props.Operators
import Verif.Spec.Merge
/-!
# C30: sequences with the labels `@` and `&`
-/

namespace Joeson
open Spec
variable {H : Type} {k : Nat} {i : Info}

theorem lastOf_nodup (key : String) : ∀ (l : List (String × Ast)), (l.map (·.1)).Nodup → lastOf key l = valueOfKey key l
  | [], _ => rfl
  | x :: l, h => by
    have hx := (List.nodup_cons.mp h)
    by_cases hk : x.1 = key
    · have : l.filter (·.1 == key) = [] := by
        rw [List.filter_eq_nil_iff]
        intro y hy he
        exact hx.1 (by show x.1 ∈ _; rw [hk, ← beq_iff_eq.mp he]; exact List.mem_map_of_mem (f := fun x : String × Ast => x.1) hy)
      simp [lastOf, valueOfKey, hk, this]
    · have ih := lastOf_nodup key l hx.2
      simp only [lastOf, valueOfKey] at ih ⊢
      simp [hk, ih]

theorem lastOf_append (key : String) (a b : List (String × Ast)) : lastOf key (a ++ b) = (lastOf key b).or (lastOf key a) := by
  simp only [lastOf, List.filter_append, List.map_append, List.getLast?_append]

theorem kvSet_nodup {α : Type} (key : String) (v : α) (m : List (String × α)) (h : (m.map (·.1)).Nodup) :
    ((kvSet key v m).map (·.1)).Nodup := by
  rw [kvSet_keys]
  split
  · exact h
  · rename_i hn
    rw [List.nodup_append]
    exact ⟨h, List.pairwise_singleton _ _, fun a ha b hb => by
      rw [List.mem_singleton] at hb
      rintro rfl
      exact hn (hb ▸ ha)⟩

theorem foldl_kvSet_nodup {α : Type} : ∀ (l m : List (String × α)), (m.map (·.1)).Nodup →
    ((l.foldl (fun m p => kvSet p.1 p.2 m) m).map (·.1)).Nodup
  | [], _, h => h
  | _ :: l, _, h => foldl_kvSet_nodup l _ (kvSet_nodup _ _ _ h)

/-- What a sequence has accumulated stands for the entries so far. -/
def AccFits (one : Option Ast) (old : List (String × Ast)) : Prop :=
  ((one = none ∨ one = some .undef) ∧ old = []) ∨
    ∃ kvs, one = some (.map kvs) ∧ (kvs.map (·.1)).Nodup ∧ ∀ key, valueOfKey key kvs = lastOf key old

theorem accFits_step {cb : Nat → Ast → Nat → H → Except Panic (Option Ast × H)} {j : Info} {acc acc' : SeqAcc Ast} {v : Ast}
    {h h' : H} {old : List (String × Ast)} (ha : AccFits acc.one old) (hm : Mergeable j.label v)
    (hs : seqAdd (treeOps cb) .object j acc v h = .ok (acc', h')) : AccFits acc'.one (contribute j.label v old) := by
  have hcur : ((acc.cur (treeOps cb)) = none ∧ old = []) ∨
      ∃ kvs, acc.one = some (.map kvs) ∧ acc.cur (treeOps cb) = some (.map kvs) ∧ (kvs.map (·.1)).Nodup ∧
        ∀ key, valueOfKey key kvs = lastOf key old := by
    rcases ha with ⟨ha | ha, rfl⟩ | ⟨kvs, h1, h2, h3⟩
    · exact Or.inl ⟨by simp [SeqAcc.cur, ha], rfl⟩
    · exact Or.inl ⟨by simp [SeqAcc.cur, ha, treeOps], rfl⟩
    · exact Or.inr ⟨kvs, h1, by simp [SeqAcc.cur, h1, treeOps], h2, h3⟩
  unfold contribute
  unfold seqAdd at hs
  dsimp only at hs
  have hab : ("&" : String) ≠ "@" := by decide
  by_cases h1 : j.label = "&"
  · rw [if_pos h1] at hs
    rw [if_neg (by rw [h1]; exact hab), if_pos h1]
    obtain ⟨kvs', rfl, hnd⟩ := hm.2 h1
    rcases hcur with ⟨hc, rfl⟩ | ⟨kvs, -, hc, h2, h3⟩
    · rw [hc] at hs
      cases hs
      exact Or.inr ⟨kvs', rfl, hnd, fun key => by rw [List.append_nil]; exact (lastOf_nodup key _ hnd).symm⟩
    · rw [hc] at hs
      simp only [treeOps, Ast.merge, bind, Except.bind, pure, Except.pure] at hs
      cases hs
      refine Or.inr ⟨_, rfl, foldl_kvSet_nodup _ _ hnd, fun key => ?_⟩
      rw [foldl_kvSet_get, lastOf_append]
      have e1 := lastOf_nodup key kvs h2
      have e2 := lastOf_nodup key kvs' hnd
      rw [show ((kvs.filter (·.1 == key)).map (·.2)).getLast? = lastOf key kvs from rfl, e1, h3]
      show _ = (lastOf key old).or (lastOf key kvs')
      rw [e2]
  · rw [if_neg h1] at hs
    by_cases h0 : j.label = "@"
    · rw [if_pos h0] at hs
      rw [if_pos h0]
      rcases hm.1 h0 with rfl | ⟨kvs', rfl, hnd⟩
      · rcases hcur with ⟨hc, rfl⟩ | ⟨kvs, -, hc, h2, h3⟩
        · rw [hc] at hs
          cases hs
          exact Or.inl ⟨Or.inr rfl, rfl⟩
        · rw [hc] at hs
          simp only [treeOps, Ast.merge, bind, Except.bind, pure, Except.pure] at hs
          cases hs
          exact Or.inr ⟨kvs, rfl, h2, fun key => by rw [h3]; simp [entriesOf]⟩
      · rcases hcur with ⟨hc, rfl⟩ | ⟨kvs, -, hc, h2, h3⟩
        · rw [hc] at hs
          cases hs
          exact Or.inr ⟨kvs', rfl, hnd, fun key => (lastOf_nodup key _ hnd).symm⟩
        · rw [hc] at hs
          simp only [treeOps, Ast.merge, bind, Except.bind, pure, Except.pure] at hs
          cases hs
          refine Or.inr ⟨_, rfl, foldl_kvSet_nodup _ _ h2, fun key => ?_⟩
          rw [foldl_kvSet_get, lastOf_append, h3]
          rfl
    · rw [if_neg h0] at hs
      rw [if_neg h0, if_neg h1]
      by_cases he : j.label = ""
      · rw [if_pos he] at hs
        rw [if_pos he]
        cases hs
        exact ha
      · rw [if_neg he] at hs
        rw [if_neg he]
        have e : ∀ key, lastOf key [(j.label, v)] = if key = j.label then some v else none := by
          intro key
          by_cases hk : j.label = key
          · simp [lastOf, hk]
          · have : ¬ key = j.label := fun h => hk h.symm
            simp [lastOf, hk, this]
        rcases hcur with ⟨hc, rfl⟩ | ⟨kvs, -, hc, h2, h3⟩
        · rw [hc] at hs
          cases hs
          refine Or.inr ⟨[(j.label, v)], rfl, List.pairwise_singleton _ _, fun key => ?_⟩
          rw [List.nil_append, lastOf_nodup key [(j.label, v)] (List.pairwise_singleton _ _)]
        · rw [hc] at hs
          simp only [treeOps, bind, Except.bind, pure, Except.pure] at hs
          cases hs
          refine Or.inr ⟨_, rfl, kvSet_nodup _ _ _ h2, fun key => ?_⟩
          rw [kvSet_get, lastOf_append, e, h3]
          split <;> rfl

theorem Accum.merge {cb : Nat → Ast → Nat → H → Except Panic (Option Ast × H)} {g : Grammar} {l : List Node}
    {vs : List Ast} {acc acc' : SeqAcc Ast} {old : List (String × Ast)}
    (h : Accum (treeOps cb) g .object l vs acc acc') (ha : AccFits acc.one old)
    (hm : ∀ x ∈ (l.map fun c => (g.info c).label).zip vs, Mergeable x.1 x.2) :
    AccFits acc'.one (((l.map fun c => (g.info c).label).zip vs).foldl (fun old x => contribute x.1 x.2 old) old) := by
  induction h generalizing old with
  | nil => exact ha
  | cons h1 _ ih =>
    rw [List.map_cons, List.zip_cons_cons, List.foldl_cons]
    rw [List.map_cons, List.zip_cons_cons] at hm
    exact ih (accFits_step ha (hm _ List.mem_cons_self) h1) fun x hx => hm x (List.mem_cons_of_mem _ hx)

/-- C30, all labels: the result of a sequence is a map in which every key has the value of highest priority among the
entries that the items contribute; if nothing is contributed the result may be undefined. -/
theorem C30_object_merge {cb : Nat → Ast → Nat → H → Except Panic (Option Ast × H)} {env : Env Ast H}
    (henv : env.ops = treeOps cb) {s s' : St Ast H} {v : Ast} (items : List Node) (hc : i.cb = none)
    (hl : i.ownLabel = false) (h : parse env (k + 1) (.seq i .object items) s = .ok (some v, s')) :
    ∃ vs, Chain (parse env k) items s.pos vs s'.pos ∧
      let entries := (items.map fun c => (env.g.info c).label).zip vs
      ((∀ x ∈ entries, Mergeable x.1 x.2) →
        (v = .undef ∧ contributions entries = []) ∨
        ∃ kvs, v = .map kvs ∧ (kvs.map (·.1)).Nodup ∧ ∀ key, valueOfKey key kvs = lastOf key (contributions entries)) := by
  obtain ⟨s0, r1, s1, hp0, h1, h2, h3, h4, h7⟩ := parse_node (by simp) h
  obtain rfl := h7 hc hl
  rw [parseKind] at h1
  rw [← hp0, h2]
  rcases parseItems_spec _ _ _ _ _ h1 with ⟨vs, acc', v, a, b, h5, h6, h8, h9⟩ | ⟨pre, c, post, vs, q, h9, h5, h6, h8⟩
  · cases h9
    refine ⟨vs, h5, fun hm => ?_⟩
    rw [henv] at h6
    rcases h6.merge (old := []) (Or.inl ⟨Or.inl rfl, rfl⟩) hm with ⟨h1 | h1, h2⟩ | ⟨kvs, h1, h2⟩
    · simp only [seqDone, h1, henv] at h8
      cases h8
      exact Or.inl ⟨rfl, h2⟩
    · simp only [seqDone, h1] at h8
      cases h8
      exact Or.inl ⟨rfl, h2⟩
    · simp only [seqDone, h1] at h8
      cases h8
      exact Or.inr ⟨kvs, rfl, h2⟩
  · cases h9

namespace Sample

/-- An item labelled in a sequence. -/
def lab (l : String) (s : String) : Node := .str { label := l, parent := some true } (asc s)

/-- A sequence labelled in a sequence. -/
def labSeq (l : String) (items : List Node) : Node := .seq { label := l, parent := some true } .object items

end Sample

/-- `x:'a' y:'b' @:(x:'c' z:'d') &:(y:'e' w:'f')` on `abcdef`: `@` overwrites `x`, `&` does not overwrite `y`. -/
example :
    let items := [Sample.lab "x" "a", Sample.lab "y" "b", Sample.labSeq "@" [Sample.lab "x" "c", Sample.lab "z" "d"],
      Sample.labSeq "&" [Sample.lab "y" "e", Sample.lab "w" "f"]]
    let vs : List Ast := [.str (asc "a"), .str (asc "b"), .map [("x", .str (asc "c")), ("z", .str (asc "d"))],
      .map [("y", .str (asc "e")), ("w", .str (asc "f"))]]
    let entries := (items.map fun c => c.info.label).zip vs
    Sample.valueOf (parseString Sample.ops ⟨[.seq (Sample.ri "S") .object items], fun _ => none, .choice {} [.rule 0]⟩ {} [] 60 () (asc "abcdef")) =
      some (.map [("y", .str (asc "b")), ("w", .str (asc "f")), ("x", .str (asc "c")), ("z", .str (asc "d"))]) ∧
    (∀ x ∈ entries, Mergeable x.1 x.2) ∧
    contributions entries = [("y", .str (asc "e")), ("w", .str (asc "f")), ("x", .str (asc "a")), ("y", .str (asc "b")),
      ("x", .str (asc "c")), ("z", .str (asc "d"))] := by
  refine ⟨by decide +kernel, ?_, by decide +kernel⟩
  intro x hx
  simp only [List.map_cons, List.map_nil, List.zip_cons_cons, List.zip_nil_right, List.mem_cons, List.not_mem_nil, or_false] at hx
  rcases hx with rfl | rfl | rfl | rfl
  · exact ⟨fun h => absurd h (by decide), fun h => absurd h (by decide)⟩
  · exact ⟨fun h => absurd h (by decide), fun h => absurd h (by decide)⟩
  · exact ⟨fun _ => Or.inr ⟨_, rfl, by decide⟩, fun h => absurd h (by decide)⟩
  · exact ⟨fun h => absurd h (by decide), fun _ => ⟨_, rfl, by decide⟩⟩

end Joeson
