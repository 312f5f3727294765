import Verif.Proofs.Seen
/-! # Lemmas on origins -/

namespace Joeson
open RuleText

theorem forgetAll_eq : ∀ l : List OVal, forgetAll l = l.map OVal.forget
  | [] => by rw [forgetAll]; rfl
  | v :: l => by rw [forgetAll, forgetAll_eq l]; rfl

theorem forgetKvs_set (k : String) (v : OVal) : ∀ l, forgetKvs (kvSet k v l) = kvSet k v.forget (forgetKvs l)
  | [] => by simp only [kvSet, forgetKvs]
  | (k', v') :: l => by
    simp only [kvSet, forgetKvs]
    split
    · simp only [forgetKvs]
    · simp only [forgetKvs, forgetKvs_set k v l]

theorem forgetKvs_foldl : ∀ (kvs m : List (String × OVal)),
    forgetKvs (kvs.foldl (fun m p => kvSet p.1 p.2 m) m) = (forgetKvs kvs).foldl (fun m p => kvSet p.1 p.2 m) (forgetKvs m)
  | [], m => by simp only [forgetKvs, List.foldl_nil]
  | (k, v) :: kvs, m => by
    simp only [forgetKvs, List.foldl_cons]
    rw [forgetKvs_foldl kvs, forgetKvs_set]

theorem forgetKvs_all : ∀ l : List (String × OVal), (forgetKvs l).all (fun p => p.1 == "label" && p.2.isStr) = l.all (fun p => p.1 == "label" && p.2.isStr)
  | [] => by simp only [forgetKvs, List.all_nil]
  | (k, v) :: l => by
    have : v.forget.isStr = v.isStr := by cases v <;> simp only [OVal.forget, OVal.isStr, Ast.isStr]
    simp only [forgetKvs, List.all_cons, forgetKvs_all l, this]

theorem forget_merge (a b : OVal) : (a.merge b).map OVal.forget = a.forget.merge b.forget := by
  cases b <;> try (simp only [OVal.forget, OVal.merge, Ast.merge]; rfl)
  · cases a <;> simp only [OVal.forget, OVal.merge, Ast.merge]
    case map.undef =>
      rw [forgetKvs_all]
      split <;> simp only [Except.map, OVal.forget]
    case map.map => simp only [Except.map, OVal.forget, forgetKvs_foldl]
    all_goals rfl

theorem forget_seen {cb : Nat → OVal → Nat → Attrs → Except Panic (Option OVal × Attrs)} {tcb : Nat → Ast → Nat → Except Panic (Option Ast)}
    (hcb : ∀ c v p h, (cb c v p h).map (fun x => x.1.map OVal.forget) = tcb c v.forget p) :
    Seen (originOps cb) (treePure tcb) OVal.forget where
  str b := by simp only [originOps, treePure, OVal.forget]
  undef := by simp only [originOps, treePure, OVal.forget]
  isUndef v := by cases v <;> simp only [originOps, treePure, OVal.forget]
  arr l h := by simp only [originOps, treePure, OVal.forget, forgetAll_eq]
  newMap k v h := by simp only [originOps, treePure, OVal.forget, forgetKvs]
  mapSet r k v h := by
    cases r <;> simp only [originOps, treePure, OVal.forget, Except.map]
    rw [forgetKvs_set]
  merge a b h := by
    show Except.map _ (match a.merge b with | .ok x => _ | .error e => _) = a.forget.merge b.forget
    rw [← forget_merge]
    cases a.merge b <;> rfl
  cb := hcb
  origin v o h := rfl
  none _ _ := rfl

end Joeson
