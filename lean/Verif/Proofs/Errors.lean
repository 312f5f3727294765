import Verif.Proofs.ValueSim
import Verif.Spec.Errors
/-!
# The engine does not look for parse errors in values
-/

namespace Joeson
open Spec

theorem disguiseKvs_set (tag : Nat) (k : String) (v : Ast) : ∀ l,
    disguiseKvs tag (kvSet k v l) = kvSet k (disguise tag v) (disguiseKvs tag l)
  | [] => by simp only [kvSet, disguiseKvs]
  | (k', x) :: l => by
    simp only [kvSet, disguiseKvs]
    split
    · simp only [disguiseKvs]
    · simp only [disguiseKvs, disguiseKvs_set tag k v l]

theorem disguiseKvs_foldl (tag : Nat) : ∀ l m,
    disguiseKvs tag (l.foldl (fun m p => kvSet p.1 p.2 m) m) =
      (disguiseKvs tag l).foldl (fun m p => kvSet p.1 p.2 m) (disguiseKvs tag m)
  | [], m => by simp only [List.foldl, disguiseKvs]
  | (k, x) :: l, m => by
    simp only [List.foldl, disguiseKvs]
    rw [disguiseKvs_foldl tag l, disguiseKvs_set]

theorem disguiseKvs_all (tag : Nat) : ∀ l,
    (disguiseKvs tag l).all (fun p => p.1 == "label" && p.2.isStr) = l.all (fun p => p.1 == "label" && p.2.isStr)
  | [] => by simp only [disguiseKvs, List.all_nil]
  | (k, x) :: l => by
    have : (disguise tag x).isStr = x.isStr := by cases x <;> simp only [disguise, Ast.isStr]
    simp only [disguiseKvs, List.all_cons, disguiseKvs_all tag l, this]

theorem disguise_merge (tag : Nat) (a b : Ast) :
    (disguise tag a).merge (disguise tag b) = (a.merge b).map (disguise tag) := by
  cases b <;> try (simp only [disguise, Ast.merge]; rfl)
  · cases a <;> simp only [disguise, Ast.merge]
    case map.undef => 
      rw [disguiseKvs_all]
      split <;> simp only [Except.map, disguise]
    case map.map => simp only [Except.map, disguise, disguiseKvs_foldl]
    all_goals rfl

theorem lrel_disguise {tag : Nat} {l l' : List Ast} (h : LRel (fun v v' => v' = disguise tag v) l l') :
    l' = disguiseList tag l := by
  induction h with
  | nil => rw [disguiseList]
  | cons h _ ih => rw [disguiseList, h, ih]

/-- Trees against trees with the errors disguised. -/
def errorSim {H : Type} (tag : Nat) {cb cb' : Nat → Ast → Nat → H → Except Panic (Option Ast × H)} 
    (hcb : Disguised tag cb cb') :
    ValSim (treeOps cb) (treeOps cb') where
  W := Unit
  I _ h h' := h = h'
  R _ _ _ v v' := v' = disguise tag v
  Le _ _ _ _ _ := True
  le_refl _ _ _ := trivial
  le_trans _ _ := trivial
  mono _ h := h
  str _ _ _ b := by simp only [treeOps, disguise]
  undef _ _ _ := by simp only [treeOps, disguise]
  arr hi hl := ⟨hi, trivial, by simp only [treeOps, disguise, lrel_disguise hl]⟩
  newMap k hi hv := ⟨hi, trivial, by simp only [treeOps, disguise, disguiseKvs, hv]⟩
  origin _ hi hv := ⟨hi, trivial, hv⟩
  cb {w h h' v v'} c p hi hv := by
    subst hi hv
    show ERel _ (cb c v p h) (cb' c (disguise tag v) p h)
    rw [hcb]
    rcases cb c v p h with e | ⟨r, k⟩
    · rfl
    · refine ⟨rfl, trivial, ?_⟩
      cases r with
      | none => exact .none
      | some x => exact .some rfl
  Acc _ _ _ _ _ r r' _ := r' = disguise tag r
  acc_undef {w h0 h0' h h' r r' w2} ha := by
    subst ha
    cases r <;> simp only [treeOps, disguise]
  acc_le h _ := h
  acc_done h hi := ⟨hi, trivial, h, fun _ _ h => h⟩
  acc_new k _ hi hv := ⟨(), by simp only [treeOps, disguise, disguiseKvs, hv], hi, fun _ _ h => h⟩
  acc_set {w h0 h0' h h' r r' w2 v v'} k ha hi hv := by
    subst ha hv
    cases r <;> simp only [treeOps, disguise] <;> first | rfl | skip
    exact ⟨(), by simp only [disguise, disguiseKvs_set], hi, fun _ _ h => h⟩
  splice := True
  acc_def := Or.inl trivial
  acc_val _ := fun {w h0 h0' h h' v v'} _ hi hv => ⟨(), hv, hi, fun _ _ h => h⟩
  acc_merge := by
    rintro w h0 h0' h h' r r' w2 v v' rfl hi rfl
    simp only [treeOps, disguise_merge]
    rcases r.merge v with e | x
    · rfl
    · exact ⟨(), rfl, hi, fun _ _ h => h⟩
  acc_merge' _ := by
    rintro w h0 h0' h h' r r' w2 v v' rfl hi rfl
    simp only [treeOps, disguise_merge]
    rcases v.merge r with e | x
    · rfl
    · exact ⟨(), rfl, hi, fun _ _ h => h⟩

end Joeson
