import Verif.Spec.Seen
import Verif.Proofs.ValueSim
/-! # Lemmas on values seen from outside -/

namespace Joeson
variable {V H V' H' : Type}

theorem lrel_see {see : V → V'} {l : List V} {l' : List V'} (h : LRel (fun v v' => v' = see v) l l') : l' = l.map see := by
  induction h with
  | nil => rfl
  | cons h _ ih => rw [h, ih]; rfl

/-- What is seen, as a simulation. -/
def seenSim {ops : Ops V H} {P : PureOps V'} {see : V → V'} (hs : Seen ops P see) (H' : Type) : ValSim ops (P.ops H') where
  W := Unit
  I _ _ _ := True
  R _ _ _ v v' := v' = see v
  Le _ _ _ _ _ := True
  le_refl _ _ _ := trivial
  le_trans _ _ := trivial
  mono _ h := h
  str _ _ _ b := (hs.str b).symm
  undef _ _ _ := hs.undef.symm
  arr hi hl := ⟨hi, trivial, by rw [lrel_see hl]; exact (hs.arr _ _).symm⟩
  newMap k hi hv := ⟨hi, trivial, by rw [hv]; exact (hs.newMap _ _ _).symm⟩
  origin o hi hv := ⟨hi, trivial, by rw [hv]; exact (hs.none _ _).trans (hs.origin _ _ _).symm⟩
  cb {w h h' v v'} c p hi hv := by
    subst hv
    have := hs.cb c v p h
    show ERel _ (ops.cb c v p h) ((P.cb c (see v) p).map (·, h'))
    rw [← this]
    rcases ops.cb c v p h with e | ⟨r, k⟩
    · rfl
    · refine ⟨trivial, trivial, ?_⟩
      cases r with
      | none => exact .none
      | some x => exact .some rfl
  Acc _ _ _ _ _ r r' _ := r' = see r
  acc_undef {w h0 h0' h h' r r' w2} ha := by
    subst ha
    exact hs.isUndef r
  acc_le h _ := h
  acc_done h hi := ⟨hi, trivial, h, fun _ _ h => h⟩
  acc_new k _ hi hv := ⟨(), by rw [hv]; exact (hs.newMap _ _ _).symm, hi, fun _ _ h => h⟩
  acc_set {w h0 h0' h h' r r' w2 v v'} k ha hi hv := by
    subst ha hv
    have := hs.mapSet r k v h
    show ERel _ (ops.mapSet r k v h) ((P.mapSet (see r) k (see v)).map (·, h'))
    rw [← this]
    rcases ops.mapSet r k v h with e | ⟨r, k⟩
    · rfl
    · exact ⟨(), rfl, trivial, fun _ _ h => h⟩
  splice := True
  acc_def := Or.inl trivial
  acc_val _ := fun {w h0 h0' h h' v v'} _ hi hv => ⟨(), hv, hi, fun _ _ h => h⟩
  acc_merge := by
    rintro w h0 h0' h h' r r' w2 v v' rfl hi rfl
    have := hs.merge r v h
    show ERel _ (ops.merge r v h) ((P.merge (see r) (see v)).map (·, h'))
    rw [← this]
    rcases ops.merge r v h with e | ⟨r, k⟩
    · rfl
    · exact ⟨(), rfl, trivial, fun _ _ h => h⟩
  acc_merge' _ := by
    rintro w h0 h0' h h' r r' w2 v v' rfl hi rfl
    have := hs.merge v r h
    show ERel _ (ops.merge v r h) ((P.merge (see v) (see r)).map (·, h'))
    rw [← this]
    rcases ops.merge v r h with e | ⟨r, k⟩
    · rfl
    · exact ⟨(), rfl, trivial, fun _ _ h => h⟩

theorem seenSim_ok {ops : Ops V H} {P : PureOps V'} {see : V → V'} (hs : Seen ops P see) (g : Grammar) (n : Node) :
    (seenSim hs H').NodeOk g n := by
  unfold ValSim.NodeOk
  split
  · exact Or.inl trivial
  · trivial

/-- Every node of a tree satisfies what every node satisfies. -/
theorem Node.Below.allOf {P : Node → Prop} (h : ∀ n, P n) {N : Nat} {n : Node} (hn : n.Below N) : n.All P := by
  induction hn with
  | str => exact .str (h _)
  | regex => exact .regex (h _)
  | choice _ ih => exact .choice (h _) ih
  | seq _ ih => exact .seq (h _) ih
  | exist _ ih => exact .exist (h _) ih
  | look _ ih => exact .look (h _) ih
  | not _ ih => exact .not (h _) ih
  | pattern _ _ ih ih' => exact .pattern (h _) ih ih'
  | ref => exact .ref (h _)
  | rule => exact .rule (h _)

/-- The same parse, seen. -/
theorem parseString_seen {ops : Ops V H} {P : PureOps V'} {see : V → V'} (hs : Seen ops P see) {g : Grammar} (hg : g.Built) (tr : Trace)
    (opts : List ParseOption) (k : Nat) (h : H) (h' : H') (text : Bytes) :
    (parseString ops g tr opts k h text).2 = (parseString (P.ops H') g tr opts k h' text).2 ∧
    OutRel (fun x y => y.2.pos = x.2.pos ∧ y.2.calls = x.2.calls ∧ y.1 = x.1.seen see)
      (parseString ops g tr opts k h text).1 (parseString (P.ops H') g tr opts k h' text).1 := by
  have hroot : g.root.All ((seenSim hs H').NodeOk g) := by
    obtain ⟨i, l, hr, h1, h2, h3⟩ := hg.root
    rw [hr]
    refine .choice (seenSim_ok hs g _) fun c hc => ?_
    obtain ⟨id, rfl, -⟩ := h3 c hc
    exact .rule (seenSim_ok hs g _)
  obtain ⟨k1, k2⟩ := (seenSim hs H').grammarParse_rel (Stream.ofText text) (runeReport text) g tr
    (opts.foldl CtxOptions.apply {}) (fun n hn => (hg.rules n hn).allOf (seenSim_ok hs g)) hroot k
    (w := ()) (h := h) (h' := h') trivial 0
  refine ⟨k1, k2.imp ?_⟩
  rintro ⟨o, s⟩ ⟨o', s'⟩ ⟨h1, -, h3⟩
  refine ⟨h1.pos, h1.calls, ?_⟩
  cases h3 with
  | nil => rfl
  | error r => rfl
  | value h => rw [h]; rfl

end Joeson
