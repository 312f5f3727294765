import Verif.Model.TraceLog
import Verif.Proofs.Visits
/-!
# Printing changes nothing else
-/

namespace Joeson
variable {V H : Type}

/-- Only the panics of printing. -/
def quietSay (env : Env V H) : Say V H := fun sh _ _ s => do
  let _ ← logIf env sh s
  .ok s

/-- The panics of printing; every line is noted, printed or not. -/
def recordSay (env : Env V (H × List LogLine)) : Say V (H × List LogLine) := fun sh id m s => do
  let _ ← logIf env sh s
  .ok (addLine id m s)

theorem Out.bind_assoc' {α β γ : Type} (x : Out α) (f : α → Out β) (g : β → Out γ) : (x >>= f) >>= g = x >>= fun a => f a >>= g := by
  cases x <;> rfl

theorem quiet_bind {α : Type} (env : Env V H) (sh : Bool) (id : Nat) (m : Msg) (s : St V H) (f : St V H → Out α) :
    (quietSay env sh id m s >>= f) = (logIf env sh s >>= fun _ => f s) := by
  unfold quietSay
  rw [Out.bind_assoc']
  rfl

theorem growLoopT_quiet (env : Env V H) (sh : Bool) (id : Nat) (f : Run V H) (a p : Nat) : ∀ (k : Nat) (r : V) (s : St V H),
    growLoopT env (quietSay env) sh id f a p k r s = growLoop env sh f a p k r s
  | 0, _, _ => rfl
  | k + 1, r, s => by
    unfold growLoopT growLoop
    simp only [quiet_bind, growLoopT_quiet env sh id f a p k]
    rfl

theorem loopifyT_quiet (env : Env V H) (tx : V → H → Bytes) (k id : Nat) (i : Info) (f : Run V H) :
    loopifyT env (quietSay env) tx k id i f = loopify env k id i f := by
  funext s
  unfold loopifyT loopify
  simp only [quiet_bind, growLoopT_quiet]
  congr 1
  funext _
  split
  · congr 1
    funext x
    obtain ⟨r, t⟩ := x
    cases r with
    | none =>
      dsimp only
      split <;> rfl
    | some v =>
      dsimp only
      split
      · rename_i h
        rw [h]; rfl
      · rename_i h
        rw [Bool.not_eq_true] at h
        rw [h]; rfl
  · congr 1

theorem parseT_quiet (env : Env V H) (tx : V → H → Bytes) : ∀ k, parseT env (quietSay env) tx k = parse env k
  | 0 => rfl
  | k + 1 => by
    funext n s
    show wrapT env (quietSay env) tx (parseT env (quietSay env) tx k) k n s = wrap env (parse env k) k n s
    rw [parseT_quiet env tx k]
    unfold wrapT wrap
    simp only [loopifyT_quiet]
    rfl

/-- The engine without and with what is printed. -/
def logSim (ops : Ops V H) : ValSim ops ops.logged where
  W := Unit
  I _ h h' := h'.1 = h
  R _ _ _ v v' := v = v'
  Le _ _ _ _ _ := True
  le_refl _ _ _ := trivial
  le_trans _ _ := trivial
  mono _ h := h
  str _ _ _ _ := rfl
  undef _ _ _ := rfl
  arr := by rintro w h h' l l' rfl hl; cases lrel_eq hl; exact ⟨rfl, trivial, rfl⟩
  newMap := by rintro w h h' v v' k rfl rfl; exact ⟨rfl, trivial, rfl⟩
  origin := by rintro w h h' v v' o rfl rfl; exact ⟨rfl, trivial, rfl⟩
  cb := by
    rintro w h h' v v' c p rfl rfl
    show ERel _ (ops.cb c v p h'.1) ((ops.cb c v p h'.1).map _)
    rcases ops.cb c v p h'.1 with e | ⟨r, k⟩
    · rfl
    · refine ⟨rfl, trivial, ?_⟩
      cases r with
      | none => exact .none
      | some x => exact .some rfl
  Acc _ _ _ _ _ r r' _ := r = r'
  acc_undef := by rintro w h0 h0' h h' r r' w2 rfl; rfl
  acc_le h _ := h
  acc_done h hi := ⟨hi, trivial, h, fun _ _ h => h⟩
  acc_new := by rintro w h0 h0' h h' v v' k - rfl rfl; exact ⟨(), rfl, rfl, fun _ _ h => h⟩
  acc_set := by
    rintro w h0 h0' h h' r r' w2 v v' k rfl rfl rfl
    show ERel _ (ops.mapSet r k v h'.1) ((ops.mapSet r k v h'.1).map _)
    rcases ops.mapSet r k v h'.1 with e | ⟨r, k⟩
    · rfl
    · exact ⟨(), rfl, rfl, fun _ _ h => h⟩
  splice := True
  acc_def := Or.inl trivial
  acc_val _ := fun {w h0 h0' h h' v v'} _ hi hv => ⟨(), hv, hi, fun _ _ h => h⟩
  acc_merge := by
    rintro w h0 h0' h h' r r' w2 v v' rfl rfl rfl
    show ERel _ (ops.merge r v h'.1) ((ops.merge r v h'.1).map _)
    rcases ops.merge r v h'.1 with e | ⟨r, k⟩
    · rfl
    · exact ⟨(), rfl, rfl, fun _ _ h => h⟩
  acc_merge' _ := by
    rintro w h0 h0' h h' r r' w2 v v' rfl rfl rfl
    show ERel _ (ops.merge v r h'.1) ((ops.merge v r h'.1).map _)
    rcases ops.merge v r h'.1 with e | ⟨r, k⟩
    · rfl
    · exact ⟨(), rfl, rfl, fun _ _ h => h⟩

theorem logSim_ok (ops : Ops V H) (g : Grammar) (n : Node) : (logSim ops).NodeOk g n := by
  unfold ValSim.NodeOk
  split
  · exact Or.inl trivial
  · trivial


/-- What is printed, among what is noted. -/
def keepSim (ops : Ops V H) (keep : LogLine → Bool) : ValSim ops.logged ops.logged where
  W := Unit
  I _ h h' := h = (h'.1, h'.2.filter keep)
  R _ _ _ v v' := v = v'
  Le _ _ _ _ _ := True
  le_refl _ _ _ := trivial
  le_trans _ _ := trivial
  mono _ h := h
  str _ _ _ _ := rfl
  undef _ _ _ := rfl
  arr := by rintro w h h' l l' rfl hl; cases lrel_eq hl; exact ⟨rfl, trivial, rfl⟩
  newMap := by rintro w h h' v v' k rfl rfl; exact ⟨rfl, trivial, rfl⟩
  origin := by rintro w h h' v v' o rfl rfl; exact ⟨rfl, trivial, rfl⟩
  cb := by
    rintro w h h' v v' c p rfl rfl
    show ERel _ ((ops.cb c v p h'.1).map _) ((ops.cb c v p h'.1).map _)
    rcases ops.cb c v p h'.1 with e | ⟨r, k⟩
    · rfl
    · refine ⟨rfl, trivial, ?_⟩
      cases r with
      | none => exact .none
      | some x => exact .some rfl
  Acc _ _ _ _ _ r r' _ := r = r'
  acc_undef := by rintro w h0 h0' h h' r r' w2 rfl; rfl
  acc_le h _ := h
  acc_done h hi := ⟨hi, trivial, h, fun _ _ h => h⟩
  acc_new := by rintro w h0 h0' h h' v v' k - rfl rfl; exact ⟨(), rfl, rfl, fun _ _ h => h⟩
  acc_set := by
    rintro w h0 h0' h h' r r' w2 v v' k rfl rfl rfl
    show ERel _ ((ops.mapSet r k v h'.1).map _) ((ops.mapSet r k v h'.1).map _)
    rcases ops.mapSet r k v h'.1 with e | ⟨r, k⟩
    · rfl
    · exact ⟨(), rfl, rfl, fun _ _ h => h⟩
  splice := True
  acc_def := Or.inl trivial
  acc_val _ := fun {w h0 h0' h h' v v'} _ hi hv => ⟨(), hv, hi, fun _ _ h => h⟩
  acc_merge := by
    rintro w h0 h0' h h' r r' w2 v v' rfl rfl rfl
    show ERel _ ((ops.merge r v h'.1).map _) ((ops.merge r v h'.1).map _)
    rcases ops.merge r v h'.1 with e | ⟨r, k⟩
    · rfl
    · exact ⟨(), rfl, rfl, fun _ _ h => h⟩
  acc_merge' _ := by
    rintro w h0 h0' h h' r r' w2 v v' rfl rfl rfl
    show ERel _ ((ops.merge v r h'.1).map _) ((ops.merge v r h'.1).map _)
    rcases ops.merge v r h'.1 with e | ⟨r, k⟩
    · rfl
    · exact ⟨(), rfl, rfl, fun _ _ h => h⟩

theorem keepSim_ok (ops : Ops V H) (keep : LogLine → Bool) (g : Grammar) (n : Node) : (keepSim ops keep).NodeOk g n := by
  unfold ValSim.NodeOk
  split
  · exact Or.inl trivial
  · trivial


end Joeson
