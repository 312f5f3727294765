import Verif.Proofs.ValueSim
import Verif.Spec.Heap
/-!
# Where sequences fill their own maps, maps by address are as good as trees
-/

namespace Joeson
open Spec

theorem Keeps.refl (h : Store) : Keeps h h := ⟨Nat.le_refl _, fun _ _ => rfl⟩

theorem Keeps.trans {h k l : Store} (h1 : Keeps h k) (h2 : Keeps k l) : Keeps h l :=
  ⟨Nat.le_trans h1.1 h2.1, fun a ha => (h2.2 a (Nat.lt_of_lt_of_le ha h1.1)).trans (h1.2 a ha)⟩

mutual
/-- Reading depends only on the cells in use that are not avoided. -/
theorem readsAs_mono {P Q : Nat → Prop} {h k : Store} (hk : h.next ≤ k.next)
    (hc : ∀ a, a < h.next → ¬ P a → k.cells a = h.cells a) (hq : ∀ a, a < h.next → ¬ P a → ¬ Q a) {v : Val} {t : Ast} :
    ReadsAs P h v t → ReadsAs Q k v t
  | .undef => .undef
  | .str => .str
  | .int => .int
  | .error => .error
  | .arr hl => .arr (readsAsList_mono hk hc hq hl)
  | .user hl => .user (readsAsList_mono hk hc hq hl)
  | .ref ha hp hm => .ref (Nat.lt_of_lt_of_le ha hk) (hq _ ha hp) (by
      have := readsAsMap_mono hk hc hq hm
      rw [hc _ ha hp]
      exact this)
/-- Lists. -/
theorem readsAsList_mono {P Q : Nat → Prop} {h k : Store} (hk : h.next ≤ k.next)
    (hc : ∀ a, a < h.next → ¬ P a → k.cells a = h.cells a) (hq : ∀ a, a < h.next → ¬ P a → ¬ Q a) {v : List Val} {t : List Ast} :
    ReadsAsList P h v t → ReadsAsList Q k v t
  | .nil => .nil
  | .cons h1 h2 => .cons (readsAs_mono hk hc hq h1) (readsAsList_mono hk hc hq h2)
/-- Entries. -/
theorem readsAsMap_mono {P Q : Nat → Prop} {h k : Store} (hk : h.next ≤ k.next)
    (hc : ∀ a, a < h.next → ¬ P a → k.cells a = h.cells a) (hq : ∀ a, a < h.next → ¬ P a → ¬ Q a) {v : List (String × Val)}
    {t : List (String × Ast)} : ReadsAsMap P h v t → ReadsAsMap Q k v t
  | .nil => .nil
  | .cons h1 h2 => .cons (readsAs_mono hk hc hq h1) (readsAsMap_mono hk hc hq h2)
end

theorem readsAs_keeps {P : Nat → Prop} {h k : Store} (hk : Keeps h k) {v : Val} {t : Ast} (hv : ReadsAs P h v t) :
    ReadsAs P k v t := readsAs_mono hk.1 (fun a ha _ => hk.2 a ha) (fun _ _ h => h) hv

theorem readsAsList_of_lrel {P : Nat → Prop} {h : Store} {l : List Val} {l' : List Ast} (hl : LRel (ReadsAs P h) l l') :
    ReadsAsList P h l l' := by
  induction hl with
  | nil => exact .nil
  | cons h1 _ ih => exact .cons h1 ih

theorem readsAsMap_set {P : Nat → Prop} {h : Store} {k : String} {v : Val} {t : Ast} (hv : ReadsAs P h v t) :
    ∀ {l : List (String × Val)} {l' : List (String × Ast)}, ReadsAsMap P h l l' → ReadsAsMap P h (kvSet k v l) (kvSet k t l')
  | _, _, .nil => .cons hv .nil
  | _, _, @ReadsAsMap.cons _ _ k' _ _ _ _ h1 h2 => by
    unfold kvSet
    split
    · exact .cons hv h2
    · exact .cons h1 (readsAsMap_set hv h2)

theorem readsAsMap_fold {P : Nat → Prop} {h : Store} : ∀ {m : List (String × Val)} {m' : List (String × Ast)}, ReadsAsMap P h m m' →
    ∀ {l : List (String × Val)} {l' : List (String × Ast)}, ReadsAsMap P h l l' →
      ReadsAsMap P h (m.foldl (fun l p => kvSet p.1 p.2 l) l) (m'.foldl (fun l p => kvSet p.1 p.2 l) l')
  | _, _, .nil, _, _, hl => hl
  | _, _, .cons h1 h2, _, _, hl => readsAsMap_fold h2 (readsAsMap_set h1 hl)

/-- The tree callbacks, as callbacks of the engine. -/
def treeCb (tcb : Nat → Ast → Nat → Except Panic (Option Ast)) : Nat → Ast → Nat → Unit → Except Panic (Option Ast × Unit) :=
  fun c v p _ => (tcb c v p).map (·, ())

/-- Maps by address against trees. The world is the set of cells that belong to unfinished sequences. -/
def heapSim {cb : Nat → Val → Nat → Store → Except Panic (Option Val × Store)}
    {tcb : Nat → Ast → Nat → Except Panic (Option Ast)} (hcb : PureCallbacks cb tcb) :
    ValSim (heapOps cb) (treeOps (H := Unit) (treeCb tcb)) where
  W := Nat → Prop
  I P h _ := ∀ a, P a → a < h.next
  R P h _ v t := ReadsAs P h v t
  Le _ h _ k _ := Keeps h k
  le_refl _ h _ := Keeps.refl h
  le_trans h1 h2 := Keeps.trans h1 h2
  mono hk hv := readsAs_keeps hk hv
  str _ _ _ _ := .str
  undef _ _ _ := .undef
  arr hi hl := ⟨hi, Keeps.refl _, .arr (readsAsList_of_lrel hl)⟩
  newMap {P h h' v v'} k hi hv := by
    have hk : Keeps h (h.alloc [(k, v)]) :=
      ⟨Nat.le_succ _, fun a ha => if_neg (Nat.ne_of_lt ha)⟩
    refine ⟨fun a ha => Nat.lt_succ_of_lt (hi a ha), hk, ?_⟩
    refine .ref (Nat.lt_succ_self _) (fun hp => Nat.lt_irrefl _ (hi _ hp)) ?_
    show ReadsAsMap P (h.alloc [(k, v)]) (if h.next = h.next then _ else _) _
    rw [if_pos rfl]
    exact .cons (readsAs_keeps hk hv) .nil
  origin _ hi hv := ⟨hi, Keeps.refl _, hv⟩
  cb {P h h' v t} c p hi hv := by
    have := hcb c p P h v t hv
    show ERel _ (cb c v p h) ((tcb c t p).map (·, ()))
    revert this
    rcases cb c v p h with e | ⟨r, k⟩ <;> rcases tcb c t p with e' | r'
    · exact fun h => h
    · exact fun h => h
    · exact fun h => h
    · intro ⟨h1, h2⟩
      refine ⟨fun a ha => Nat.lt_of_lt_of_le (hi a ha) h1.1, h1, ?_⟩
      cases r <;> cases r'
      · exact .none
      · exact h2.elim
      · exact h2.elim
      · exact .some h2
  Acc P h0 _ h _ r t P2 := ∃ a kvs, r = .ref a ∧ t = .map kvs ∧ h0.next ≤ a ∧ a < h.next ∧ ¬ P a ∧
    P2 = (fun b => P b ∨ b = a) ∧ ReadsAsMap P2 h (h.cells a) kvs ∧ Keeps h0 h ∧ ∀ b, P b → b < h.next
  acc_undef := by
    rintro _ _ _ _ _ _ _ _ ⟨a, kvs, rfl, rfl, -⟩
    rfl
  acc_le := by
    rintro P h0 h0' h h' k k' r r' w2 ⟨a, kvs, rfl, rfl, h1, h2, h3, h4, h5, h6, h7⟩ hk
    refine ⟨a, kvs, rfl, rfl, h1, Nat.lt_of_lt_of_le h2 hk.1, h3, h4, ?_, Keeps.trans h6 hk, fun b hb => Nat.lt_of_lt_of_le (h7 b hb) hk.1⟩
    rw [hk.2 a h2]
    exact readsAsMap_mono hk.1 (fun a ha _ => hk.2 a ha) (fun _ _ h => h) h5
  acc_done := by
    rintro P h0 h0' h h' r r' w2 ⟨a, kvs, rfl, rfl, h1, h2, h3, rfl, h5, h6, h7⟩ hi
    have hq : ∀ b, b < h.next → ¬ (P b ∨ b = a) → ¬ P b := fun b _ hb hp => hb (Or.inl hp)
    exact ⟨h7, h6, .ref h2 h3 (readsAsMap_mono (Nat.le_refl _) (fun _ _ _ => rfl) hq h5),
      fun u u' hu => readsAs_mono (Nat.le_refl _) (fun _ _ _ => rfl) hq hu⟩
  acc_new := by
    intro P h0 h0' h h' v v' k hle hi hv
    have hk : Keeps h (h.alloc [(k, v)]) := ⟨Nat.le_succ _, fun a ha => if_neg (Nat.ne_of_lt ha)⟩
    have hall : ∀ u u', ReadsAs P h u u' → ReadsAs (fun b => P b ∨ b = h.next) (h.alloc [(k, v)]) u u' := fun u u' hu =>
      readsAs_mono hk.1 (fun a ha _ => hk.2 a ha) (fun a ha hp => by
        rintro (h' | h')
        · exact hp h'
        · exact Nat.ne_of_lt ha h') hu
    refine ⟨fun b => P b ∨ b = h.next, ⟨h.next, [(k, v')], rfl, rfl, hle.1, Nat.lt_succ_self _,
      fun hp => Nat.lt_irrefl _ (hi _ hp), rfl, ?_, Keeps.trans hle hk, fun b hb => Nat.lt_succ_of_lt (hi b hb)⟩, ?_, hall⟩
    · show ReadsAsMap _ (h.alloc [(k, v)]) (if h.next = h.next then _ else _) _
      rw [if_pos rfl]
      exact .cons (hall _ _ hv) .nil
    · rintro a (ha | ha)
      · exact Nat.lt_succ_of_lt (hi a ha)
      · rw [ha]; exact Nat.lt_succ_self _
  acc_set := by
    rintro P h0 h0' h h' r r' w2 v v' k ⟨a, kvs, rfl, rfl, h1, h2, h3, rfl, h5, h6, h7⟩ hi hv
    have hall : ∀ u u', ReadsAs (fun b => P b ∨ b = a) h u u' →
        ReadsAs (fun b => P b ∨ b = a) (h.put a (kvSet k v (h.cells a))) u u' := fun u u' hu =>
      readsAs_mono (k := h.put a (kvSet k v (h.cells a))) (Nat.le_refl h.next)
        (fun b _ hb => if_neg fun e => hb (Or.inr e)) (fun _ _ h => h) hu
    refine ⟨fun b => P b ∨ b = a, ⟨a, kvSet k v' kvs, rfl, rfl, h1, h2, h3, rfl, ?_, ?_, h7⟩, hi, hall⟩
    · show ReadsAsMap _ (h.put a (kvSet k v (h.cells a))) (if a = a then _ else _) _
      rw [if_pos rfl]
      have := readsAsMap_set (k := k) hv h5
      exact readsAsMap_mono (k := h.put a (kvSet k v (h.cells a))) (Nat.le_refl h.next)
        (fun b _ hb => if_neg fun e => hb (Or.inr e)) (fun _ _ h => h) this
    · refine ⟨h6.1, fun b hb => ?_⟩
      show (if b = a then _ else _) = _
      rw [if_neg (by omega)]
      exact h6.2 b hb
  splice := False
  acc_def := by
    refine Or.inr ?_
    rintro _ _ _ _ _ _ _ _ ⟨a, kvs, rfl, rfl, -⟩
    rfl
  acc_val h := h.elim
  acc_merge := by
    rintro P h0 h0' h h' r r' w2 v v' ⟨a, kvs, rfl, rfl, h1, h2, h3, rfl, h5, h6, h7⟩ hi hv
    cases hv with
    | undef => exact ⟨_, ⟨a, kvs, rfl, rfl, h1, h2, h3, rfl, h5, h6, h7⟩, hi, fun _ _ h => h⟩
    | str => rfl
    | int => rfl
    | error => rfl
    | arr _ => rfl
    | user _ => rfl
    | @ref b kvs' hb hp hm =>
      have hall : ∀ m u u', ReadsAs (fun b => P b ∨ b = a) h u u' →
          ReadsAs (fun b => P b ∨ b = a) (h.put a m) u u' := fun m u u' hu =>
        readsAs_mono (k := h.put a m) (Nat.le_refl h.next)
          (fun b _ hb => if_neg fun e => hb (Or.inr e)) (fun _ _ h => h) hu
      refine ⟨fun b => P b ∨ b = a, ⟨a, _, rfl, rfl, h1, h2, h3, rfl, ?_, ?_, h7⟩, hi, hall _⟩
      · show ReadsAsMap _ (h.put a _) (if a = a then _ else _) _
        rw [if_pos rfl]
        have := readsAsMap_fold hm h5
        exact readsAsMap_mono (k := h.put a _) (Nat.le_refl h.next)
          (fun b _ hb => if_neg fun e => hb (Or.inr e)) (fun _ _ h => h) this
      · refine ⟨h6.1, fun b hb => ?_⟩
        show (if b = a then _ else _) = _
        rw [if_neg (by omega)]
        exact h6.2 b hb
  acc_merge' h := h.elim

/-- Item by item. -/
theorem fills_of (f : Node → String) : ∀ (l : List Node), (∀ c ∈ l, f c ≠ "&") → ∀ (b : Bool),
    (∀ l1 c l2, l = l1 ++ c :: l2 → f c = "@" → b = true ∨ ∃ d ∈ l1, f d ≠ "" ∧ f d ≠ "@") → ValSim.Fills b (l.map f)
  | [], _, _, _ => trivial
  | c :: l, h1, b, h2 => by
    refine ⟨h1 c (List.mem_cons_self ..), fun hc => ?_, fills_of f l (fun d hd => h1 d (List.mem_cons_of_mem _ hd)) _ fun l1 d l2 he hd => ?_⟩
    · rcases h2 [] c l rfl hc with h | ⟨d, hd, _⟩
      · exact h
      · cases hd
    · rcases h2 (c :: l1) d l2 (by rw [he]; rfl) hd with h | ⟨x, hx, hx1, hx2⟩
      · exact Or.inl (by simp [h])
      · rcases List.mem_cons.mp hx with rfl | hx
        · exact Or.inl (by simp [hx1])
        · exact Or.inr ⟨x, hx, hx1, hx2⟩

/-- `OwnMaps` for a sequence, checked. -/
def fillsB : Bool → List String → Bool
  | _, [] => true
  | b, l :: ls => l != "&" && (l != "@" || b) && fillsB (b || (l != "" && l != "@")) ls

theorem fillsB_sound {α : Type} (f : α → String) : ∀ (l : List α) (b : Bool), fillsB b (l.map f) = true → (∀ c ∈ l, f c ≠ "&") ∧
    ∀ l1 c l2, l = l1 ++ c :: l2 → f c = "@" → b = true ∨ ∃ d ∈ l1, f d ≠ "" ∧ f d ≠ "@"
  | [], _, _ => ⟨by simp, by simp⟩
  | c :: l, b, h => by
    simp only [List.map_cons, fillsB, Bool.and_eq_true, bne_iff_ne, Bool.or_eq_true] at h
    obtain ⟨i1, i2⟩ := fillsB_sound f l _ h.2
    refine ⟨fun d hd => ?_, fun l1 d l2 he hd => ?_⟩
    · rcases List.mem_cons.mp hd with rfl | hd
      · exact h.1.1
      · exact i1 d hd
    · cases l1 with
      | nil =>
        injection he with he1 he2
        subst he1
        exact Or.inl (h.1.2.resolve_left fun hn => hn hd)
      | cons x l1 =>
        injection he with he1 he2
        subst he1
        rcases i2 l1 d l2 he2 hd with h' | ⟨y, hy, hy'⟩
        · simp only [Bool.or_eq_true, Bool.and_eq_true, bne_iff_ne] at h'
          rcases h' with h' | h'
          · exact Or.inl h'
          · exact Or.inr ⟨c, List.mem_cons_self .., h'⟩
        · exact Or.inr ⟨y, List.mem_cons_of_mem _ hy, hy'⟩

/-- A sequence that fills its own map. -/
theorem ownMaps_seq {g : Grammar} {i : Info} {r : SeqRepr} {l : List Node} (hl : ∀ c ∈ l, OwnMaps g c)
    (h : fillsB false (l.map fun c => (g.info c).label) = true) : OwnMaps g (.seq i r l) := by
  obtain ⟨h1, h2⟩ := fillsB_sound (fun c => (g.info c).label) l false h
  exact .seq hl h1 fun l1 c l2 he hc => (h2 l1 c l2 he hc).resolve_left (by simp)

theorem ownMaps_all {cb : Nat → Val → Nat → Store → Except Panic (Option Val × Store)}
    {tcb : Nat → Ast → Nat → Except Panic (Option Ast)} (hcb : PureCallbacks cb tcb) {g : Grammar} {n : Node}
    (h : OwnMaps g n) : n.All ((heapSim hcb).NodeOk g) := by
  induction h with
  | str => exact .str trivial
  | regex => exact .regex trivial
  | choice _ ih => exact .choice trivial ih
  | @seq i r l hx hl hb ih =>
    refine .seq ?_ fun c hc => ih c hc
    cases r with
    | object => exact Or.inr (fills_of _ l hl false fun l1 c l2 h1 h2 => Or.inr (hb l1 c l2 h1 h2))
    | single => trivial
    | array => trivial
  | exist _ ih => exact .exist trivial ih
  | look _ ih => exact .look trivial ih
  | not _ ih => exact .not trivial ih
  | pattern _ _ ih1 ih2 => exact .pattern trivial ih1 ih2
  | ref => exact .ref trivial
  | rule => exact .rule trivial

end Joeson
