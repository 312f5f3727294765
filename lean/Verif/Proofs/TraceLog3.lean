import Verif.Proofs.TraceLog2
import Verif.Spec.TraceLog
/-!
# What is noted is a whole trace
-/

namespace Joeson
variable {V H : Type}

theorem readLines_append (ok : List OpenAttempt → Nat → Bool) : ∀ (l l' : List LogLine) (o : List OpenAttempt),
    readLines ok o (l ++ l') = (readLines ok o l).bind fun o => readLines ok o l'
  | [], _, _ => rfl
  | x :: l, l', o => by
    rw [List.cons_append, readLines, readLines]
    split
    · split
      · exact readLines_append ok l l' _
      · rfl
    · cases o with
      | nil => rfl
      | cons t o =>
        dsimp only
        split
        · exact readLines_append ok l l' _
        · rfl

abbrev LSt (V H : Type) := St V (H × List LogLine)

/-- Operations that print nothing. -/
structure Silent (ops : Ops V (H × List LogLine)) : Prop where
  arr : ∀ l h, (ops.arr l h).2.2 = h.2
  newMap : ∀ k v h, (ops.newMap k v h).2.2 = h.2
  origin : ∀ v o h, (ops.origin v o h).2.2 = h.2
  mapSet : ∀ r k v h x, ops.mapSet r k v h = .ok x → x.2.2 = h.2
  merge : ∀ r v h x, ops.merge r v h = .ok x → x.2.2 = h.2
  cb : ∀ c v p h x, ops.cb c v p h = .ok x → x.2.2 = h.2

theorem logged_silent (ops : Ops V H) : Silent ops.logged where
  arr _ _ := rfl
  newMap _ _ _ := rfl
  origin _ _ _ := rfl
  mapSet r k v h x hx := by obtain ⟨a, rfl⟩ := map_ok hx; rfl
  merge r v h x hx := by obtain ⟨a, rfl⟩ := map_ok hx; rfl
  cb c v p h x hx := by obtain ⟨a, rfl⟩ := map_ok hx; rfl

theorem seqAdd_silent {ops : Ops V (H × List LogLine)} (K : Silent ops) {repr : SeqRepr} {i : Info} {acc : SeqAcc V} {v : V} {h : H × List LogLine}
    {x : SeqAcc V × (H × List LogLine)} (hx : seqAdd ops repr i acc v h = .ok x) : x.2.2 = h.2 := by
  unfold seqAdd at hx
  cases repr with
  | single => cases hx; rfl
  | array => cases hx; rfl
  | object =>
    dsimp only at hx
    split at hx
    · split at hx
      · cases hx; rfl
      · rename_i r _
        cases hm : ops.merge v r h with
        | error e => rw [hm] at hx; cases hx
        | ok y => rw [hm] at hx; cases hx; exact K.merge _ _ _ _ hm
    · split at hx
      · split at hx
        · cases hx; rfl
        · rename_i r _
          cases hm : ops.merge r v h with
          | error e => rw [hm] at hx; cases hx
          | ok y => rw [hm] at hx; cases hx; exact K.merge _ _ _ _ hm
      · split at hx
        · cases hx; rfl
        · split at hx
          · cases hx; exact K.newMap _ _ _
          · rename_i r _
            cases hm : ops.mapSet r i.label v h with
            | error e => rw [hm] at hx; cases hx
            | ok y => rw [hm] at hx; cases hx; exact K.mapSet _ _ _ _ _ hm

/-- A relation between the states before and after that looks at the stack and what was printed only. -/
structure CarryL (R : LSt V H → LSt V H → Prop) : Prop where
  refl : ∀ s, R s s
  trans : ∀ {s t u}, R s t → R t u → R s u
  aux : ∀ {s t} t', t'.stack = t.stack → t'.h.2 = t.h.2 → R s t → R s t'

theorem CarryL.pos {R : LSt V H → LSt V H → Prop} (c : CarryL R) {s t : LSt V H} (p : Nat) (h : R s t) : R s { t with pos := p } :=
  c.aux (t := t) _ rfl rfl h

theorem CarryL.store {R : LSt V H → LSt V H → Prop} (c : CarryL R) {s t : LSt V H} (x : H × List LogLine) (hx : x.2 = t.h.2) (h : R s t) : R s { t with h := x } :=
  c.aux (t := t) _ rfl hx h

section kinds
variable {R : LSt V H → LSt V H → Prop} (c : CarryL R) {env : Env V (H × List LogLine)} (K : Silent env.ops) {rec_ : Node → Run V (H × List LogLine)}
  (hrec : ∀ n s, Gets (rec_ n s) (fun x => R s x.2))

include c hrec in
theorem parseAlts_getsL : ∀ (l : List Node) (s : LSt V H), Gets (parseAlts env rec_ l s) (fun x => R s x.2)
  | [], s => c.refl s
  | n :: l, s => by
    rw [parseAlts]
    refine (hrec n s).bind ?_
    rintro ⟨r, t⟩ h1
    cases r with
    | some v => exact h1
    | none =>
      refine (setPos_gets env s.pos t).bind ?_
      rintro _ rfl
      exact (parseAlts_getsL l _).imp fun x hx => c.trans (c.pos _ h1) hx

include c K hrec

theorem parseItems_getsL (repr : SeqRepr) : ∀ (l : List Node) (acc : SeqAcc V) (s : LSt V H),
    Gets (parseItems env rec_ repr l acc s) (fun x => R s x.2)
  | [], acc, s => by
    refine c.store (seqDone env.ops repr acc s.h).2 ?_ (c.refl s)
    unfold seqDone
    split
    · exact K.arr _ _
    · split <;> rfl
  | n :: l, acc, s => by
    rw [parseItems]
    refine (hrec n s).bind ?_
    rintro ⟨r, t⟩ h1
    cases r with
    | none => exact h1
    | some v =>
      dsimp only
      refine (gets_of (P := fun x => x.2.2 = t.h.2) fun x hx => seqAdd_silent K (ofExcept_ok' hx)).bind ?_
      rintro ⟨acc, x⟩ hx
      exact (parseItems_getsL repr l acc _).imp fun y hy => c.trans (c.store x hx h1) hy

theorem parseRep_getsL (v : Node) (j : Option Node) (mn mx : Int) (start : Nat) :
    ∀ (k : Nat) (ms : List V) (s : LSt V H), Gets (parseRep env rec_ v j mn mx start k ms s) (fun x => R s x.2)
  | 0, _, _ => trivial
  | k + 1, ms, s => by
    unfold parseRep
    extract_lets pos2 finish
    have hfin : ∀ t, R s t → Gets (finish t) (fun x => R s x.2) := by
      intro t ht
      show Gets (if _ then _ else _) _
      split
      · refine (setPos_gets env start t).bind ?_
        rintro _ rfl
        exact c.pos _ ht
      · exact c.store _ (K.arr _ _) ht
    refine Out.Holds.bind (Q := fun x => R s x.2) ?_ ?_
    · cases j with
      | none => exact c.refl s
      | some n =>
        refine (hrec n s).bind ?_
        rintro ⟨r, t⟩ h1
        exact h1
    · rintro ⟨b, t⟩ h1
      dsimp only
      split
      · refine (setPos_gets env pos2 t).bind ?_
        rintro _ rfl
        exact hfin _ (c.pos _ h1)
      · refine (hrec v t).bind ?_
        rintro ⟨r, u⟩ h2
        have h3 := c.trans h1 h2
        cases r with
        | none =>
          refine (setPos_gets env pos2 u).bind ?_
          rintro _ rfl
          exact hfin _ (c.pos _ h3)
        | some w =>
          dsimp only
          split
          · split
            · refine (setPos_gets env start u).bind ?_
              rintro _ rfl
              exact c.pos _ h3
            · exact c.store _ (K.arr _ _) h3
          · exact (parseRep_getsL v j mn mx start k _ u).imp fun y hy => c.trans h3 hy

theorem parseKind_getsL (k : Nat) (n : Node) (s : LSt V H) : Gets (parseKind env rec_ k n s) (fun x => R s x.2) := by
  cases n with
  | str i b =>
    refine (gets_any (Out.ofExcept (env.st.matchString s.pos b))).bind ?_
    rintro ⟨m, p⟩ -
    cases m <;> exact c.pos _ (c.refl s)
  | regex i re =>
    refine (gets_any (Out.ofExcept (env.st.matchRegexp s.pos re))).bind ?_
    rintro ⟨m, p⟩ -
    cases m <;> exact c.pos _ (c.refl s)
  | choice i l => exact parseAlts_getsL c hrec l s
  | seq i repr l => exact parseItems_getsL c K hrec repr l _ s
  | exist i m =>
    refine (hrec m s).bind ?_
    rintro ⟨r, t⟩ h1
    cases r with
    | some v => exact h1
    | none =>
      refine (setPos_gets env s.pos t).bind ?_
      rintro _ rfl
      exact c.pos _ h1
  | look i m =>
    refine (hrec m s).bind ?_
    rintro ⟨r, t⟩ h1
    refine (setPos_gets env s.pos t).bind ?_
    rintro _ rfl
    exact c.pos _ h1
  | not i m =>
    refine (hrec m s).bind ?_
    rintro ⟨r, t⟩ h1
    refine (setPos_gets env s.pos t).bind ?_
    rintro _ rfl
    cases r <;> exact c.pos _ h1
  | pattern i v j mn mx =>
    refine (hrec v s).bind ?_
    rintro ⟨r, t⟩ h1
    cases r with
    | none =>
      refine (setPos_gets env s.pos t).bind ?_
      rintro _ rfl
      dsimp only
      split
      · exact c.pos _ h1
      · exact c.store (t := { t with pos := s.pos }) _ (K.arr _ _) (c.pos _ h1)
    | some w =>
      exact (parseRep_getsL c K hrec v j mn mx s.pos k _ t).imp fun y hy => c.trans h1 hy
  | ref i nm =>
    rw [parseKind]
    cases env.g.lookup nm with
    | none => trivial
    | some id =>
      refine (gets_any (stackPeek s)).bind fun _ _ => ?_
      exact hrec _ s
  | rule id => exact hrec _ s

end kinds

theorem prepareResult_getsL {R : LSt V H → LSt V H → Prop} (c : CarryL R) {env : Env V (H × List LogLine)} (K : Silent env.ops) (b : Bool) (i : Info)
    {f : Run V (H × List LogLine)} (hf : ∀ s, Gets (f s) (fun x => R s x.2)) (s : LSt V H) :
    Gets (prepareResult env b i f s) (fun x => R s x.2) := by
  unfold prepareResult
  refine (hf _).bind ?_
  rintro ⟨r, t⟩ h1
  replace h1 : R s t := c.trans (c.aux (t := s) { s with counter := s.counter + 1 } rfl rfl (c.refl s)) h1
  cases r with
  | none => exact h1
  | some v =>
    dsimp only
    have hl : (if i.ownLabel = true then env.ops.newMap i.label v t.h else (v, t.h)).2.2 = t.h.2 := by
      split
      · exact K.newMap _ _ _
      · rfl
    generalize (if i.ownLabel = true then env.ops.newMap i.label v t.h else (v, t.h)) = q at *
    cases i.cb with
    | none =>
      refine (gets_any (stackPeek _)).bind fun top _ => ?_
      exact c.aux (t := t) _ rfl ((K.origin _ _ _).trans hl) h1
    | some cb =>
      dsimp only
      refine (gets_of (P := fun x => x.2.2 = t.h.2) fun x hx => (K.cb _ _ _ _ _ (ofExcept_ok' hx)).trans hl).bind ?_
      rintro ⟨rv, x⟩ hx
      cases rv with
      | none => exact c.aux (t := t) _ rfl hx h1
      | some v' =>
        refine (gets_any (stackPeek _)).bind fun top _ => ?_
        exact c.aux (t := t) _ rfl ((K.origin _ _ _).trans hx) h1

end Joeson
