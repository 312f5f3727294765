import Verif.Proofs.Visits2
import Verif.Proofs.Work
/-!
# How often `parse` is called, as long as no left recursion is met
-/

namespace Joeson
variable {V H : Type}

/-- What is counted: evaluations, or calls. -/
def tally (w : Bool) (s : St V (H × Nat)) : Nat := if w then s.counter else s.h.2

/-- From `s` to `t` at most `c` evaluations or calls were made, and `M` for each rule and position evaluated for the first time. -/
structure Paid (w : Bool) (M len N c : Nat) (s t : St V (H × Nat)) : Prop extends Grown s t where
  count : Unmasked t → tally w t + M * (used len N s).card ≤ tally w s + c + M * (used len N t).card

theorem Grown.noMask {s t : St V H} (h : Grown s t) (hn : Unmasked t) : Unmasked s := by
  intro a ha
  cases hm : (s.heap a).wipemask with
  | none => rfl
  | some m =>
    have h1 := h.mask a ha (by rw [hm]; rfl)
    rw [hn a (Nat.lt_of_lt_of_le ha h.next)] at h1
    cases h1

theorem Grown.refl {s : St V H} (h : Tidy s) : Grown s s := ⟨h, Nat.le_refl _, rfl, fun _ _ => ⟨rfl, rfl⟩, fun _ _ h => h⟩

section
variable {w : Bool} {M len N : Nat}

theorem Paid.refl {s : St V (H × Nat)} (h : Tidy s) : Paid w M len N 0 s s := ⟨.refl h, fun _ => Nat.le_refl _⟩

theorem Paid.mono {c c' : Nat} {s t : St V (H × Nat)} (h : Paid w M len N c s t) (hc : c ≤ c') : Paid w M len N c' s t :=
  ⟨h.toGrown, fun hn => by have := h.count hn; omega⟩

theorem Paid.trans {c c' : Nat} {s t u : St V (H × Nat)} (h : Paid w M len N c s t) (h' : Paid w M len N c' t u) : Paid w M len N (c + c') s u :=
  ⟨h.toGrown.trans h'.toGrown, fun hn => by
    have h1 := h'.count hn
    have h2 := h.count (h'.toGrown.noMask hn)
    omega⟩

theorem Paid.aux {c : Nat} {s t : St V (H × Nat)} (h : Paid w M len N c s t) (p : Nat) (x : H × Nat) (hx : x.2 = t.h.2) : Paid w M len N c s { t with pos := p, h := x } :=
  ⟨⟨⟨h.tidy.table, h.tidy.mask, h.tidy.stack⟩, h.next, h.stack, h.same, h.mask⟩, fun hn => by
    have := h.count hn
    have he : tally w { t with pos := p, h := x } = tally w t := by cases w <;> first | exact hx | rfl
    rw [he]
    exact this⟩

theorem Paid.pos {c : Nat} {s t : St V (H × Nat)} (h : Paid w M len N c s t) (p : Nat) : Paid w M len N c s { t with pos := p } := h.aux p t.h rfl

theorem Work.paid {s t : St V (H × Nat)} (h : Work len N s t) (hc : t.counter = s.counter) (hh : t.h = s.h) : Paid w M len N 0 s t :=
  ⟨h.grown, fun hn => by
    have h1 := h.count hn
    rw [hc] at h1
    have h2 := Nat.mul_le_mul_left M (show (used len N s).card ≤ (used len N t).card by omega)
    have he : tally w t = tally w s := by cases w <;> simp [tally, hc, hh]
    rw [he]
    omega⟩

theorem Grown.paid {c : Nat} {s t : St V (H × Nat)} (h : Grown s t) {a : Nat} (ha : a < t.next) (hm : (t.heap a).wipemask.isSome) : Paid w M len N c s t :=
  ⟨h, fun hn => by rw [hn a ha] at hm; cases hm⟩

theorem Paid.upd {c : Nat} {s t : St V (H × Nat)} (h : Paid w M len N c s t) (a : Nat) {f : Frame V → Frame V} (hp : ∀ x, (f x).pos = x.pos)
    (hi : ∀ x, (f x).id = x.id) (hm : ∀ x, x.wipemask.isSome → (f x).wipemask.isSome)
    (h2 : a < t.next → 2 ≤ (f (t.heap a)).loopstage → (f (t.heap a)).wipemask.isSome)
    (hu : Unmasked (updFrame a f t) → (t.heap a).Used → (f (t.heap a)).Used) : Paid w M len N c s (updFrame a f t) :=
  h.trans ((Work.upd (Work.refl h.tidy) a hp hi hm h2 hu).paid rfl rfl)
end

theorem getFrame_paid (env : Env V (H × Nat)) (id : Nat) (s : St V (H × Nat)) (h : Tidy s) : Gets (getFrame env id s) (fun x =>
    s.pos ≤ env.st.len ∧ id < env.g.numRules ∧ x.2.pos = s.pos ∧ x.2.table s.pos id = some x.1 ∧ x.1 < x.2.next ∧ x.2.h = s.h ∧ x.2.counter = s.counter ∧
      Work env.st.len env.g.numRules s x.2) := by
  refine gets_of fun x hx => ?_
  obtain ⟨h1, h2, h3, h4, h5, h6, h7⟩ := (getFrame_gets env id s h).of_ok hx
  refine ⟨h1, h2, h3, h4, h5, ?_, h6, h7⟩
  unfold getFrame at hx
  split at hx
  · split at hx <;> (cases hx; rfl)
  · cases hx

section
variable {env : Env V (H × Nat)} {w : Bool} {M : Nat}

theorem loopify_paid {f : Run V (H × Nat)} (hf : ∀ s, Tidy s → Gets (f s) (fun x => Paid w M env.st.len env.g.numRules M s x.2))
    (k id : Nat) (i : Info) (hsk : i.skipCache = false) (s : St V (H × Nat)) (h : Tidy s) :
    Gets (loopify env k id i f s) (fun x => Paid w M env.st.len env.g.numRules 0 s x.2) := by
  unfold loopify
  extract_lets show_
  refine (gets_any _).bind fun _ _ => ?_
  rw [if_neg (by rw [hsk]; simp)]
  refine (getFrame_paid env id s h).bind ?_
  rintro ⟨a, s1⟩ ⟨hp, hid, hpos, hta, han, hh0, hcnt, hw⟩
  dsimp only at hpos hta han hh0 hcnt hw ⊢
  have hw0 : Work env.st.len env.g.numRules s (if (s1.heap a).loopstage < 0 then setStage a 0 s1 else s1) := by
    split
    · exact hw.upd a (fun _ => rfl) (fun _ => rfl) (fun _ h => h) (fun _ h => by simp at h)
        (fun _ hu => by
          rcases hu with hu | hu
          · omega
          · exact Or.inr hu)
    · exact hw
  have hc0 : (if (s1.heap a).loopstage < 0 then setStage a 0 s1 else s1).counter = s.counter ∧ (if (s1.heap a).loopstage < 0 then setStage a 0 s1 else s1).h = s.h := by
    split <;> exact ⟨hcnt, hh0⟩
  have ht0 : (if (s1.heap a).loopstage < 0 then setStage a 0 s1 else s1).table s.pos id = some a := by split <;> exact hta
  have ha0 : a < (if (s1.heap a).loopstage < 0 then setStage a 0 s1 else s1).next := by split <;> exact han
  generalize (if (s1.heap a).loopstage < 0 then setStage a 0 s1 else s1) = s0 at hw0 ht0 ha0 hc0
  split
  · rename_i hst0
    cases he : (s0.heap a).endpos with
    | some e =>
      dsimp only
      refine (gets_any _).bind fun _ _ => ?_
      refine (setPos_gets env e s0).bind ?_
      rintro _ rfl
      exact (hw0.paid hc0.1 hc0.2).aux e s0.h rfl
    | none =>
      dsimp only
      -- the entry becomes used
      have hb : cacheSet a none none (setStage a 1 s0) = updFrame a (fun f => { f with loopstage := 1, result := none, endpos := none }) s0 := by
        unfold cacheSet setStage updFrame
        dsimp only
        congr 1
        funext b
        unfold setHeap
        by_cases hba : b = a <;> simp [hba]
      rw [hb]
      have htid : Tidy (updFrame a (fun f => { f with loopstage := 1, result := none, endpos := none }) s0) :=
        hw0.tidy.upd a (fun _ => rfl) (fun _ => rfl) (fun _ h => by simp at h)
      have hgr : Grown s (updFrame a (fun f => { f with loopstage := 1, result := none, endpos := none }) s0) :=
        hw0.grown.upd a (fun _ => rfl) (fun _ => rfl) (fun _ h => h) (fun _ h => by simp at h)
      have hcard : (used env.st.len env.g.numRules s0).card + 1 ≤
          (used env.st.len env.g.numRules (updFrame a (fun f => { f with loopstage := 1, result := none, endpos := none }) s0)).card := by
        have hnot : (s.pos, id) ∉ used env.st.len env.g.numRules s0 := by
          intro hx
          obtain ⟨-, b, hb1, hb2⟩ := mem_used.mp hx
          rw [ht0] at hb1
          cases hb1
          rcases hb2 with hb2 | hb2
          · omega
          · rw [he] at hb2; cases hb2
        rw [← Finset.card_insert_of_notMem hnot]
        refine Finset.card_le_card fun x hx => ?_
        rcases Finset.mem_insert.mp hx with rfl | hx
        · refine mem_used.mpr ⟨⟨hp, hid⟩, a, ht0, Or.inl ?_⟩
          rw [show (updFrame a _ s0).heap a = _ from setHeap_self _ _ _]
        · exact used_upd (fun _ => Or.inl (by simp)) hx
      have hcnt0 : tally w (updFrame a (fun f => { f with loopstage := 1, result := none, endpos := none }) s0) = tally w s0 := by cases w <;> rfl
      have hmask0 : Unmasked (updFrame a (fun f : Frame V => { f with loopstage := 1, result := none, endpos := none }) s0) → Unmasked s0 := by
        intro hn b hb
        have := hn b hb
        by_cases hba : b = a
        · subst hba; rwa [show (updFrame b _ s0).heap b = _ from setHeap_self _ _ _] at this
        · rwa [show (updFrame a _ s0).heap b = _ from setHeap_ne _ _ hba] at this
      have hanx : a < (updFrame a (fun f => { f with loopstage := 1, result := none, endpos := none }) s0).next := ha0
      generalize updFrame a (fun f => { f with loopstage := 1, result := none, endpos := none }) s0 = sb at htid hgr hcard hcnt0 hmask0 hanx
      refine (hf sb htid).bind ?_
      rintro ⟨r, t⟩ h1
      have h2 := h1.count
      have h1 := h1.toGrown
      dsimp only at h1 h2 ⊢
      have hat : a < t.next := Nat.lt_of_lt_of_le hanx h1.next
      have hgt := hgr.trans h1
      have hwt : Paid w M env.st.len env.g.numRules 0 s t := by
        refine ⟨hgt, fun hn => ?_⟩
        have h3 := h2 hn
        have hnb : Unmasked sb := by
          intro b hb
          cases hx : (sb.heap b).wipemask with
          | none => rfl
          | some m =>
            have h1 := h1.mask b hb (by rw [hx]; rfl)
            rw [hn b (Nat.lt_of_lt_of_le hb (Grown.next ‹_›))] at h1
            cases h1
        have h4 := (Work.paid (w := w) (M := M) hw0 hc0.1 hc0.2).count (hmask0 hnb)
        have h5 := Nat.mul_le_mul_left M hcard
        rw [Nat.mul_add, Nat.mul_one] at h5
        rw [hcnt0] at h3
        omega
      split
      · rename_i hst1
        refine (gets_any _).bind fun _ _ => ?_
        have hd : cacheSet a r (some (setStage a 0 t).pos) (setStage a 0 t) = updFrame a (fun f => { f with loopstage := 0, result := r, endpos := some t.pos }) t := by
          unfold cacheSet setStage updFrame
          dsimp only
          congr 1
          funext b
          unfold setHeap
          by_cases hba : b = a <;> simp [hba]
        show Paid _ _ _ _ _ s (cacheSet a r (some t.pos) (setStage a 0 t))
        rw [show cacheSet a r (some t.pos) (setStage a 0 t) = updFrame a (fun f => { f with loopstage := 0, result := r, endpos := some t.pos }) t from hd]
        exact hwt.upd a (fun _ => rfl) (fun _ => rfl) (fun _ h => h) (fun _ h => by simp at h) (fun _ _ => Or.inr rfl)
      · split
        · rename_i hst2
          have hma : (t.heap a).wipemask.isSome := hgt.tidy.mask a hat (by omega)
          cases r with
          | none =>
            refine (gets_any _).bind fun _ _ => ?_
            have hg0 : Grown s (setStage a 0 t) := hgt.upd a (fun _ => rfl) (fun _ => rfl) (fun _ h => h) (fun _ h => by simp at h)
            refine hg0.paid (a := a) hat ?_
            rw [show (setStage a 0 t).heap a = _ from setHeap_self _ _ _]
            exact hma
          | some r =>
            dsimp only
            have hg3 : Grown s (setStage a 3 t) := hgt.upd a (fun _ => rfl) (fun _ => rfl) (fun _ h => h) (fun _ _ => hma)
            have hm3 : ((setStage a 3 t).heap a).wipemask.isSome := by
              rw [show (setStage a 3 t).heap a = _ from setHeap_self _ _ _]
              exact hma
            have hl3 : ∃ l, (if (env.trace.loop && (decide (env.trace.filterLine < 0) || env.st.line (setStage a 3 t).pos == env.trace.filterLine)) = true
                then { setStage a 3 t with loopStack := i.name :: (setStage a 3 t).loopStack } else setStage a 3 t) = { setStage a 3 t with loopStack := l } := by
              split
              · exact ⟨_, rfl⟩
              · exact ⟨_, rfl⟩
            obtain ⟨l, hl⟩ := hl3
            rw [hl]
            have hg4 : Grown s { setStage a 3 t with loopStack := l } := hg3.aux _ l
            have hm4 : (({ setStage a 3 t with loopStack := l } : St V (H × Nat)).heap a).wipemask.isSome := hm3
            have ha4 : a < ({ setStage a 3 t with loopStack := l } : St V (H × Nat)).next := hat
            generalize ({ setStage a 3 t with loopStack := l } : St V (H × Nat)) = t4 at hg4 hm4 ha4
            refine (growLoop_gets (env := env) (fun s hs => (hf s hs).imp fun _ h => h.toGrown) show_ a s1.pos k r t4 t4
              ⟨hg4.tidy, Nat.le_refl _, rfl, fun _ _ => ⟨rfl, rfl⟩, fun _ _ h => h⟩).bind ?_
            rintro ⟨⟨st, e, r'⟩, t5⟩ ⟨h5, h6⟩
            dsimp only at h5 h6 ⊢
            have hg5 := hg4.trans h5
            have hm5 := h5.mask a ha4 hm4
            have ha5 : a < t5.next := Nat.lt_of_lt_of_le ha4 h5.next
            refine Out.Holds.bind (Q := fun u => ∃ l, u = { t5 with loopStack := l }) ?_ ?_
            · split
              · cases t5.loopStack with
                | nil => trivial
                | cons _ l => exact ⟨l, rfl⟩
              · exact ⟨_, rfl⟩
            · rintro _ ⟨l, rfl⟩
              have hg6 : Grown s { t5 with loopStack := l } := hg5.aux _ l
              refine (wipeWith_gets a hg6).bind ?_
              rintro ⟨_, t7⟩ ⟨h7, h8, h9, -⟩
              dsimp only at h7 h8 h9 ⊢
              have hst7 : StashTidy t7 st := by
                intro i b hb
                have := h6 i b hb
                rw [h8, h9]
                exact this
              have h10 := restoreWith_grown h7 hst7
              refine (setPos_gets env e _).bind ?_
              rintro _ rfl
              refine (gets_any _).bind fun _ _ => ?_
              have h11 : Grown s { restoreWith st t7 with pos := e } := h10.aux e _
              have h12 : Grown s (setStage a 0 { restoreWith st t7 with pos := e }) :=
                h11.upd a (fun _ => rfl) (fun _ => rfl) (fun _ h => h) (fun _ h => by simp at h)
              refine h12.paid (a := a) (show a < t7.next by rw [h9]; exact ha5) ?_
              rw [show (setStage a 0 { restoreWith st t7 with pos := e }).heap a = { t7.heap a with loopstage := 0 } from setHeap_self _ _ _, h8]
              exact hm5
        · trivial
  · split
    · refine (gets_any _).bind fun _ _ => ?_
      refine (gets_any _).bind fun m _ => ?_
      have heq : updFrame a (fun f => { f with wipemask := some m }) (if (s0.heap a).loopstage = 1 then setStage a 2 s0 else s0) =
          updFrame a (fun f => { f with loopstage := if f.loopstage = 1 then 2 else f.loopstage, wipemask := some m }) s0 := by
        by_cases h1 : (s0.heap a).loopstage = 1
        · rw [if_pos h1]
          unfold setStage updFrame
          dsimp only
          congr 1
          funext b
          unfold setHeap
          by_cases hba : b = a <;> simp [hba, h1]
        · rw [if_neg h1]
          unfold updFrame
          dsimp only
          rw [if_neg h1]
      rw [heq]
      have hg : Grown s (updFrame a (fun f => { f with loopstage := if f.loopstage = 1 then 2 else f.loopstage, wipemask := some m }) s0) :=
        hw0.grown.upd a (fun _ => rfl) (fun _ => rfl) (fun _ _ => rfl) (fun _ _ => rfl)
      have hmask : ((updFrame a (fun f => { f with loopstage := if f.loopstage = 1 then 2 else f.loopstage, wipemask := some m }) s0).heap a).wipemask.isSome := by
        rw [show (updFrame a _ s0).heap a = _ from setHeap_self _ _ _]
        rfl
      have hlt : a < (updFrame a (fun f => { f with loopstage := if f.loopstage = 1 then 2 else f.loopstage, wipemask := some m }) s0).next := ha0
      generalize updFrame a (fun f => { f with loopstage := if f.loopstage = 1 then 2 else f.loopstage, wipemask := some m }) s0 = u at hg hmask hlt
      cases (u.heap a).endpos with
      | none => exact hg.paid hlt hmask
      | some e =>
        dsimp only
        refine (setPos_gets env e u).bind ?_
        rintro _ rfl
        have hg' : Grown s { u with pos := e } := hg.aux e _
        exact hg'.paid (a := a) hlt hmask
    · trivial

end

end Joeson
