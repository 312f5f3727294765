import Verif.Spec.Slices
/-!
# Lemmas about slices
-/

namespace Joeson
open Spec

variable {α : Type}

namespace SliceMem

theorem read_length (m : SliceMem α) (s : GoSlice) : (m.read s).length = s.len := by
  simp [read]

theorem read_getElem? (m : SliceMem α) (s : GoSlice) (i : Nat) : (m.read s)[i]? = if i < s.len then some (m.cells s.block (s.off + i)) else none := by
  unfold read
  rw [List.getElem?_map]
  split
  · rename_i h
    rw [List.getElem?_range h]; rfl
  · rename_i h
    rw [List.getElem?_eq_none (by simpa using h)]; rfl

/-- Reading does not change if no cell of the window does. -/
theorem read_congr {m m' : SliceMem α} {s : GoSlice} (h : ∀ i < s.len, m'.cells s.block (s.off + i) = m.cells s.block (s.off + i)) :
    m'.read s = m.read s := by
  unfold read
  apply List.map_congr_left
  intro i hi
  exact h i (List.mem_range.mp hi)

theorem read_fill_old (m : SliceMem α) (l : List α) {s : GoSlice} (h : s.block < m.next) : (m.fill l).read s = m.read s := by
  refine read_congr fun i _ => ?_
  show (if s.block = m.next then _ else _) = _
  rw [if_neg (by omega)]

theorem read_fill_new (m : SliceMem α) (l : List α) (c : Nat) : (m.fill l).read ⟨m.next, 0, l.length, c⟩ = l := by
  apply List.ext_getElem?
  intro i
  rw [read_getElem?]
  dsimp only
  split
  · rename_i h
    show some (if m.next = m.next then (l[0 + i]?).getD _ else _) = _
    rw [if_pos rfl, Nat.zero_add, List.getElem?_eq_getElem h]; rfl
  · rename_i h
    rw [List.getElem?_eq_none (by omega)]

theorem read_put_outside (m : SliceMem α) {b i : Nat} (x : α) {s : GoSlice} (h : s.block = b → i < s.off ∨ s.off + s.len ≤ i) :
    (m.put b i x).read s = m.read s := by
  refine read_congr fun j hj => ?_
  show (if s.block = b ∧ s.off + j = i then _ else _) = _
  rw [if_neg (by intro e; have := h e.1; omega)]

theorem read_put_inside (m : SliceMem α) {i : Nat} (x : α) {s : GoSlice} : (m.put s.block (s.off + i) x).read s = (m.read s).set i x := by
  apply List.ext_getElem?
  intro j
  rw [List.getElem?_set, read_getElem?, read_getElem?, read_length]
  show (if j < s.len then some (if s.block = s.block ∧ s.off + j = s.off + i then x else m.cells s.block (s.off + j)) else none) = _
  by_cases e : i = j
  · subst e
    by_cases h : i < s.len <;> simp [h]
  · have e' : ¬ j = i := fun h => e h.symm
    simp [e, e']

/-- After `append` the slice contains one element more. -/
theorem read_append (m : SliceMem α) (s : GoSlice) (x : α) (spare : Nat) :
    (m.append s x spare).2.read (m.append s x spare).1 = m.read s ++ [x] := by
  unfold append
  split
  · rename_i h
    dsimp only
    apply List.ext_getElem?
    intro j
    rw [read_getElem?, List.getElem?_append, read_length, read_getElem?]
    show (if j < s.len + 1 then some (if s.block = s.block ∧ s.off + j = s.off + s.len then x else m.cells s.block (s.off + j)) else none) = _
    by_cases h1 : j < s.len
    · have : ¬ (j = s.len) := by omega
      simp [h1, this, Nat.lt_succ_of_lt h1]
    · by_cases h2 : j = s.len
      · subst h2; simp
      · rw [if_neg (by omega), if_neg h1, List.getElem?_eq_none (by simp; omega)]
  · dsimp only
    have := read_fill_new m (m.read s ++ [x]) (s.len + 1 + spare)
    rw [List.length_append, read_length] at this
    exact this

end SliceMem

/-- Memory and lists agree. -/
structure SliceInv (st : SliceState α) (p : Lists α) : Prop where
  length : st.vars.length = p.length
  var : ∀ (i : Nat) (s : GoSlice) (q : List α × Use), st.vars[i]? = some s → p[i]? = some q →
    s.block < st.mem.next ∧ s.len ≤ s.cap ∧ (q.2 = .full → s.len = s.cap) ∧ st.mem.read s = q.1
  sep : ∀ (i j : Nat) (s t : GoSlice) (q r : List α × Use), st.vars[i]? = some s → p[i]? = some q → q.2 = .own →
    st.vars[j]? = some t → p[j]? = some r → i ≠ j → t.block = s.block → t.off + t.len ≤ s.off + s.len ∧ r.2 ≠ .own

theorem SliceInv.init (m : SliceMem α) : SliceInv (SliceState.init m) [] :=
  ⟨rfl, fun i s q h => by simp [SliceState.init] at h, fun i j s t q r h => by simp [SliceState.init] at h⟩

theorem push_some {β : Type} {l : List β} {x y : β} {i : Nat} (h : (l ++ [x])[i]? = some y) :
    l[i]? = some y ∧ i < l.length ∨ i = l.length ∧ y = x := by
  rw [List.getElem?_append] at h
  split at h
  · exact .inl ⟨h, by assumption⟩
  · right
    rename_i hl
    have : i - l.length = 0 := by
      rcases Nat.eq_zero_or_pos (i - l.length) with e | e
      · exact e
      · rw [List.getElem?_eq_none (by simp only [List.length_cons, List.length_nil]; omega)] at h; cases h
    rw [this] at h
    cases h
    exact ⟨by omega, rfl⟩

/-- A new variable that reads part of an old one, and will not be appended to in place. -/
theorem SliceInv.push {st : SliceState α} {p : Lists α} (h : SliceInv st p) {v : Nat} {s : GoSlice} {q : List α × Use}
    (hs : st.vars[v]? = some s) (hq : p[v]? = some q) {t : GoSlice} {l : List α} {u : Use} (hu : u ≠ .own) (hb : t.block = s.block)
    (hc : t.len ≤ t.cap) (hf : u = .full → t.len = t.cap) (he : t.off + t.len ≤ s.off + s.len) (hl : st.mem.read t = l) :
    SliceInv ⟨st.mem, st.vars ++ [t]⟩ (p ++ [(l, u)]) := by
  obtain ⟨b1, b2, b3, b4⟩ := h.var v s q hs hq
  refine ⟨by simp [h.length], ?_, ?_⟩
  · intro i s' q' h1 h2
    rcases push_some h1 with ⟨a1, a2⟩ | ⟨a1, a2⟩
    · rcases push_some h2 with ⟨c1, _⟩ | ⟨c1, _⟩
      · exact h.var i s' q' a1 c1
      · have := h.length; omega
    · rcases push_some h2 with ⟨_, c2⟩ | ⟨_, c2⟩
      · have := h.length; omega
      · subst a2 c2
        exact ⟨hb ▸ b1, hc, hf, hl⟩
  · intro i j s' t' q' r' h1 h2 h3 h4 h5 hij hbl
    rcases push_some h2 with ⟨c1, c3⟩ | ⟨_, c2⟩
    rotate_left
    · subst c2; exact absurd h3 hu
    rcases push_some h1 with ⟨a1, _⟩ | ⟨a1, _⟩
    rotate_left
    · have := h.length; omega
    rcases push_some h4 with ⟨d1, d2⟩ | ⟨d1, d2⟩
    · rcases push_some h5 with ⟨e1, _⟩ | ⟨e1, _⟩
      · exact h.sep i j s' t' q' r' a1 c1 h3 d1 e1 hij hbl
      · have := h.length; omega
    · rcases push_some h5 with ⟨_, e2⟩ | ⟨_, e2⟩
      · have := h.length; omega
      · subst d2 e2
        refine ⟨?_, hu⟩
        by_cases hiv : i = v
        · subst hiv
          rw [hs] at a1
          cases a1
          exact he
        · have := (h.sep i v s' s q' q a1 c1 h3 hs hq hiv (by rw [← hb]; exact hbl)).1
          omega

/-- Giving up the right to append. -/
theorem SliceInv.give {st : SliceState α} {p : Lists α} (h : SliceInv st p) {v : Nat} {q : List α × Use} (hq : p[v]? = some q) :
    SliceInv st (p.set v (q.1, .shared)) := by
  refine ⟨by simp [h.length], ?_, ?_⟩
  · intro i s q' h1 h2
    rw [List.getElem?_set] at h2
    split at h2
    · rename_i e
      subst e
      split at h2
      · cases h2
        obtain ⟨b1, b2, _, b4⟩ := h.var v s q h1 hq
        exact ⟨b1, b2, fun e => (by cases e), b4⟩
      · cases h2
    · exact h.var i s q' h1 h2
  · intro i j s t q' r' h1 h2 h3 h4 h5 hij hbl
    rw [List.getElem?_set] at h2 h5
    split at h2
    · split at h2
      · cases h2; cases h3
      · cases h2
    · split at h5
      · rename_i e
        subst e
        split at h5
        · cases h5
          exact ⟨(h.sep i v s t q' q h1 h2 h3 h4 hq hij hbl).1, by simp⟩
        · cases h5
      · exact h.sep i j s t q' r' h1 h2 h3 h4 h5 hij hbl

/-- Two variables with the same window: the right to append goes to the new one. -/
theorem SliceInv.move {st : SliceState α} {p : Lists α} (h : SliceInv st p) {v : Nat} {s : GoSlice} {q : List α × Use}
    (hs : st.vars[v]? = some s) (hq : p[v]? = some q) : SliceInv ⟨st.mem, st.vars ++ [s]⟩ (p.set v (q.1, .shared) ++ [q]) := by
  obtain ⟨b1, b2, b3, b4⟩ := h.var v s q hs hq
  by_cases hu : q.2 = .own
  rotate_left
  · exact (h.give hq).push (q := (q.1, .shared)) hs (by rw [List.getElem?_set]; simp; exact (List.getElem?_eq_some_iff.mp hq).1)
      (l := q.1) (u := q.2) hu rfl b2 b3 (Nat.le_refl _) b4
  have hg := h.give hq
  have hlen : (p.set v (q.1, .shared)).length = p.length := List.length_set
  refine ⟨by simp [h.length], ?_, ?_⟩
  · intro i s' q' h1 h2
    rcases push_some h1 with ⟨a1, a2⟩ | ⟨a1, a2⟩
    · rcases push_some h2 with ⟨c1, _⟩ | ⟨c1, _⟩
      · exact hg.var i s' q' a1 c1
      · have := h.length; omega
    · rcases push_some h2 with ⟨_, c2⟩ | ⟨_, c2⟩
      · have := h.length; omega
      · subst a2 c2
        exact ⟨b1, b2, b3, b4⟩
  · intro i j s' t' q' r' h1 h2 h3 h4 h5 hij hbl
    rcases push_some h2 with ⟨c1, c3⟩ | ⟨c0, c2⟩
    · rcases push_some h1 with ⟨a1, _⟩ | ⟨a1, _⟩
      rotate_left
      · have := h.length; omega
      rcases push_some h4 with ⟨d1, d2⟩ | ⟨d1, d2⟩
      · rcases push_some h5 with ⟨e1, _⟩ | ⟨e1, _⟩
        · exact hg.sep i j s' t' q' r' a1 c1 h3 d1 e1 hij hbl
        · have := h.length; omega
      · subst d2
        exfalso
        have hiv : i ≠ v := by
          intro e
          subst e
          rw [List.getElem?_set_self (by omega)] at c1
          cases c1
          cases h3
        rw [List.getElem?_set_ne (Ne.symm hiv)] at c1
        exact (h.sep i v s' t' q' q a1 c1 h3 hs hq hiv hbl).2 hu
    · subst c2
      rcases push_some h1 with ⟨_, a2⟩ | ⟨_, a2⟩
      · have := h.length; omega
      subst a2
      rcases push_some h4 with ⟨d1, d2⟩ | ⟨d1, d2⟩
      rotate_left
      · have := h.length; omega
      rcases push_some h5 with ⟨e1, _⟩ | ⟨e1, _⟩
      rotate_left
      · have := h.length; omega
      by_cases hjv : j = v
      · subst hjv
        rw [hs] at d1
        cases d1
        rw [List.getElem?_set_self (by omega)] at e1
        cases e1
        exact ⟨Nat.le_refl _, by simp⟩
      · rw [List.getElem?_set_ne (Ne.symm hjv)] at e1
        exact h.sep v j s' t' q' r' hs hq hu d1 e1 (Ne.symm hjv) hbl

/-- A new block for a new variable. -/
theorem SliceInv.fresh {st : SliceState α} {p : Lists α} (h : SliceInv st p) (l : List α) :
    SliceInv ⟨st.mem.fill l, st.vars ++ [⟨st.mem.next, 0, l.length, l.length⟩]⟩ (p ++ [(l, .own)]) := by
  refine ⟨by simp [h.length], ?_, ?_⟩
  · intro i s q h1 h2
    rcases push_some h1 with ⟨a1, a2⟩ | ⟨a1, a2⟩
    · rcases push_some h2 with ⟨c1, _⟩ | ⟨c1, _⟩
      · obtain ⟨b1, b2, b3, b4⟩ := h.var i s q a1 c1
        refine ⟨Nat.lt_succ_of_lt b1, b2, b3, ?_⟩
        rw [SliceMem.read_fill_old _ _ b1, b4]
      · have := h.length; omega
    · rcases push_some h2 with ⟨_, c2⟩ | ⟨_, c2⟩
      · have := h.length; omega
      · subst a2 c2
        exact ⟨Nat.lt_succ_self _, Nat.le_refl _, fun e => (by cases e), SliceMem.read_fill_new _ _ _⟩
  · intro i j s t q r h1 h2 h3 h4 h5 hij hbl
    rcases push_some h1 with ⟨a1, a2⟩ | ⟨a1, a2⟩ <;> rcases push_some h2 with ⟨c1, c3⟩ | ⟨c1, c2⟩ <;>
      rcases push_some h4 with ⟨d1, d2⟩ | ⟨d1, d2⟩ <;> rcases push_some h5 with ⟨e1, e2⟩ | ⟨e1, e2⟩ <;>
      first
        | (have := h.length; omega)
        | exact h.sep i j s t q r a1 c1 h3 d1 e1 hij hbl
        | (exfalso
           first
             | (have := (h.var i s q a1 c1).1
                rw [d2] at hbl
                have hbl : st.mem.next = s.block := hbl
                omega)
             | (have := (h.var j t r d1 e1).1
                rw [a2] at hbl
                have hbl : t.block = st.mem.next := hbl
                omega))

/-- Appending to a variable that may be. -/
theorem SliceInv.append {st : SliceState α} {p : Lists α} (h : SliceInv st p) {v : Nat} {s : GoSlice} {q : List α × Use}
    (hs : st.vars[v]? = some s) (hq : p[v]? = some q) (hu : q.2 ≠ .shared) (x : α) (spare : Nat) :
    SliceInv ⟨(st.mem.append s x spare).2, st.vars.set v (st.mem.append s x spare).1⟩ (p.set v (q.1 ++ [x], .own)) := by
  obtain ⟨b1, b2, b3, b4⟩ := h.var v s q hs hq
  have hv : v < st.vars.length := (List.getElem?_eq_some_iff.mp hs).1
  have hvp : v < p.length := h.length ▸ hv
  have hr := SliceMem.read_append st.mem s x spare
  by_cases hc : s.len < s.cap
  · -- in place: the variable owns its block
    have ho : q.2 = .own := by
      cases e : q.2 with
      | own => rfl
      | full => have := b3 e; omega
      | shared => exact absurd e hu
    have e1 : st.mem.append s x spare = (⟨s.block, s.off, s.len + 1, s.cap⟩, st.mem.put s.block (s.off + s.len) x) := by
      unfold SliceMem.append; rw [if_pos hc]
    rw [e1] at hr ⊢
    dsimp only at hr ⊢
    refine ⟨by simp [h.length], ?_, ?_⟩
    · intro i s' q' h1 h2
      dsimp only at h1 ⊢
      by_cases hiv : i = v
      · subst hiv
        rw [List.getElem?_set_self hv] at h1
        rw [List.getElem?_set_self hvp] at h2
        cases h1; cases h2
        exact ⟨b1, hc, fun e => (by cases e), by rw [hr, b4]⟩
      · rw [List.getElem?_set_ne (Ne.symm hiv)] at h1 h2
        obtain ⟨d1, d2, d3, d4⟩ := h.var i s' q' h1 h2
        refine ⟨d1, d2, d3, ?_⟩
        rw [SliceMem.read_put_outside, d4]
        intro e
        exact .inr (h.sep v i s s' q q' hs hq ho h1 h2 (Ne.symm hiv) e).1
    · intro i j s' t' q' r' h1 h2 h3 h4 h5 hij hbl
      dsimp only at h1 h4
      by_cases hiv : i = v
      · subst hiv
        rw [List.getElem?_set_self hv] at h1
        rw [List.getElem?_set_ne hij] at h4 h5
        cases h1
        have := h.sep i j s t' q r' hs hq ho h4 h5 hij hbl
        exact ⟨by dsimp only; omega, this.2⟩
      · rw [List.getElem?_set_ne (Ne.symm hiv)] at h1 h2
        by_cases hjv : j = v
        · subst hjv
          rw [List.getElem?_set_self hv] at h4
          cases h4
          exact absurd ho (h.sep i j s' s q' q h1 h2 h3 hs hq hij hbl).2
        · rw [List.getElem?_set_ne (Ne.symm hjv)] at h4 h5
          exact h.sep i j s' t' q' r' h1 h2 h3 h4 h5 hij hbl
  · have e1 : st.mem.append s x spare = (⟨st.mem.next, 0, s.len + 1, s.len + 1 + spare⟩, st.mem.fill (st.mem.read s ++ [x])) := by
      unfold SliceMem.append; rw [if_neg hc]
    rw [e1] at hr ⊢
    dsimp only at hr ⊢
    refine ⟨by simp [h.length], ?_, ?_⟩
    · intro i s' q' h1 h2
      dsimp only at h1 ⊢
      by_cases hiv : i = v
      · subst hiv
        rw [List.getElem?_set_self hv] at h1
        rw [List.getElem?_set_self hvp] at h2
        cases h1; cases h2
        exact ⟨Nat.lt_succ_self _, Nat.le_add_right _ _, fun e => (by cases e), by rw [hr, b4]⟩
      · rw [List.getElem?_set_ne (Ne.symm hiv)] at h1 h2
        obtain ⟨d1, d2, d3, d4⟩ := h.var i s' q' h1 h2
        exact ⟨Nat.lt_succ_of_lt d1, d2, d3, by rw [SliceMem.read_fill_old _ _ d1, d4]⟩
    · intro i j s' t' q' r' h1 h2 h3 h4 h5 hij hbl
      dsimp only at h1 h4
      by_cases hiv : i = v
      · subst hiv
        rw [List.getElem?_set_self hv] at h1
        rw [List.getElem?_set_ne hij] at h4 h5
        cases h1
        have := (h.var j t' r' h4 h5).1
        have hbl : t'.block = st.mem.next := hbl
        omega
      · rw [List.getElem?_set_ne (Ne.symm hiv)] at h1 h2
        by_cases hjv : j = v
        · subst hjv
          rw [List.getElem?_set_self hv] at h4
          cases h4
          have := (h.var i s' q' h1 h2).1
          have hbl : st.mem.next = s'.block := hbl
          omega
        · rw [List.getElem?_set_ne (Ne.symm hjv)] at h4 h5
          exact h.sep i j s' t' q' r' h1 h2 h3 h4 h5 hij hbl

theorem SliceInv.get_var {st : SliceState α} {p : Lists α} (h : SliceInv st p) {v : Nat} {q : List α × Use} (hq : p[v]? = some q) :
    ∃ s, st.vars[v]? = some s := by
  have : v < st.vars.length := h.length ▸ (List.getElem?_eq_some_iff.mp hq).1
  exact ⟨st.vars[v], List.getElem?_eq_getElem this⟩

theorem read_sub (m : SliceMem α) (s : GoSlice) (i j c : Nat) (hij : i ≤ j) (hj : j ≤ s.len) :
    m.read ⟨s.block, s.off + i, j - i, c⟩ = ((m.read s).take j).drop i := by
  apply List.ext_getElem?
  intro k
  rw [SliceMem.read_getElem?, List.getElem?_drop, List.getElem?_take, SliceMem.read_getElem?]
  dsimp only
  by_cases h : k < j - i
  · rw [if_pos h, if_pos (by omega), if_pos (by omega), Nat.add_assoc]
  · rw [if_neg h, if_neg (by omega)]

/-- One careful statement. -/
theorem SliceInv.step {st : SliceState α} {p p' : Lists α} (h : SliceInv st p) {op : SliceOp α} (hp : p.step op = some p') :
    ∃ st', st.step op = some st' ∧ SliceInv st' p' := by
  cases op with
  | newFrom l => cases hp; exact ⟨_, rfl, h.fresh l⟩
  | append v x spare =>
    simp only [Lists.step, Option.bind_eq_some_iff] at hp
    obtain ⟨q, hq, hp⟩ := hp
    split at hp
    · cases hp
    rename_i hu
    cases hp
    obtain ⟨s, hs⟩ := h.get_var hq
    exact ⟨_, by rw [SliceState.step, hs]; rfl, h.append hs hq hu x spare⟩
  | array v =>
    simp only [Lists.step, Option.map_eq_some_iff] at hp
    obtain ⟨q, hq, rfl⟩ := hp
    obtain ⟨s, hs⟩ := h.get_var hq
    obtain ⟨b1, b2, b3, b4⟩ := h.var v s q hs hq
    exact ⟨_, by rw [SliceState.step, hs]; rfl, h.push hs hq (by simp) rfl b2 (fun e => (by cases e)) (Nat.le_refl _) b4⟩
  | wrap v =>
    simp only [Lists.step, Option.map_eq_some_iff] at hp
    obtain ⟨q, hq, rfl⟩ := hp
    obtain ⟨s, hs⟩ := h.get_var hq
    exact ⟨_, by rw [SliceState.step, hs]; rfl, h.move hs hq⟩
  | sub v i j =>
    simp only [Lists.step, Option.bind_eq_some_iff] at hp
    obtain ⟨q, hq, hp⟩ := hp
    split at hp
    rotate_left
    · cases hp
    rename_i hij
    cases hp
    obtain ⟨s, hs⟩ := h.get_var hq
    obtain ⟨b1, b2, b3, b4⟩ := h.var v s q hs hq
    have hl : s.len = q.1.length := by rw [← b4, SliceMem.read_length]
    refine ⟨_, by rw [SliceState.step, hs, Option.bind_some, if_pos ⟨hij.1, hl ▸ hij.2⟩], h.push (t := ⟨s.block, s.off + i, j - i, s.cap - i⟩) hs hq (by simp) rfl ?_ (fun e => (by cases e)) ?_ ?_⟩
    · dsimp only; omega
    · dsimp only; omega
    · rw [read_sub _ _ _ _ _ hij.1 (hl ▸ hij.2), b4]
  | clip v =>
    simp only [Lists.step, Option.map_eq_some_iff] at hp
    obtain ⟨q, hq, rfl⟩ := hp
    obtain ⟨s, hs⟩ := h.get_var hq
    obtain ⟨b1, b2, b3, b4⟩ := h.var v s q hs hq
    exact ⟨_, by rw [SliceState.step, hs]; rfl, h.push (t := ⟨s.block, s.off, s.len, s.len⟩) hs hq (by simp) rfl (Nat.le_refl _) (fun _ => rfl) (Nat.le_refl _) b4⟩
  | write v i x => cases hp

theorem SliceInv.run : ∀ {prog : List (SliceOp α)} {st : SliceState α} {p p' : Lists α}, SliceInv st p → p.run prog = some p' →
    ∃ st', st.run prog = some st' ∧ SliceInv st' p'
  | [], st, p, p', h, hp => by cases hp; exact ⟨st, rfl, h⟩
  | op :: l, st, p, p', h, hp => by
    simp only [Lists.run, Option.bind_eq_some_iff] at hp
    obtain ⟨p1, h1, h2⟩ := hp
    obtain ⟨st1, a1, a2⟩ := h.step h1
    obtain ⟨st', c1, c2⟩ := SliceInv.run a2 h2
    exact ⟨st', by rw [SliceState.run, a1]; exact c1, c2⟩

end Joeson
