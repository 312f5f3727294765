import Verif.Spec.Regexp
import Verif.Proofs.Utf8b
/-! # Regular expressions: lemmas -/

namespace Joeson

theorem Rx.Matches.suffix {n : Nat} {x : Rx} {s r : Bytes} (h : x.Matches n s r) : r <:+ s := by
  induction h with
  | empty | bol | done | skip => exact List.suffix_rfl
  | cls => exact List.drop_suffix ..
  | seq _ _ h1 h2 | again _ _ h1 h2 | plus _ _ h1 h2 => exact h2.trans h1
  | left _ h | right _ h | some _ h => exact h

theorem stars_sound {n : Nat} {a : Rx} (ha : ∀ s r, r ∈ a.run n s → a.Matches n s r) : ∀ (k : Nat) (s r : Bytes), r ∈ Re.stars (a.run n) k s →
    (Rx.star a).Matches n s r
  | 0, s, r, h => by
    simp only [Re.stars, List.mem_singleton] at h
    exact h ▸ .done
  | k + 1, s, r, h => by
    simp only [Re.stars, List.mem_append, List.mem_flatMap, List.mem_filter, decide_eq_true_eq, List.mem_singleton] at h
    rcases h with ⟨m, ⟨h1, _⟩, h2⟩ | h
    · exact .again (ha _ _ h1) (stars_sound ha k m r h2)
    · exact h ▸ .done

theorem stars_self {a : Bytes → List Bytes} (k : Nat) (s : Bytes) : s ∈ Re.stars a k s := by
  cases k <;> simp [Re.stars]

theorem stars_complete {n : Nat} {a : Rx} (ha : ∀ s r, a.Matches n s r → r ∈ a.run n s) {x : Rx} {s r : Bytes} (h : x.Matches n s r) (hx : x = .star a) :
    ∀ k, s.length ≤ k → r ∈ Re.stars (a.run n) k s := by
  induction h with
  | done => exact fun k _ => stars_self k _
  | @again a' s m r h1 h2 _ ih =>
    cases hx
    intro k hk
    have hs := h1.suffix
    by_cases hl : m.length < s.length
    · match k, hk with
      | 0, hk => omega
      | k + 1, hk =>
        simp only [Re.stars, List.mem_append, List.mem_flatMap, List.mem_filter, decide_eq_true_eq]
        exact .inl ⟨m, ⟨ha _ _ h1, hl⟩, ih rfl k (by omega)⟩
    · have : m = s := hs.eq_of_length_le (by omega)
      exact this ▸ ih rfl k (this ▸ hk)
  | _ => cases hx

/-- The possibilities that are tried are those of the language. -/
theorem Rx.run_iff {n : Nat} : ∀ (x : Rx) (s r : Bytes), r ∈ x.run n s ↔ x.Matches n s r
  | .empty, s, r => by
    simp only [run, List.mem_singleton]
    exact ⟨fun h => h ▸ .empty, fun h => by cases h; rfl⟩
  | .cls c, s, r => by
    simp only [run]
    constructor
    · intro h
      split at h
      · cases h
      · split at h
        · simp only [List.mem_singleton] at h
          exact h ▸ .cls ‹_› ‹_›
        · cases h
    · intro h
      cases h with
      | cls h1 h2 => rw [if_neg h1, if_pos h2]; exact List.mem_singleton.mpr rfl
  | .bol, s, r => by
    simp only [run]
    constructor
    · intro h
      split at h
      · simp only [List.mem_singleton] at h
        subst h; exact .bol ‹_›
      · cases h
    · intro h
      cases h with
      | bol h => rw [if_pos h]; exact List.mem_singleton.mpr rfl
  | .seq a b, s, r => by
    simp only [run, List.mem_flatMap]
    constructor
    · rintro ⟨m, h1, h2⟩
      exact .seq ((run_iff a _ _).mp h1) ((run_iff b _ _).mp h2)
    · intro h
      cases h with
      | seq h1 h2 => exact ⟨_, (run_iff a _ _).mpr h1, (run_iff b _ _).mpr h2⟩
  | .alt a b, s, r => by
    simp only [run, List.mem_append]
    constructor
    · rintro (h | h)
      · exact .left ((run_iff a _ _).mp h)
      · exact .right ((run_iff b _ _).mp h)
    · intro h
      cases h with
      | left h => exact .inl ((run_iff a _ _).mpr h)
      | right h => exact .inr ((run_iff b _ _).mpr h)
  | .star a, s, r =>
    ⟨fun h => stars_sound (fun s r => (run_iff a s r).mp) _ _ _ h, fun h => stars_complete (fun s r => (run_iff a s r).mpr) h rfl _ (Nat.le_refl _)⟩
  | .plus a, s, r => by
    simp only [run, List.mem_flatMap]
    constructor
    · rintro ⟨m, h1, h2⟩
      exact .plus ((run_iff a _ _).mp h1) (stars_sound (fun s r => (run_iff a s r).mp) _ _ _ h2)
    · intro h
      cases h with
      | plus h1 h2 => exact ⟨_, (run_iff a _ _).mpr h1, stars_complete (fun s r => (run_iff a s r).mpr) h2 rfl _ (Nat.le_refl _)⟩
  | .opt a, s, r => by
    simp only [run, List.mem_append, List.mem_singleton]
    constructor
    · rintro (h | h)
      · exact .some ((run_iff a _ _).mp h)
      · exact h ▸ .skip
    · intro h
      cases h with
      | some h => exact .inl ((run_iff a _ _).mpr h)
      | skip => exact .inr rfl

/-! ## Finding -/

theorem Rx.find_zero (x : Rx) (s : Bytes) (m : Nat) : x.regex.find s = some (0, m) ↔ ∃ rest, (x.run s.length s).head? = some rest ∧ m = s.length - rest.length := by
  show x.findFrom s.length s.length 0 s = _ ↔ _
  unfold findFrom
  cases h : (x.run s.length s).head? with
  | some rest =>
    simp only [Option.some.injEq, Prod.mk.injEq, true_and, Nat.zero_add, exists_eq_left']
    exact ⟨fun h => h.symm, fun h => h.symm⟩
  | none =>
    simp only [reduceCtorEq, false_and, exists_false, iff_false]
    intro hk
    split at hk
    · cases hk
    · split at hk
      · cases hk
      · rename_i hs
        have := (findFrom_bounds hk).1
        have := decodeRune_width_pos hs
        omega

/-- It matches at the beginning of the text iff a beginning of the text belongs to the language. -/
theorem Rx.find_iff (x : Rx) (s : Bytes) : (∃ m, x.regex.find s = some (0, m)) ↔ ∃ rest, x.Matches s.length s rest := by
  constructor
  · rintro ⟨m, h⟩
    obtain ⟨rest, h, _⟩ := (find_zero x s m).mp h
    exact ⟨rest, (run_iff ..).mp (List.mem_of_head? h)⟩
  · rintro ⟨rest, h⟩
    have := (run_iff ..).mpr h
    cases h : (x.run s.length s).head? with
    | none => rw [List.head?_eq_none_iff.mp h] at this; cases this
    | some r => exact ⟨_, (find_zero x s _).mpr ⟨r, h, rfl⟩⟩

/-- What is matched belongs to the language. -/
theorem Rx.find_sound (x : Rx) {s : Bytes} {m : Nat} (h : x.regex.find s = some (0, m)) : x.Matches s.length s (s.drop m) := by
  obtain ⟨rest, hr, rfl⟩ := (find_zero x s m).mp h
  have := (run_iff ..).mp (List.mem_of_head? hr)
  obtain ⟨p, hp⟩ := this.suffix
  have e : s.drop (s.length - rest.length) = rest := by
    rw [← hp, List.length_append, Nat.add_sub_cancel, List.drop_left]
  rwa [e]

theorem Rx.run_seq_empty (x : Rx) (n : Nat) (s : Bytes) : (Rx.seq x .empty).run n s = x.run n s := by
  simp [run]

theorem flatMap_head {α β : Type} {l : List α} {f : α → List β} {x : α} {y : β} (h : l.head? = some x) (hf : (f x).head? = some y) : (l.flatMap f).head? = some y := by
  match l, h with
  | z :: l, h =>
    cases h
    rw [List.flatMap_cons, List.head?_append, hf]
    rfl

/-! ## Classes -/

theorem RuneClass.run (c : RuneClass) (n : Nat) (s : Bytes) (h : s ≠ []) (hc : c.has (decodeRune s).1 = true) : (Rx.cls c).run n s = [s.drop (decodeRune s).2] := by
  simp [Rx.run, h, hc]

theorem RuneClass.run_not (c : RuneClass) (n : Nat) (s : Bytes) (h : s = [] ∨ c.has (decodeRune s).1 = false) : (Rx.cls c).run n s = [] := by
  rcases h with rfl | h
  · rfl
  · simp [Rx.run, h]

/-- A class that is repeated takes all it can. -/
theorem stars_cls {c : RuneClass} {n : Nat} : ∀ (k : Nat) (s : Bytes), s ≠ [] → c.has (decodeRune s).1 = true →
    (Re.stars ((Rx.cls c).run n) (k + 1) s).head? = (Re.stars ((Rx.cls c).run n) k (s.drop (decodeRune s).2)).head? := by
  intro k s h1 h2
  have hw := decodeRune_width_pos h1
  have hl := decodeRune_width_le s
  have : (s.drop (decodeRune s).2).length < s.length := by rw [List.length_drop]; omega
  simp only [Re.stars, RuneClass.run c n s h1 h2, List.filter_cons, this, decide_true, if_true, List.filter_nil, List.flatMap_cons, List.flatMap_nil, List.append_nil]
  rw [List.head?_append]
  have := stars_self (a := (Rx.cls c).run n) k (s.drop (decodeRune s).2)
  cases h : (Re.stars ((Rx.cls c).run n) k (s.drop (decodeRune s).2)).head? with
  | none => rw [List.head?_eq_none_iff.mp h] at this; cases this
  | some r => rfl

theorem stars_cls_not {c : RuneClass} {n : Nat} (k : Nat) (s : Bytes) (h : s = [] ∨ c.has (decodeRune s).1 = false) :
    Re.stars ((Rx.cls c).run n) k s = [s] := by
  match k with
  | 0 => rfl
  | k + 1 => simp [Re.stars, RuneClass.run_not c n s h]

/-! ## Classes of ASCII characters -/

/-- All characters of the class are ASCII. -/
def RuneClass.Ascii (c : RuneClass) : Prop := c.neg = false ∧ ∀ p ∈ c.ranges, p.2 < 0x80

instance (c : RuneClass) : Decidable c.Ascii := inferInstanceAs (Decidable (_ ∧ _))

theorem RuneClass.Ascii.lt {c : RuneClass} (h : c.Ascii) {r : Nat} (hr : c.has r = true) : r < 0x80 := by
  simp only [has, h.1, Bool.false_bne, List.any_eq_true, Bool.and_eq_true, decide_eq_true_eq] at hr
  obtain ⟨p, hp, _, h2⟩ := hr
  have := h.2 p hp
  omega

theorem RuneClass.Ascii.head {c : RuneClass} (h : c.Ascii) (b : UInt8) (t : Bytes) : c.has (decodeRune (b :: t)).1 = c.has b.toNat := by
  obtain ⟨_, _, _, _, _, h1, h2⟩ := decodeRune_cons b t
  by_cases hb : b.toNat < 0x80
  · rw [h1 hb]
  · have e1 : c.has (decodeRune (b :: t)).1 = false := by
      cases hc : c.has (decodeRune (b :: t)).1 with
      | false => rfl
      | true => have := h.lt hc; have := h2 (by omega); omega
    have e2 : c.has b.toNat = false := by
      cases hc : c.has b.toNat with
      | false => rfl
      | true => exact absurd (h.lt hc) hb
    rw [e1, e2]

theorem RuneClass.Ascii.width {c : RuneClass} (h : c.Ascii) {b : UInt8} {t : Bytes} (hb : c.has b.toNat = true) : (decodeRune (b :: t)).2 = 1 := by
  obtain ⟨_, _, _, _, _, h1, _⟩ := decodeRune_cons b t
  rw [h1 (h.lt hb)]

theorem RuneClass.Ascii.run {c : RuneClass} (h : c.Ascii) (n : Nat) (b : UInt8) (t : Bytes) : (Rx.cls c).run n (b :: t) = if c.has b.toNat then [t] else [] := by
  split
  · rename_i hb
    rw [RuneClass.run c n _ (by simp) (by rw [h.head]; exact hb), h.width hb]
    rfl
  · rename_i hb
    exact RuneClass.run_not c n _ (.inr (by rw [h.head]; simpa using hb))

theorem RuneClass.Ascii.stars {c : RuneClass} (h : c.Ascii) (n : Nat) : ∀ (k : Nat) (t : Bytes), t.length ≤ k →
    (Re.stars ((Rx.cls c).run n) k t).head? = some (t.dropWhile fun b => c.has b.toNat)
  | k, [], _ => by rw [stars_cls_not k [] (.inl rfl)]; rfl
  | k + 1, b :: t, hk => by
    rw [List.dropWhile_cons]
    split
    · rename_i hb
      rw [stars_cls k _ (by simp) (by rw [h.head]; exact hb), h.width hb]
      exact h.stars n k t (by simpa using hk)
    · rename_i hb
      rw [stars_cls_not _ _ (.inr (by rw [h.head]; simpa using hb))]
      rfl

end Joeson
