import Verif.Proofs.RegexpText
/-! # Regular expressions: the parser reads the text of a tree -/

namespace Joeson.RegexpText
open Joeson

/-- No repetition follows. -/
def Follow (s : Bytes) : Prop := ∀ b t, s = b :: t → b ≠ 0x2A ∧ b ≠ 0x2B ∧ b ≠ 0x3F ∧ b ≠ 0x7B

/-- What may come after. -/
def Stops : RxKind → Bytes → Prop
  | .alt, s => s = [] ∨ ∃ t, s = 0x29 :: t
  | .seq, s => s = [] ∨ (∃ t, s = 0x29 :: t) ∨ ∃ t, s = 0x7C :: t
  | .atom, _ => True

theorem Stops.follow {s : Bytes} (h : Stops .seq s) : Follow s := by
  intro b t hs
  rcases h with h | ⟨u, h⟩ | ⟨u, h⟩
  · rw [h] at hs; cases hs
  · rw [h] at hs; cases hs; decide
  · rw [h] at hs; cases hs; decide

theorem char_head {r : Nat} (h : Spec.Scalar r) (hs : ∀ b ∈ asc "\\.+*?()|[{^$", r ≠ b.toNat) (s : Bytes) :
    ∃ b t, Spec.utf8 [r] ++ s = b :: t ∧ decodeRune (b :: t) = (r, (Spec.utf8 [r]).length) ∧ ∀ q ∈ asc "\\.+*?()|[{^$", b ≠ q := by
  have hd := decodeRune_encodeRune h s
  rw [← utf8_one h] at hd
  have hne : Spec.utf8 [r] ≠ [] := by rw [utf8_one h]; exact encodeRune_ne_nil r
  match hu : Spec.utf8 [r] ++ s with
  | [] => simp only [List.append_eq_nil_iff] at hu; exact absurd hu.1 hne
  | b :: t =>
    rw [hu] at hd
    refine ⟨b, t, rfl, hd, fun q hq hb => ?_⟩
    have hq' : q.toNat < 0x80 := by
      have : ∀ q ∈ asc "\\.+*?()|[{^$", q.toNat < 0x80 := by decide
      exact this q hq
    subst hb
    rw [(decodeRune_cons b t).2.2.2.2.2.1 hq'] at hd
    exact hs b hq (congrArg Prod.fst hd).symm

theorem atom_head (w : Tree .atom) (h : w.Ok) (s : Bytes) :
    ∃ b t, w.text ++ s = b :: t ∧ b ≠ 0x2A ∧ b ≠ 0x2B ∧ b ≠ 0x3F ∧ b ≠ 0x7B ∧ b ≠ 0x7C ∧ b ≠ 0x29 := by
  match w, h with
  | .char r, h =>
    obtain ⟨b, t, h1, _, h3⟩ := char_head h.1 h.2 s
    exact ⟨b, t, h1, h3 _ (by decide), h3 _ (by decide), h3 _ (by decide), h3 _ (by decide), h3 _ (by decide), h3 _ (by decide)⟩
  | .esc b, _ => exact ⟨0x5C, b :: s, rfl, by decide, by decide, by decide, by decide, by decide, by decide⟩
  | .cls neg l, _ =>
    exact ⟨0x5B, _, by simp only [Tree.text, classText, List.append_assoc]; rfl, by decide, by decide, by decide, by decide, by decide, by decide⟩
  | .dot, _ => exact ⟨0x2E, s, rfl, by decide, by decide, by decide, by decide, by decide, by decide⟩
  | .start, _ => exact ⟨0x5E, s, rfl, by decide, by decide, by decide, by decide, by decide, by decide⟩
  | .group true a, _ =>
    exact ⟨0x28, a.text ++ asc ")" ++ s, rfl, by decide, by decide, by decide, by decide, by decide, by decide⟩
  | .group false a, _ =>
    exact ⟨0x28, asc "?:" ++ a.text ++ asc ")" ++ s, rfl, by decide, by decide, by decide, by decide, by decide, by decide⟩

theorem seq_follow (w : Tree .seq) (h : w.Ok) (s : Bytes) (hs : Follow s) : Follow (w.text ++ s) := by
  match w, h with
  | .nil, _ => exact hs
  | .cons a q t, h =>
    obtain ⟨b, u, h1, h2, h3, h4, h5, _⟩ := atom_head a h.1 (q.text ++ t.text ++ s)
    intro b' u' he
    rw [Tree.text, List.append_assoc, List.append_assoc, ← List.append_assoc q.text, h1] at he
    cases he
    exact ⟨h2, h3, h4, h5⟩

/-- The text of alternatives in a group does not begin with `?`. -/
theorem alt_head (w : Tree .alt) (h : w.Ok) (s : Bytes) (hs : Follow s) : Follow (w.text ++ s) := by
  match w, h with
  | .last t, h => exact seq_follow t h s hs
  | .or t a, h =>
    rw [Tree.text, List.append_assoc, List.append_assoc]
    refine seq_follow t h.1 _ ?_
    intro b u he
    have e : asc "|" = [0x7C] := by decide
    rw [e] at he
    cases he
    decide

theorem rxOnce_follow (a : Rx) {s : Bytes} (h : Follow s) : rxOnce a s = some (a, s) := by
  match s with
  | [] => rfl
  | b :: t =>
    obtain ⟨h1, h2, h3, h4⟩ := h b t rfl
    unfold rxOnce
    rw [if_neg]
    simp [isRepeat, h1, h2, h3, h4]

theorem rxRepeat_text (a : Rx) (q : Count) (hq : q.Ok) (hn : q.unbounded = true → a.nullable = false) {s : Bytes} (hs : Follow s) :
    rxRepeat a (q.text ++ s) = some (q.rx a, s) := by
  cases q with
  | once =>
    show rxRepeat a s = some (a, s)
    match s with
    | [] => rfl
    | b :: t =>
      obtain ⟨h1, h2, h3, h4⟩ := hs b t rfl
      simp [rxRepeat, isRepeat, h1, h2, h3, h4]
  | star =>
    show rxRepeat a (0x2A :: s) = _
    simp [rxRepeat, isRepeat, hn rfl, rxOnce_follow _ hs, Count.rx]
  | plus =>
    show rxRepeat a (0x2B :: s) = _
    simp [rxRepeat, isRepeat, hn rfl, rxOnce_follow _ hs, Count.rx]
  | opt =>
    show rxRepeat a (0x3F :: s) = _
    simp [rxRepeat, isRepeat, rxOnce_follow _ hs, Count.rx]
  | exact n =>
    rw [Count.text, rxRepeat_count a (.exact n), if_pos ⟨Nat.le_refl _, hq⟩, rxOnce_follow _ hs, Nat.sub_self, Count.rx]
  | range n m =>
    rw [Count.text, rxRepeat_count a (.range n m), if_pos (show n ≤ m ∧ m ≤ 1000 from hq), rxOnce_follow _ hs, Count.rx]

theorem atom_group (k : Nat) {u rest : Bytes} {a : Rx} (hf : Follow u) (g : rxParse k .alt u = some (a, 0x29 :: rest)) :
    rxParse (k + 1) .atom (0x28 :: u) = some (a, rest) := by
  simp only [rxParse, if_true]
  match u, hf with
  | [], _ => simp [g]
  | b :: t, hf =>
    have hb := (hf b t rfl).2.2.1
    split
    · rename_i a' s' he
      split at he
      · rename_i h; cases h; exact absurd rfl hb
      · cases he
      · simp only [Option.bind_some, g, Option.some.injEq, Prod.mk.injEq, List.cons.injEq, true_and] at he
        rw [he.1, he.2]
    · rename_i hx
      exfalso
      split at hx
      · rename_i h; cases h; exact hb rfl
      · rename_i h; cases h; exact hb rfl
      · exact hx a rest g

theorem Tree.parse {kd : RxKind} : ∀ (w : Tree kd) (_ : w.Ok) (rest : Bytes) (_ : Stops kd rest) (k : Nat) (_ : w.need ≤ k),
    rxParse k kd (w.text ++ rest) = some (w.rx, rest)
  | last s, h, rest, hr, 0, hk => by simp only [need] at hk; omega
  | last s, h, rest, hr, k + 1, hk => by
    simp only [need] at hk
    have hs : Stops .seq rest := hr.imp id .inl
    rw [text, rx, rxParse, s.parse h rest hs k (by omega)]
    rcases hr with rfl | ⟨t, rfl⟩ <;> rfl
  | or s a, h, rest, hr, 0, hk => by simp only [need] at hk; omega
  | or s a, h, rest, hr, k + 1, hk => by
    simp only [need] at hk
    have e : (or s a).text ++ rest = s.text ++ 0x7C :: (a.text ++ rest) := by
      rw [text, show asc "|" = [0x7C] by decide]; simp
    have h1 := s.parse h.1 (0x7C :: (a.text ++ rest)) (.inr (.inr ⟨_, rfl⟩)) k (by omega)
    have h2 := a.parse h.2 rest hr k (by omega)
    rw [e, rx]
    simp [rxParse, h1, h2]
  | nil, _, rest, hr, 0, hk => by simp only [need] at hk; omega
  | nil, _, rest, hr, k + 1, _ => by
    rcases hr with rfl | ⟨t, rfl⟩ | ⟨t, rfl⟩ <;> simp [text, rx, rxParse]
  | cons a q s, h, rest, hr, 0, hk => by simp only [need] at hk; omega
  | cons a q s, h, rest, hr, k + 1, hk => by
    simp only [need] at hk
    obtain ⟨h1, h2, h3, h4⟩ := h
    have e : (cons a q s).text ++ rest = a.text ++ (q.text ++ (s.text ++ rest)) := by
      rw [text]; simp
    have g1 := a.parse h1 (q.text ++ (s.text ++ rest)) trivial k (by omega)
    have g2 := rxRepeat_text a.rx q h2 (fun hq => by rw [a.nullable]; exact h4 hq) (seq_follow s h3 rest hr.follow)
    have g3 := s.parse h3 rest hr k (by omega)
    obtain ⟨b, t, hb, _, _, _, _, hb1, hb2⟩ := atom_head a h1 (q.text ++ (s.text ++ rest))
    rw [e, rx]
    rw [hb] at g1 ⊢
    simp [rxParse, g1, g2, g3, hb1, hb2]
  | char r, h, rest, _, 0, hk => by simp only [need] at hk; omega
  | char r, h, rest, _, k + 1, _ => by
    obtain ⟨b, t, h1, h2, h3⟩ := char_head h.1 h.2 rest
    have hd : (b :: t).drop (Spec.utf8 [r]).length = rest := by rw [← h1, List.drop_left]
    have hr : rxRune (b :: t) = some (r, rest) := by
      unfold rxRune
      rw [if_neg (by simp), h2, if_neg, hd]
      rintro ⟨hr, hl⟩
      simp only at hr hl
      subst hr
      revert hl
      decide
    have n := fun q hq => h3 q hq
    have n1 := n 0x28 (by decide)
    have n2 := n 0x5B (by decide)
    have n3 := n 0x2E (by decide)
    have n4 := n 0x5E (by decide)
    have n5 := n 0x24 (by decide)
    have n6 := n 0x7B (by decide)
    have n7 := n 0x2A (by decide)
    have n8 := n 0x2B (by decide)
    have n9 := n 0x3F (by decide)
    have n10 := n 0x5C (by decide)
    rw [text, rx, h1]
    simp [rxParse, isRepeat, hr, n1, n2, n3, n4, n5, n6, n7, n8, n9, n10, Rx.lit]
  | esc b, h, rest, _, 0, hk => by simp only [need] at hk; omega
  | esc b, h, rest, _, k + 1, _ => by
    show rxParse (k + 1) .atom (0x5C :: b :: rest) = some (.cls (escClass b), rest)
    have hp : rxPerlEscape (0x5C :: b :: rest) = (rxPerl b).map fun rs => (rs, rest) := rfl
    simp only [rxParse, hp]
    rcases h.cases with h | ⟨h1, h2⟩
    · have e : asc "dDsSwWafnrtv" = [0x64, 0x44, 0x73, 0x53, 0x77, 0x57, 0x61, 0x66, 0x6E, 0x72, 0x74, 0x76] := by decide
      rw [e] at h
      simp only [List.mem_cons, List.not_mem_nil, or_false] at h
      rcases h with rfl | rfl | rfl | rfl | rfl | rfl | rfl | rfl | rfl | rfl | rfl | rfl <;> rfl
    · have he := rxEscape_plain h1 h2
      simp [rxPerl_plain h2, he, escClass, Rx.lit, isRepeat]
  | cls neg l, h, rest, _, 0, hk => by simp only [need] at hk; omega
  | cls neg l, h, rest, _, k + 1, _ => by
    have hc := rxClass_text neg l h.1 h.2 rest
    have e : classText neg l ++ rest = 0x5B :: ((if neg then [0x5E] else []) ++ l.flatMap CItem.text ++ 0x5D :: rest) := by
      simp [classText]
    rw [text, rx, e]
    simp only [rxParse, hc]
    rfl
  | dot, _, rest, _, 0, hk => by simp only [need] at hk; omega
  | dot, _, rest, _, k + 1, _ => rfl
  | start, _, rest, _, 0, hk => by simp only [need] at hk; omega
  | start, _, rest, _, k + 1, _ => rfl
  | group c a, h, rest, _, 0, hk => by simp only [need] at hk; omega
  | group c a, h, rest, _, k + 1, hk => by
    simp only [need] at hk
    have g := a.parse h (0x29 :: rest) (.inr ⟨_, rfl⟩) k (by omega)
    rw [rx]
    cases c with
    | true =>
      have e : (group true a).text ++ rest = 0x28 :: (a.text ++ 0x29 :: rest) := by
        rw [text, show asc "(" = [0x28] by decide, show asc ")" = [0x29] by decide]; simp
      have hf := alt_head a h (0x29 :: rest) (by intro b t he; cases he; decide)
      rw [e]
      exact atom_group k hf g
    | false =>
      have e : (group false a).text ++ rest = 0x28 :: 0x3F :: 0x3A :: (a.text ++ 0x29 :: rest) := by
        rw [text, show asc "(?:" = [0x28, 0x3F, 0x3A] by decide, show asc ")" = [0x29] by decide]; simp
      rw [e]
      simp [rxParse, g]

theorem utf8_pos {r : Nat} (h : Spec.Scalar r) : 1 ≤ (Spec.utf8 [r]).length := by
  rw [utf8_one h]; exact List.length_pos_iff.mpr (encodeRune_ne_nil r)

/-- Steps by length: one less for what is not a sequence, two more for alternatives. -/
theorem Tree.need_le {kd : RxKind} : ∀ (w : Tree kd) (_ : w.Ok), match kd with
    | .alt => w.need ≤ 4 * w.text.length + 2
    | .seq => w.need ≤ 4 * w.text.length + 1
    | .atom => w.need + 1 ≤ 4 * w.text.length
  | last s, h => by
    have := s.need_le h
    simp only [need, text] at *
    omega
  | or s a, h => by
    have := s.need_le h.1
    have := a.need_le h.2
    simp only [need, text, List.length_append, show (asc "|").length = 1 by decide] at *
    omega
  | nil, _ => by simp [need]
  | cons a q s, h => by
    have := a.need_le h.1
    have := s.need_le h.2.2.1
    simp only [need, text, List.length_append] at *
    omega
  | char r, h => by
    have := utf8_pos h.1
    simp only [need, text]
    omega
  | esc b, _ => by simp [need, text]
  | cls neg l, _ => by simp only [need, text, classText, List.length_append, List.length_cons]; omega
  | dot, _ => by simp only [need, text, show (asc ".").length = 1 by decide]; omega
  | start, _ => by simp only [need, text, show (asc "^").length = 1 by decide]; omega
  | group c a, h => by
    have := a.need_le h
    have : 1 ≤ (if c then asc "(" else asc "(?:").length := by cases c <;> decide
    simp only [need, text, List.length_append, show (asc ")").length = 1 by decide] at *
    omega

theorem compile_tree (w : Tree .alt) (h : w.Ok) : rxCompile w.text = some w.rx := by
  have hn := w.need_le h
  have := w.parse h [] (.inl rfl) (4 * w.text.length + 4) (by simp only at hn; omega)
  rw [List.append_nil] at this
  unfold rxCompile
  rw [this]

end Joeson.RegexpText
