import Verif.Props.RegexpText3
/-!
# C88: what the brackets around a regular expression change
-/

namespace Joeson
open RegexpText

/-- The two groups that `)(` makes of the text. -/
def twoGroups (w w' : Tree .alt) : Tree .alt := .last (.cons (.group true w) .once (.cons (.group true w') .once .nil))

theorem compile_none {u : Bytes} (j : Nat) (hj : j ≤ 4 * u.length + 4) (h : ∀ k, rxParse (k + j) .alt u = none) : rxCompile u = none := by
  unfold rxCompile
  obtain ⟨k, hk⟩ : ∃ k, 4 * u.length + 4 = k + j := ⟨4 * u.length + 4 - j, by omega⟩
  rw [hk, h]

/-- C88: `newRegexFromString` puts brackets around the text without looking at it. So `x)(y` is accepted in a rule text for any `x` and `y`, and means `x` and
then `y`, though it is not a regular expression by itself. Likewise `?:x` is accepted, and means `x`. -/
theorem C88_brackets (w w' : Tree .alt) (h : w.Ok) (h' : w'.Ok) :
    (rxCompile (w.text ++ asc ")(" ++ w'.text) = none ∧ ∃ x, goRx (w.text ++ asc ")(" ++ w'.text) = some (Rx.regex x) ∧
      ∀ n s r, x.Matches n s r ↔ ∃ m, w.Lang n s m ∧ w'.Lang n m r) ∧
    (rxCompile (asc "?:" ++ w.text) = none ∧ ∃ x, goRx (asc "?:" ++ w.text) = some (Rx.regex x) ∧ ∀ n s r, x.Matches n s r ↔ w.Lang n s r) := by
  have e2 : asc ")(" = [0x29, 0x28] := by decide
  have e3 : asc "?:" = [0x3F, 0x3A] := by decide
  refine ⟨⟨?_, (twoGroups w w').rx, ?_, fun n s r => ?_⟩, ?_, (Tree.last (.cons (.group false w) .once .nil)).rx, ?_, fun n s r => ?_⟩
  · have hn := w.need_le h
    have := w.parse h (0x29 :: 0x28 :: w'.text) (.inr ⟨_, rfl⟩) (4 * (w.text ++ asc ")(" ++ w'.text).length + 4)
      (by simp only [List.length_append] at hn ⊢; omega)
    unfold rxCompile
    rw [show w.text ++ asc ")(" ++ w'.text = w.text ++ 0x29 :: 0x28 :: w'.text by rw [e2]; simp] at this ⊢
    rw [this]
  · have := compile_tree (twoGroups w w') ⟨h, trivial, ⟨h', trivial, trivial, fun h => by cases h⟩, fun h => by cases h⟩
    have e : (twoGroups w w').text = [0x28] ++ (w.text ++ asc ")(" ++ w'.text) ++ [0x29] := by
      rw [e2]
      simp [twoGroups, Tree.text, Count.text, show asc "(" = [0x28] by decide, show asc ")" = [0x29] by decide]
    rw [e] at this
    unfold goRx
    rw [this]
    rfl
  · show (Rx.seq w.rx (.seq w'.rx .empty)).Matches n s r ↔ _
    constructor
    · intro hm
      cases hm with
      | seq g1 g2 => cases g2 with
        | seq g2 g3 => cases g3 with
          | empty => exact ⟨_, (w.matches n h _ _).mp g1, (w'.matches n h' _ _).mp g2⟩
    · rintro ⟨m, g1, g2⟩
      exact .seq ((w.matches n h _ _).mpr g1) (.seq ((w'.matches n h' _ _).mpr g2) .empty)
  · rw [e3]
    refine compile_none (u := 0x3F :: 0x3A :: w.text) 3 (by omega) fun k => ?_
    simp [rxParse, isRepeat]
  · have := compile_tree (.last (.cons (.group false w) .once .nil)) ⟨h, trivial, trivial, fun h => by cases h⟩
    have e : (Tree.last (.cons (.group false w) .once .nil)).text = [0x28] ++ (asc "?:" ++ w.text) ++ [0x29] := by
      rw [e3]
      simp [Tree.text, Count.text, show asc "(?:" = [0x28, 0x3F, 0x3A] by decide, show asc ")" = [0x29] by decide]
    rw [e] at this
    unfold goRx
    rw [this]
    rfl
  · show (Rx.seq w.rx .empty).Matches n s r ↔ _
    rw [← w.matches n h]
    constructor
    · intro hm
      cases hm with
      | seq g1 g2 => cases g2 with
        | empty => exact g1
    · intro hm
      exact .seq hm .empty

/-- `a|ab)(a|ab` -/
example : sampleAB.Ok ∧ ((goRx (asc "a|ab)(a|ab")).map fun re => re.find (asc "abab")) = some (some (0, 3)) ∧
    ((goRx (asc "a|ab)(b")).map fun re => re.find (asc "abab")) = some (some (0, 2)) ∧ (rxCompile (asc "a|ab)(b")).isNone := by
  refine ⟨⟨⟨⟨.inl (by decide), by decide⟩, trivial, trivial, fun h => by cases h⟩, ⟨.inl (by decide), by decide⟩, trivial,
      ⟨⟨.inl (by decide), by decide⟩, trivial, trivial, fun h => by cases h⟩, fun h => by cases h⟩, by kernel_rfl, by kernel_rfl, by kernel_rfl⟩

theorem atom_open (k : Nat) {u : Bytes} {a : Rx} (hf : Follow u) (g : rxParse k .alt u = some (a, [])) : rxParse (k + 1) .atom (0x28 :: u) = none := by
  simp only [rxParse, if_true]
  match u, hf with
  | [], _ => simp [g]
  | b :: t, hf =>
    have hb := (hf b t rfl).2.2.1
    split
    · rename_i a' s' he
      split at he
      · rename_i h; cases h; exact absurd rfl hb
      · cases he
      · simp only [Option.bind_some, g] at he
        cases he
    · rfl

/-- C88: a repetition of nothing and brackets that do not match are refused, before or after any other text. -/
theorem C88_refused (w : Tree .alt) (h : w.Ok) (s : Bytes) : goRx (asc "*" ++ s) = none ∧ goRx (asc "+" ++ s) = none ∧
    goRx (asc "(" ++ w.text) = none ∧ goRx (w.text ++ asc ")") = none := by
  have none_of : ∀ {u : Bytes}, rxCompile ([0x28] ++ u ++ [0x29]) = none → goRx u = none := by
    intro u hu
    unfold goRx
    rw [hu]
    rfl
  have hrep : ∀ b : UInt8, (b = 0x2A ∨ b = 0x2B) → goRx (b :: s) = none := by
    intro b hb
    refine none_of ?_
    refine compile_none (u := 0x28 :: b :: (s ++ [0x29])) 6 (by simp only [List.length_cons]; omega) fun k => ?_
    rcases hb with rfl | rfl <;> simp [rxParse, isRepeat]
  refine ⟨hrep 0x2A (.inl rfl), hrep 0x2B (.inr rfl), none_of ?_, none_of ?_⟩
  · let T : Tree .alt := .last (.cons (.group true w) .once .nil)
    have hT : T.Ok := ⟨h, trivial, trivial, fun h => by cases h⟩
    have eT : T.text = 0x28 :: (w.text ++ [0x29]) := by
      simp [T, Tree.text, Count.text, show asc "(" = [0x28] by decide, show asc ")" = [0x29] by decide]
    have e : [0x28] ++ (asc "(" ++ w.text) ++ [0x29] = 0x28 :: T.text := by
      rw [eT, show asc "(" = [0x28] by decide]; simp
    rw [e]
    have hn := T.need_le hT
    have hp := T.parse hT [] (.inl rfl) (4 * T.text.length + 5) (by simp only at hn; omega)
    rw [List.append_nil] at hp
    have hf : Follow T.text := by
      intro b t he
      rw [eT] at he
      cases he
      decide
    have ha := atom_open _ hf hp
    unfold rxCompile
    rw [show 4 * (0x28 :: T.text).length + 4 = 4 * T.text.length + 5 + 1 + 1 + 1 by simp; omega]
    rw [rxParse, rxParse]
    simp [ha]
  · let T : Tree .alt := .last (.cons (.group true w) .once .nil)
    have hT : T.Ok := ⟨h, trivial, trivial, fun h => by cases h⟩
    have eT : T.text = 0x28 :: (w.text ++ [0x29]) := by
      simp [T, Tree.text, Count.text, show asc "(" = [0x28] by decide, show asc ")" = [0x29] by decide]
    have e : [0x28] ++ (w.text ++ asc ")") ++ [0x29] = T.text ++ [0x29] := by
      rw [eT, show asc ")" = [0x29] by decide]; simp
    rw [e]
    have hn := T.need_le hT
    have hp := T.parse hT [0x29] (.inr ⟨_, rfl⟩) (4 * (T.text ++ [0x29]).length + 4) (by simp only [List.length_append] at hn ⊢; omega)
    unfold rxCompile
    rw [hp]

/-- A limit of the model, not a claim about Go: flags and named groups are outside of `goRx`, which answers `none` for them. -/
theorem goRx_no_flags (s : Bytes) (h : s.head? ≠ some 0x3A) : goRx (asc "?" ++ s) = none := by
  have : rxCompile ([0x28] ++ (asc "?" ++ s) ++ [0x29]) = none := by
    rw [show asc "?" = [0x3F] by decide]
    refine compile_none (u := 0x28 :: 0x3F :: (s ++ [0x29])) 3 (by omega) fun k => ?_
    match s, h with
    | [], _ => simp [rxParse]
    | b :: s, h =>
      have hb : b ≠ 0x3A := fun e => h (by rw [e]; rfl)
      simp [rxParse, hb]
  unfold goRx
  rw [this]
  rfl

example : (goRx (asc "?i)a")).isNone ∧ (asc "i)a").head? ≠ some 0x3A ∧ (goRx (asc "*a")).isNone := by
  refine ⟨by kernel_rfl, by decide, by kernel_rfl⟩

end Joeson
