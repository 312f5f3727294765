import Verif.Model.Values
import Verif.Props.RuneStream
import Verif.Proofs.Invariant
/-! # Code streams meet the engine's requirements -/

namespace Joeson

theorem runeAt_valid (text : Bytes) {p : Nat} (hp : p ≤ text.length) : (runeAt text p).Valid := by
  constructor
  · rfl
  · exact hp

theorem Stream.ofText_valid (text : Bytes) : (Stream.ofText text).Valid := by
  constructor
  · intro p b hp
    have hv := runeAt_valid text hp
    have ht : (runeAt text p).text = text := rfl
    have hpp : (runeAt text p).pos = p := rfl
    by_cases h : ∃ rest, text.drop p = b ++ rest
    · obtain ⟨rest, h⟩ := h
      have := (C03_matchString _ hv b).1 rest (by rw [ht, hpp]; exact h)
      refine ⟨some b, p + b.length, ?_, by omega, ?_, by simp, by simp⟩
      · show (do let (r, c) ← (runeAt text p).matchString b; return (r, c.pos)) = _
        rw [this]; rfl
      · have hl := congrArg List.length h
        rw [List.length_drop, List.length_append] at hl
        have hp' : p ≤ text.length := hp
        show p + b.length ≤ text.length
        omega
    · have := (C03_matchString _ hv b).2 (fun rest hr => h ⟨rest, hr⟩)
      refine ⟨none, p, ?_, Nat.le_refl _, hp, by simp, by simp⟩
      show (do let (r, c) ← (runeAt text p).matchString b; return (r, c.pos)) = _
      rw [this]; rfl
  · intro p re hp
    have hv := runeAt_valid text hp
    have ht : (runeAt text p).text = text := rfl
    have hpp : (runeAt text p).pos = p := rfl
    by_cases h : ∃ n, re.find (text.drop p) = some (0, n)
    · obtain ⟨n, h⟩ := h
      have := (C05_matchRegexp _ hv re).1 n h
      have hb := re.bounds _ _ _ h
      refine ⟨some ((text.drop p).take n), p + n, ?_, by omega, this.2, by simp, ?_⟩
      · show (do let (r, c) ← (runeAt text p).matchRegexp re; return (r, c.pos)) = _
        rw [this.1]; rfl
      · intro t ht
        injection ht with ht
        subst ht
        have : (List.take n (List.drop p text)).length = n := by
          rw [List.length_take]; omega
        rw [this]
        exact ⟨rfl, _, h⟩
    · have := (C05_matchRegexp _ hv re).2 (fun n hr => h ⟨n, hr⟩)
      refine ⟨none, p, ?_, Nat.le_refl _, hp, by simp, by simp⟩
      show (do let (r, c) ← (runeAt text p).matchRegexp re; return (r, c.pos)) = _
      rw [this]; rfl

end Joeson
