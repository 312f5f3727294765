import Verif.Proofs.RegexpText2
/-!
# C88: regular expressions as they are written
-/

namespace Joeson
open RegexpText

/-- C88: every regular expression made of characters, backslashes, classes, `.`, `^`, groups, `|` and repetitions compiles. `MatchRegexp` with it succeeds iff
a beginning of what is left of the text belongs to the language of the expression, takes such a beginning and moves behind it; otherwise it does not move. -/
theorem C88_written (w : Tree .alt) (h : w.Ok) : ∃ re, goRx w.text = some re ∧ ∀ c : RuneStream, c.Valid →
    ((∃ rest, w.Lang (c.text.drop c.pos).length (c.text.drop c.pos) rest) →
      ∃ got rest, c.text.drop c.pos = got ++ rest ∧ w.Lang (c.text.drop c.pos).length (c.text.drop c.pos) rest ∧
        c.matchRegexp re = .ok (some got, { c with pos := c.pos + got.length })) ∧
    ((¬ ∃ rest, w.Lang (c.text.drop c.pos).length (c.text.drop c.pos) rest) → c.matchRegexp re = .ok (none, c)) := by
  have hx := compile_tree (.last (.cons (.group true w) .once .nil)) ⟨h, trivial, trivial, fun h => by cases h⟩
  have e : (Tree.last (.cons (.group true w) .once .nil)).text = [0x28] ++ w.text ++ [0x29] := by
    simp only [Tree.text, Count.text, if_true, List.append_nil]
    rfl
  rw [e] at hx
  have hm : ∀ N s r, (Rx.seq w.rx .empty).Matches N s r ↔ w.Lang N s r := by
    intro N s r
    rw [← w.matches N h]
    constructor
    · intro h
      cases h with
      | seq h h' => cases h' with
        | empty => exact h
    · intro h; exact .seq h .empty
  obtain ⟨re, h1, h2⟩ := C88_language w.text _ hx
  refine ⟨re, h1, fun c hc => ?_⟩
  have := h2 c hc
  simp only [Tree.rx, Count.rx, hm] at this
  exact this

/-- `[a-z]+(?:-(x|\d{2,3}))?` -/
def sampleTree : Tree .alt :=
  .last (.cons (.cls false [.range false 0x61 false 0x7A]) .plus
    (.cons (.group false (.last (.cons (.char 0x2D) .once (.cons (.group true (.or (.cons (.char 0x78) .once .nil)
      (.last (.cons (.esc 0x64) (.range 2 3) .nil)))) .once .nil)))) .opt .nil))

example : sampleTree.text = asc "[a-z]+(?:-(x|\\d{2,3}))?" ∧ sampleTree.Ok ∧
    ((goRx sampleTree.text).map fun re => re.find (asc "ab-1234")) = some (some (0, 6)) ∧
    ((goRx sampleTree.text).map fun re => re.find (asc "ab-1")) = some (some (0, 2)) := by
  refine ⟨by kernel_rfl, ?_, by kernel_rfl, by kernel_rfl⟩
  refine ⟨⟨?_, by simp⟩, trivial, ⟨⟨⟨.inl (by decide), by decide⟩, trivial, ⟨⟨⟨⟨.inl (by decide), by decide⟩, trivial, trivial, fun h => by cases h⟩,
    ⟨.inl (by decide), ⟨by decide, by decide⟩, trivial, fun h => by cases h⟩⟩, trivial, trivial, fun h => by cases h⟩, fun h => by cases h⟩, trivial, trivial, fun h => by cases h⟩, fun _ => rfl⟩
  intro i hi
  rw [List.mem_singleton.mp hi]
  exact ⟨⟨.inl (by decide), by decide⟩, ⟨.inl (by decide), by decide⟩, by decide⟩

end Joeson
