import Verif.Model.Regexp
import Verif.Spec.CodePoints
/-!
# What a regular expression matches

The textbook meaning, without any order of preference: which beginnings of a text belong to the language.
-/

namespace Joeson

/-- In a text of length `n`, the expression can match at the beginning of the remainder `s` and leave `rest`. -/
inductive Rx.Matches (n : Nat) : Rx → Bytes → Bytes → Prop where
  | empty {s} : Matches n .empty s s
  | cls {c s} : s ≠ [] → c.has (decodeRune s).1 = true → Matches n (.cls c) s (s.drop (decodeRune s).2)
  | bol {s} : s.length = n → Matches n .bol s s
  | seq {a b s m r} : Matches n a s m → Matches n b m r → Matches n (.seq a b) s r
  | left {a b s r} : Matches n a s r → Matches n (.alt a b) s r
  | right {a b s r} : Matches n b s r → Matches n (.alt a b) s r
  | done {a s} : Matches n (.star a) s s
  | again {a s m r} : Matches n a s m → Matches n (.star a) m r → Matches n (.star a) s r
  | plus {a s m r} : Matches n a s m → Matches n (.star a) m r → Matches n (.plus a) s r
  | some {a s r} : Matches n a s r → Matches n (.opt a) s r
  | skip {a s} : Matches n (.opt a) s s

/-- One of the things between the brackets of a class: a character, with a backslash in front or not, or a range of
two. -/
inductive CItem where
  | one (esc : Bool) (r : Nat)
  | range (esc : Bool) (lo : Nat) (esc' : Bool) (hi : Nat)

/-- How a character is written: UTF-8, perhaps with a backslash in front. -/
def charText (esc : Bool) (r : Nat) : Bytes := (if esc then [0x5C] else []) ++ Spec.utf8 [r]

/-- Characters that can be written so: `\`, `]`, `[`, `^` and `-` need the backslash, and only punctuation and the like
may have one. -/
def charOk (esc : Bool) (r : Nat) : Prop :=
  if esc then r < 0x80 ∧ ¬ (0x61 ≤ r ∧ r ≤ 0x7A) ∧ ¬ (0x41 ≤ r ∧ r ≤ 0x5A) ∧ ¬ (0x30 ≤ r ∧ r ≤ 0x39)
  else Spec.Scalar r ∧ r ≠ 0x5C ∧ r ≠ 0x5D ∧ r ≠ 0x5B ∧ r ≠ 0x5E ∧ r ≠ 0x2D

namespace CItem

/-- How it is written. -/
def text : CItem → Bytes
  | one e r => charText e r
  | range e lo e' hi => charText e lo ++ [0x2D] ++ charText e' hi

/-- It can be written so. -/
def Ok : CItem → Prop
  | one e r => charOk e r
  | range e lo e' hi => charOk e lo ∧ charOk e' hi ∧ lo ≤ hi

/-- The characters it stands for. -/
def Has : CItem → Nat → Prop
  | one _ r, x => x = r
  | range _ lo _ hi, x => lo ≤ x ∧ x ≤ hi

end CItem

/-- The text of a class. -/
def classText (neg : Bool) (l : List CItem) : Bytes := [0x5B] ++ (if neg then [0x5E] else []) ++ l.flatMap CItem.text ++ [0x5D]

/-- The characters of a class. -/
def ClassHas (neg : Bool) (l : List CItem) (x : Nat) : Prop := if neg then ¬ ∃ i ∈ l, i.Has x else ∃ i ∈ l, i.Has x

end Joeson
