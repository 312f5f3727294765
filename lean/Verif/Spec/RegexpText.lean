import Verif.Spec.Regexp
import Verif.Spec.Native
/-!
# How regular expressions are written, and what they mean

The syntax of regular expressions as trees, the text of a tree, and the texts that belong to its language. Nothing here refers to the parser of regular
expressions or to the matcher.
-/

namespace Joeson.RegexpText
open Joeson

/-- What may follow something: nothing, `*`, `+`, `?`, `{n}` or `{n,m}`. -/
inductive Count where
  | once
  | star
  | plus
  | opt
  | exact (n : Nat)
  | range (n m : Nat)

/-- How it is written. -/
def Count.text : Count → Bytes
  | once => []
  | star => asc "*"
  | plus => asc "+"
  | opt => asc "?"
  | exact n => asc "{" ++ itoa n ++ asc "}"
  | range n m => asc "{" ++ itoa n ++ asc "," ++ itoa m ++ asc "}"

/-- How often it allows to repeat. -/
def Count.Allows : Count → Nat → Prop
  | once, j => j = 1
  | star, _ => True
  | plus, j => 1 ≤ j
  | opt, j => j ≤ 1
  | exact n, j => j = n
  | range n m, j => n ≤ j ∧ j ≤ m

/-- Go allows up to 1000. -/
def Count.Ok : Count → Prop
  | exact n => n ≤ 1000
  | range n m => n ≤ m ∧ m ≤ 1000
  | _ => True

/-- Without an upper bound. -/
def Count.unbounded : Count → Bool
  | star | plus => true
  | _ => false

/-- Nothing is enough. -/
def Count.mayBeNone : Count → Bool
  | star | opt => true
  | exact n => n == 0
  | range n _ => n == 0
  | _ => false

/-- Regular expressions: alternatives, of sequences, of things which may be repeated. -/
inductive Tree : RxKind → Type where
  /-- one alternative -/
  | last (s : Tree .seq) : Tree .alt
  /-- `s|a` -/
  | or (s : Tree .seq) (a : Tree .alt) : Tree .alt
  | nil : Tree .seq
  | cons (a : Tree .atom) (q : Count) (s : Tree .seq) : Tree .seq
  /-- a character -/
  | char (r : Nat) : Tree .atom
  /-- a backslash and a character -/
  | esc (b : UInt8) : Tree .atom
  /-- `[...]` or `[^...]` -/
  | cls (neg : Bool) (l : List CItem) : Tree .atom
  /-- `.` -/
  | dot : Tree .atom
  /-- `^` -/
  | start : Tree .atom
  /-- `(...)`, or `(?:...)` if not capturing -/
  | group (capturing : Bool) (a : Tree .alt) : Tree .atom

/-- The text. -/
def Tree.text {k : RxKind} : Tree k → Bytes
  | last s => s.text
  | or s a => s.text ++ asc "|" ++ a.text
  | nil => []
  | cons a q s => a.text ++ q.text ++ s.text
  | char r => Spec.utf8 [r]
  | esc b => [0x5C, b]
  | cls neg l => classText neg l
  | dot => asc "."
  | start => asc "^"
  | group capturing a => (if capturing then asc "(" else asc "(?:") ++ a.text ++ asc ")"

/-- The characters which a backslash and a character stand for. -/
def EscHas (b : UInt8) (r : Nat) : Prop :=
  let digit := 0x30 ≤ r ∧ r ≤ 0x39
  let blank := r ∈ [0x09, 0x0A, 0x0C, 0x0D, 0x20]
  let word := (0x30 ≤ r ∧ r ≤ 0x39) ∨ (0x41 ≤ r ∧ r ≤ 0x5A) ∨ r = 0x5F ∨ (0x61 ≤ r ∧ r ≤ 0x7A)
  if [b] = asc "d" then digit else if [b] = asc "D" then ¬ digit
  else if [b] = asc "s" then blank else if [b] = asc "S" then ¬ blank
  else if [b] = asc "w" then word else if [b] = asc "W" then ¬ word
  else if [b] = asc "a" then r = 0x07 else if [b] = asc "f" then r = 0x0C
  else if [b] = asc "n" then r = 0x0A else if [b] = asc "r" then r = 0x0D
  else if [b] = asc "t" then r = 0x09 else if [b] = asc "v" then r = 0x0B
  else r = b.toNat

/-- What may follow a backslash: one of these letters, or ASCII which is neither a letter nor a digit. -/
def EscOk (b : UInt8) : Prop :=
  b ∈ asc "dDsSwWafnrtv" ∨ (b < 0x80 ∧ b ∉ asc "abcdefghijklmnopqrstuvwxyzABCDEFGHIJKLMNOPQRSTUVWXYZ0123456789")

/-- It can match nothing at all. -/
def Tree.mayBeNone {k : RxKind} : Tree k → Bool
  | last s => s.mayBeNone
  | or s a => s.mayBeNone || a.mayBeNone
  | nil => true
  | cons a q s => (q.mayBeNone || a.mayBeNone) && s.mayBeNone
  | start => true
  | group _ a => a.mayBeNone
  | _ => false

/-- The texts considered: characters which have a meaning in regular expressions are written with a backslash, and `*` and `+` do not follow something that
can match nothing. -/
def Tree.Ok {k : RxKind} : Tree k → Prop
  | last s => s.Ok
  | or s a => s.Ok ∧ a.Ok
  | nil => True
  | cons a q s => a.Ok ∧ q.Ok ∧ s.Ok ∧ (q.unbounded = true → a.mayBeNone = false)
  | char r => Spec.Scalar r ∧ ∀ b ∈ asc "\\.+*?()|[{^$", r ≠ b.toNat
  | esc b => EscOk b
  | cls _ l => (∀ i ∈ l, i.Ok) ∧ l ≠ []
  | dot => True
  | start => True
  | group _ a => a.Ok

/-- The text begins with a character such that `P`, and `r` is the rest. What is not UTF-8 is read as U+FFFD, byte by byte. -/
def Takes (P : Nat → Prop) (s r : Bytes) : Prop := s ≠ [] ∧ P (decodeRune s).1 ∧ r = s.drop (decodeRune s).2

/-- One after the other. -/
inductive Again (L : Bytes → Bytes → Prop) : Nat → Bytes → Bytes → Prop
  | none (s : Bytes) : Again L 0 s s
  | more {j : Nat} {s m r : Bytes} : L s m → Again L j m r → Again L (j + 1) s r

/-- In a text of length `n`, it can match at the beginning of what is left `s`, and leave `r`. -/
def Tree.Lang (n : Nat) {k : RxKind} : Tree k → Bytes → Bytes → Prop
  | last t => t.Lang n
  | or t a => fun s r => t.Lang n s r ∨ a.Lang n s r
  | nil => fun s r => s = r
  | cons a q t => fun s r => ∃ m, (∃ j, q.Allows j ∧ Again (a.Lang n) j s m) ∧ t.Lang n m r
  | char c => Takes (· = c)
  | esc b => Takes (EscHas b)
  | cls neg l => Takes (ClassHas neg l)
  | dot => Takes (· ≠ 0x0A)
  | start => fun s r => s.length = n ∧ s = r
  | group _ a => a.Lang n

end Joeson.RegexpText
