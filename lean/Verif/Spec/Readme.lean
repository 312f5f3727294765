import Verif.Spec.Calculator
import Verif.Model.Readme
/-!
# What the VideoGame grammars of the README are for

A game is looked up by its number or by its title in double quotes, or by the year it came out.
-/

namespace Joeson
open RuleText hiding decimal
open Arith

/-- The first game of the database with this property, or "Not found". -/
def gameWhere (db : List VideoGame) (p : VideoGame → Bool) : Ast := ((db.find? p).getD notFoundGame).ast

/-- The digits of a number that does not begin with 0. -/
structure IsId (ds : Bytes) : Prop where
  digits : ∀ c ∈ ds, IsDigit c
  first : ∃ c l, ds = c :: l ∧ c ≠ 0x30

/-- What looking up the number gives: the game, or a panic if the number does not fit in an `int`. -/
def byId (db : List VideoGame) (ds : Bytes) : VRes Ast :=
  if decimal ds < 2 ^ 63 then .ok (some (gameWhere db (fun v => v.id == decimal ds), [])) else .error .notANumber

/-- Characters other than the double quote. -/
def IsTitle (w : List Nat) : Prop := ∀ c ∈ w, Spec.Scalar c ∧ c ≠ 0x22

/-- In double quotes. -/
def quoted (w : List Nat) : Bytes := 0x22 :: (Spec.utf8 w ++ [0x22])

/-- What looking up the title gives. -/
def byTitle (db : List VideoGame) (w : List Nat) : VRes Ast := .ok (some (gameWhere db (fun v => v.title == Spec.utf8 w), []))

/-- From 1900 to 2199. -/
def IsYear (ds : Bytes) : Prop := ∃ c b1 b2, ds = c ++ [b1, b2] ∧ (c = asc "19" ∨ c = asc "20" ∨ c = asc "21") ∧ IsDigit b1 ∧ IsDigit b2

/-- What looking up the year gives. -/
def byYear (db : List VideoGame) (ds : Bytes) : VRes Ast := .ok (some (gameWhere db (fun v => v.year == decimal ds), []))

/-- A number that does not fit in an `int`. -/
def IsBig (ds : Bytes) : Prop := IsId ds ∧ 2 ^ 63 ≤ decimal ds

/-- The texts that examples 2 to 4 understand, and the game that is looked for. Titles are any bytes other than the double
quote. -/
inductive GameText : Bytes → (VideoGame → Bool) → Prop
  | id {ds : Bytes} : IsId ds → decimal ds < 2 ^ 63 → GameText ds fun v => v.id == decimal ds
  | title {w : Bytes} : 0x22 ∉ w → GameText (0x22 :: (w ++ [0x22])) fun v => v.title == w

/-- Those of example 5. -/
inductive GameText5 : Bytes → (VideoGame → Bool) → Prop
  | game {s : Bytes} {p : VideoGame → Bool} : GameText s p → GameText5 s p
  | year {w ds : Bytes} : (∀ b ∈ w, IsBlank b) → IsYear ds → GameText5 (asc "bestIn:" ++ w ++ ds) fun v => v.year == decimal ds

/-- Those of example 1. -/
inductive GameText1 : Bytes → (VideoGame → Bool) → Prop
  | id {c : UInt8} {l : Bytes} : IsId (c :: l) → GameText1 (c :: l) fun v => v.id == decimal [c]
  | title {w : Bytes} : 0x22 ∉ w → GameText1 (0x22 :: (w ++ [0x22])) fun v => v.title == w

end Joeson
