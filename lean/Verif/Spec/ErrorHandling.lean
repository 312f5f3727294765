import Verif.Model.ErrorHandling
import Verif.Spec.Calculator
import Verif.Spec.Values
/-!
# What errors reported as the README recommends should be

What `parseX` should answer, and what the rule of octal numbers is for.
-/

namespace Joeson
open RuleText hiding decimal
open Arith

/-- What `parseX` should answer when matching the text has this outcome. -/
def XAnswers (err : Nat → Option Bytes) (text : Bytes) (r : VRes V) (x : XResult V) : Prop :=
  match r with
  -- the first callback that panics with a ParseError decides
  | .error p => (∃ c msg, p = .user c ∧ err c = some msg ∧ x = .parseError msg) ∨ ((∀ c msg, p = .user c → err c ≠ some msg) ∧ x = .panics p)
  | .ok (some (v, rest)) => if rest = [] then x = .ast v else ∃ rep, x = .failed rep
  -- `nil` for the empty text
  | .ok none => if text = [] then x = .nil else ∃ rep, x = .failed rep

/-- An octal digit. -/
def IsOctal (c : UInt8) : Prop := 0x30 ≤ c ∧ c ≤ 0x37

instance (c : UInt8) : Decidable (IsOctal c) := inferInstanceAs (Decidable (_ ∧ _))

/-- Value of octal digits. -/
def octal (ds : Bytes) : Nat := ds.foldl (fun n c => 8 * n + (c.toNat - 0x30)) 0

/-- What the rule is for: three octal digits, for a byte. -/
def octalMeant (ds : Bytes) : Except Panic Ast :=
  if ds.length < 3 then .error (.user 0)
  else if 3 < ds.length then .error (.user 1)
  else if 255 < octal ds then .error (.user 2)
  else .ok (.int (octal ds))

/-- What the callback makes of these digits. -/
def octalResult (ds : Bytes) : Except Panic Ast :=
  if ds.length < 3 then .error (.user 0)
  else if 3 < ds.length then .error (.user 1)
  else if 255 < decimal ds then .error (.user 2)
  else .ok (.int (decimal ds))

/-- What the rule does with a text: a backslash and all the octal digits that follow, at least one. -/
def octalMeaning : Bytes → VRes Ast
  | 0x5C :: s =>
    if s.takeWhile (fun c => decide (IsOctal c)) = [] then .ok none
    else match octalResult (s.takeWhile fun c => decide (IsOctal c)) with
      | .error e => .error e
      | .ok v => .ok (some (v, s.dropWhile fun c => decide (IsOctal c)))
  | _ => .ok none

end Joeson
