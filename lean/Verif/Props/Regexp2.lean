import Verif.Proofs.Regexp5
import Verif.Proofs.JoesonG
import Verif.Props.Colors
/-!
# C55 with the regular expression as it is written
-/

namespace Joeson

/-- helpers/stripansi.go:11 `ansi`: the text that `MustCompile` is given (`\u001B`, `\u009B` and `\u0007` are escapes of Go) -/
def ansiSrc : Bytes :=
  asc "[" ++ [0x1B, 0xC2, 0x9B] ++ asc "][[\\]()#;?]*(?:(?:(?:[a-zA-Z\\d]*(?:;[a-zA-Z\\d]*)*)?" ++ [0x07] ++
    asc ")|(?:(?:\\d{1,4}(?:;\\d{0,4})*)?[\\dA-PRZcf-ntqry=><~]))"

/-- All bytes -/
theorem forall_byte {p : UInt8 → Prop} (h : ∀ n : Fin 256, p (UInt8.ofNat n.val)) (b : UInt8) : p b := by
  have := h ⟨b.toNat, b.toNat_lt⟩
  rwa [UInt8.ofNat_toNat] at this

/-- What the source is compiled to -/
def ansiRx : Rx :=
  let d := Rx.cls ⟨false, [(48, 57)]⟩
  let d3 := Rx.opt (.seq d (.opt (.seq d (.opt d))))
  let al := Rx.cls ⟨false, [(97, 122), (65, 90), (48, 57)]⟩
  let semi := Rx.cls ⟨false, [(59, 59)]⟩
  .seq (.cls ⟨false, [(0x1B, 0x1B), (0x9B, 0x9B)]⟩)
    (.seq (.star (.cls ⟨false, [(91, 91), (93, 93), (40, 40), (41, 41), (35, 35), (59, 59), (63, 63)]⟩))
      (.seq
        (.alt
          (.seq (.seq (.opt (.seq (.star al) (.seq (.star (.seq semi (.seq (.star al) .empty))) .empty)))
            (.seq (.cls ⟨false, [(7, 7)]⟩) .empty)) .empty)
          (.seq (.seq (.opt (.seq (.seq d d3) (.seq (.star (.seq semi (.seq (.opt (.seq d d3)) .empty))) .empty)))
            (.seq (.cls ⟨false, [(48, 57), (65, 80), (82, 82), (90, 90), (99, 99), (102, 110), (116, 116), (113, 113),
              (114, 114), (121, 121), (61, 61), (62, 62), (60, 60), (126, 126)]⟩) .empty)) .empty))
        .empty))

/-- What the source is compiled to tries the same possibilities in the same order as `ansi` of `Model/Colors`. -/
theorem ansi_compiled : ∃ x, rxCompile ansiSrc = some x ∧ x.nullable = false ∧ SameRx x ansi := by
  refine ⟨ansiRx, by kernel_rfl, by kernel_rfl, ?_⟩
  have dig : SameRx (.cls ⟨false, [(48, 57)]⟩) digit := .cls (by decide) (forall_byte (by decide +kernel))
  have al : SameRx (.cls ⟨false, [(97, 122), (65, 90), (48, 57)]⟩) alnum := .cls (by decide) (forall_byte (by decide +kernel))
  have semi : SameRx (.cls ⟨false, [(59, 59)]⟩) (byte 0x3B) := .cls (by decide) (forall_byte (by decide +kernel))
  have dig3 := SameRx.opt (.seq dig (.opt (.seq dig (.opt dig))))
  refine .seq sameRx_intro (.seq (.star (.cls (by decide) (forall_byte (by decide +kernel)))) (.last (.alt ?_ ?_)))
  · exact .last (.seq (.opt (.seq (.star al) (.last (.star (.seq semi (.last (.star al)))))))
      (.last (.cls (by decide) (forall_byte (by decide +kernel)))))
  · exact .last (.seq (.opt (.seq (.seq dig dig3) (.last (.star (.seq semi (.last (.opt (.seq dig dig3))))))))
      (.last (.cls (by decide) (forall_byte (by decide +kernel)))))

/-- C55: `StripAnsi` as modelled is `ReplaceAllString(str, "")` of the expression compiled from the text in the source. -/
theorem C55_source : ∃ x, rxCompile ansiSrc = some x ∧ ∀ s, stripAnsi s = x.removeAll s.length s := by
  obtain ⟨x, h1, h2, h3⟩ := ansi_compiled
  exact ⟨x, h1, fun s => (removeAll_same h3 h2 s.length s (Nat.le_refl _)).symm⟩

/-- With U+009B in place of `ESC [`, after a character of three bytes. -/
example : ((rxCompile ansiSrc).map fun x => x.removeAll 12 ([0xE2, 0x82, 0xAC, 0xC2, 0x9B] ++ asc "1;31mred")) =
    some ([0xE2, 0x82, 0xAC] ++ asc "red") := by
  decide +kernel

end Joeson
