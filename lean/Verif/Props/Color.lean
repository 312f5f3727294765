import Verif.Proofs.ColorPanic
import Verif.Props.Readme
import Verif.Props.WellFormed
/-!
# C69: the color grammar of the README
-/

namespace Joeson
open RuleText hiding decimal
open Arith

/-- The regular expressions of the grammar, compiled, and what they find. -/
structure ColorClasses (rx : Bytes → Option Regex) (r1 r2 rc rb : Regex) : Prop where
  c1 : rx (asc "[1-9]") = some r1
  c2 : rx (asc "[0-9]") = some r2
  cc : rx (asc "[ ,]") = some rc
  cb : rx (asc "[ \\t]") = some rb
  finds : ColorFinds r1 r2 rc rb

/-- The texts are those of color.go:41-59. -/
example (r1 r2 rc rb : Regex) : (colorNameE "red").text = asc "'red'" ∧ (colorNameE "green").text = asc "'green'" ∧ (colorNameE "blue").text = asc "'blue'" ∧
    rgbE.text = asc "'rgb' _ '(' _ Integer*_COMMA{3,3} _ ')'" ∧ hslE.text = asc "'hsl' _ '(' HslTrio ')'" ∧
    trioE.text = asc "_ Integer _ ',' _ Integer '%' _ ',' _ Integer '%' _" ∧ (gameIdE r1 r2).text = asc "[1-9][0-9]*" ∧ (commaE rc).text = asc "[ ,]*" ∧ (gapE rb).text = asc "[ \\t]*" :=
  ⟨by kernel_rfl, by kernel_rfl, by kernel_rfl, by kernel_rfl, by kernel_rfl, by kernel_rfl, by kernel_rfl, by kernel_rfl, by kernel_rfl⟩

theorem color_names (r1 r2 rc rb : Regex) : GoodNames (colorLines r1 r2 rc rb) := by
  refine goodNames_of rfl ?_ fun d hd => ?_
  · show (["Color", "Rgb", "Hsl", "HslTrio", "Integer", "_COMMA", "_"] : List String).Nodup
    decide
  · have : d.1 ∈ (["Color", "Rgb", "Hsl", "HslTrio", "Integer", "_COMMA", "_"] : List String) := List.mem_map_of_mem (f := (·.1)) hd
    simp only [List.mem_cons, List.not_mem_nil, or_false] at this
    rcases this with h | h | h | h | h | h | h <;> rw [h] <;> decide

variable {rx : Bytes → Option Regex} {r1 r2 rc rb : Regex}

theorem color_texts (h : ColorClasses rx r1 r2 rc rb) : AllLines (TextOk rx (colorLines r1 r2 rc rb)) (colorLines r1 r2 rc rb) := by
  refine textsOk_rx (by kernel_rfl) ?_
  simp only [colorLines, AllLines, GLine.All, Body.All, Expr.RxOk, Units.RxOk, Deco.RxOk, Prim.RxOk, colorNameE, rgbE, hslE, trioE, commaE, gapE, gameIdE, quoteP, and_true, true_and]
  exact ⟨⟨h.c1, h.c2⟩, h.cc, h.cb⟩

theorem color_known (r1 r2 rc rb : Regex) {n : String} (h : n ∈ (["Color", "Rgb", "Hsl", "HslTrio", "Integer", "_COMMA", "_"] : List String)) :
    Known (colorLines r1 r2 rc rb) n := by
  have : n ∈ (rulesOf (colorLines r1 r2 rc rb)).map (·.1) := h
  obtain ⟨⟨n', cb, b⟩, hm, rfl⟩ := List.mem_map.mp this
  exact ⟨cb, b, hm⟩

/-- The rules that can match nothing. -/
def colorEps (n : String) : Prop := n = "_" ∨ n = "_COMMA"

/-- How rules are looked up before something is matched. -/
def colorRank : String → Nat
  | "Color" => 2
  | "HslTrio" => 1
  | _ => 0

/-- How deeply rules are nested. -/
def colorHeight : String → Nat
  | "Color" => 4
  | "Hsl" => 3
  | "Rgb" | "HslTrio" => 2
  | _ => 1

theorem color_rulesOf (r1 r2 rc rb : Regex) : rulesOf (colorLines r1 r2 rc rb) =
    [("Color", none, .rank [.alt "" (some 0) (.text (colorNameE "red")), .alt "" (some 1) (.text (colorNameE "green")), .alt "" (some 2) (.text (colorNameE "blue")),
       .alt "Rgb" (some 3) (.text rgbE), .alt "Hsl" (some 4) (.text hslE), .incl "HslTrio" none (.text trioE)]),
     ("Rgb", some 3, .text rgbE), ("Hsl", some 4, .text hslE), ("HslTrio", none, .text trioE), ("Integer", some 5, .text (gameIdE r1 r2)), ("_COMMA", none, .text (commaE rc)),
     ("_", none, .text (gapE rb))] := rfl

/-- C69: the grammar is well formed. -/
theorem C69_well_formed (h : ColorFinds r1 r2 rc rb) : WellFormed (colorLines r1 r2 rc rb) colorEps colorRank := by
  have hk := @color_known r1 r2 rc rb
  have hn := colorName_vp
  have f1 := finds_ne h.first
  have f2 := finds_ne h.digit
  have f3 := finds_ne h.comma
  have f4 := finds_ne h.blank
  have hr := color_rulesOf r1 r2 rc rb
  constructor
  · intro nm cb b hm hb
    rw [hr] at hm
    simp only [List.mem_cons, List.not_mem_nil, or_false, Prod.mk.injEq] at hm
    rcases hm with ⟨rfl, rfl, rfl⟩ | ⟨rfl, rfl, rfl⟩ | ⟨rfl, rfl, rfl⟩ | ⟨rfl, rfl, rfl⟩ | ⟨rfl, rfl, rfl⟩ | ⟨rfl, rfl, rfl⟩ | ⟨rfl, rfl, rfl⟩
    all_goals simp [Body.Eps, linesEps, GLine.Eps, hn, rgb_vp, hsl_vp, trio_vp, comma_vp, gap_vp, gameId_vp, rgbItems, hslItems, trioItems, VP.Eps, VP.EpsAll, VP.EpsAny, f1, colorEps] at hb ⊢
  · intro nm cb b hm
    rw [hr] at hm
    simp only [List.mem_cons, List.not_mem_nil, or_false, Prod.mk.injEq] at hm
    rcases hm with ⟨rfl, rfl, rfl⟩ | ⟨rfl, rfl, rfl⟩ | ⟨rfl, rfl, rfl⟩ | ⟨rfl, rfl, rfl⟩ | ⟨rfl, rfl, rfl⟩ | ⟨rfl, rfl, rfl⟩ | ⟨rfl, rfl, rfl⟩
    all_goals simp [Body.Wf, linesWf, GLine.Wf, VP.Wf, VP.WfSeq, VP.WfAll, hn, rgb_vp, hsl_vp, trio_vp, comma_vp, gap_vp, gameId_vp, rgbItems, hslItems, trioItems, VP.Eps, VP.EpsAll, VP.EpsAny,
      hk, colorRank, colorEps, f1, f2, f3, f4]
  · generalize Known (colorLines r1 r2 rc rb) = K at hk ⊢
    simp [colorLines, Body.Wf, linesWf, GLine.Wf, VP.Wf, VP.WfSeq, VP.WfAll, hn, rgb_vp, hsl_vp, trio_vp, comma_vp, gap_vp, gameId_vp, rgbItems, hslItems, trioItems, VP.Eps, VP.EpsAll, VP.EpsAny,
      hk, colorEps, f1, f2, f3, f4]

theorem color_flat (r1 r2 rc rb : Regex) : Flat (colorLines r1 r2 rc rb) colorHeight 4 := by
  have hn := colorName_vp
  have hr := color_rulesOf r1 r2 rc rb
  constructor
  · intro nm cb b hm
    rw [hr] at hm
    simp only [List.mem_cons, List.not_mem_nil, or_false, Prod.mk.injEq] at hm
    rcases hm with ⟨rfl, rfl, rfl⟩ | ⟨rfl, rfl, rfl⟩ | ⟨rfl, rfl, rfl⟩ | ⟨rfl, rfl, rfl⟩ | ⟨rfl, rfl, rfl⟩ | ⟨rfl, rfl, rfl⟩ | ⟨rfl, rfl, rfl⟩
    all_goals simp [Body.Within, linesWithin, GLine.Within, hn, rgb_vp, hsl_vp, trio_vp, comma_vp, gap_vp, gameId_vp, rgbItems, hslItems, trioItems, VP.Within, VP.WithinAll, colorHeight]
  · simp [colorLines, Body.Within, linesWithin, GLine.Within, hn, rgb_vp, hsl_vp, trio_vp, comma_vp, gap_vp, gameId_vp, rgbItems, hslItems, trioItems, VP.Within, VP.WithinAll, colorHeight]

/-- C69: the texts that give a value are those of `ColorText`, and the value is the color. -/
theorem C69_colors (h : ColorClasses rx r1 r2 rc rb) (u : UserString) (text : Bytes) (v : Ast) :
    LibGives rx (colorLines r1 r2 rc rb) (colorOps u) text (.ok (some (v, []))) ↔ ∃ r g b, ColorText text r g b ∧ v = colorAst r g b := by
  rw [C68_values_only (color_names r1 r2 rc rb) (color_texts h) (C69_well_formed h.finds) (color_flat r1 r2 rc rb) (by decide) _ (fun _ _ => rfl)]
  refine ⟨inv_color h.finds, ?_⟩
  rintro ⟨r, g, b, ht, rfl⟩
  exact color_yields (d := 0) h.finds ht

/-- C69: and those that panic are those with a number that does not fit in an `int`, where a number is wanted. -/
theorem C69_panics (h : ColorClasses rx r1 r2 rc rb) (u : UserString) (text : Bytes) (x : Panic) :
    LibGives rx (colorLines r1 r2 rc rb) (colorOps u) text (.error x) ↔ x = .notANumber ∧ ColorPanic text := by
  rw [C68_panics_only (color_names r1 r2 rc rb) (color_texts h) (C69_well_formed h.finds) (color_flat r1 r2 rc rb) (by decide) _ (fun _ _ => rfl)]
  refine ⟨inv_color_error h.finds, ?_⟩
  rintro ⟨rfl, ht⟩
  exact color_panics (d := 0) h.finds ht

/-- C69: all other texts are parse errors. -/
theorem C69_errors (h : ColorClasses rx r1 r2 rc rb) (u : UserString) (text : Bytes) (h1 : ∀ r g b, ¬ ColorText text r g b) (h2 : ¬ ColorPanic text) :
    ∃ r, LibGives rx (colorLines r1 r2 rc rb) (colorOps u) text r ∧ (r = .ok none ∨ ∃ v rest, rest ≠ [] ∧ r = .ok (some (v, rest))) := by
  obtain ⟨r, _, hr⟩ := C68_flat (color_names r1 r2 rc rb) (color_texts h) (C69_well_formed h.finds) (color_flat r1 r2 rc rb) (by decide) (colorOps u) (fun _ _ => rfl) text
  refine ⟨r, hr, ?_⟩
  match r, hr with
  | .error x, hr => exact absurd ((C69_panics h u text x).mp hr).2 h2
  | .ok none, _ => exact .inl rfl
  | .ok (some (v, rest)), hr =>
    refine .inr ⟨v, rest, ?_, rfl⟩
    rintro rfl
    obtain ⟨r, g, b, ht, _⟩ := (C69_colors h u text v).mp hr
    exact h1 r g b ht

theorem decimal_pos {ds : Bytes} (h : IsId ds) : 0 < decimal ds := by
  obtain ⟨c, l, rfl, hc, _⟩ := h.split
  have h1 : decimal [c] ≤ decimal ([c] ++ l) := decimal_prefix [c] l
  have h2 : decimal [c] = c.toNat - 0x30 := by simp [decimal]
  have h3 : 0x30 < c.toNat := by
    have h4 := hc.1.1
    have h5 : c.toNat ≠ 0x30 := fun he => hc.2 (UInt8.toNat_inj.mp he)
    have h6 : 0x30 ≤ c.toNat := by simpa [UInt8.le_iff_toNat_le] using h4
    omega
  show 0 < decimal ([c] ++ l)
  omega

/-- C69: a number of a color cannot be 0: apart from the three names, all the components of a color are positive. -/
theorem C69_no_zero (h : ColorClasses rx r1 r2 rc rb) (u : UserString) (text : Bytes) (r g b : Int)
    (ht : LibGives rx (colorLines r1 r2 rc rb) (colorOps u) text (.ok (some (colorAst r g b, [])))) :
    (text = asc "red" ∧ (r, g, b) = (255, 0, 0)) ∨ (text = asc "green" ∧ (r, g, b) = (0, 255, 0)) ∨ (text = asc "blue" ∧ (r, g, b) = (0, 0, 255)) ∨ (0 < r ∧ 0 < g ∧ 0 < b) := by
  obtain ⟨r', g', b', ht, he⟩ := (C69_colors h u text _).mp ht
  simp only [colorAst, Ast.user.injEq, List.cons.injEq, Ast.int.injEq, true_and, and_true] at he
  obtain ⟨rfl, rfl, rfl⟩ := he
  have hp : ∀ {ds : Bytes} {n : Nat}, IsNum ds n → (0 : Int) < n := fun hn => by
    have := decimal_pos hn.1
    rw [← hn.2.1] at this
    omega
  cases ht with
  | red => exact .inl ⟨rfl, rfl⟩
  | green => exact .inr (.inl ⟨rfl, rfl⟩)
  | blue => exact .inr (.inr (.inl ⟨rfl, rfl⟩))
  | rgb _ _ i1 _ i2 _ i3 _ => exact .inr (.inr (.inr ⟨hp i1, hp i2, hp i3⟩))
  | hsl => exact .inr (.inr (.inr ⟨by decide, by decide, by decide⟩))

/-- C69: so no text is black. -/
theorem C69_no_black (h : ColorClasses rx r1 r2 rc rb) (u : UserString) (text : Bytes) :
    ¬ LibGives rx (colorLines r1 r2 rc rb) (colorOps u) text (.ok (some (colorAst 0 0 0, []))) := by
  intro ht
  rcases C69_no_zero h u text 0 0 0 ht with ⟨_, h⟩ | ⟨_, h⟩ | ⟨_, h⟩ | ⟨h, _⟩
  · cases h
  · cases h
  · cases h
  · exact absurd h (by decide)

/-- C69: numbers are not limited to 255: every three positive numbers are a color. -/
theorem C69_any_numbers (h : ColorClasses rx r1 r2 rc rb) (u : UserString) {d1 d2 d3 : Bytes} {r g b : Nat} (i1 : IsNum d1 r) (i2 : IsNum d2 g) (i3 : IsNum d3 b) :
    LibGives rx (colorLines r1 r2 rc rb) (colorOps u) (asc "rgb(" ++ d1 ++ asc "," ++ d2 ++ asc "," ++ d3 ++ asc ")") (.ok (some (colorAst r g b, []))) := by
  refine (C69_colors h u _ _).mpr ⟨r, g, b, ?_, rfl⟩
  have hc : IsComma (asc ",") := by unfold IsComma; decide
  have := ColorText.rgb (w1 := []) (w2 := []) (w3 := []) (by intro c h; cases h) (by intro c h; cases h) i1 hc i2 hc i3 (by intro c h; cases h)
  have e : asc "rgb(" = asc "rgb" ++ asc "(" := rfl
  simpa [e] using this

namespace Sample

/-- The regular expressions. -/
def colorRx (t : Bytes) : Option Regex :=
  if t = asc "[1-9]" then some (classRe fun c => decide (IsDigit c ∧ c ≠ 0x30))
  else if t = asc "[0-9]" then some (classRe fun c => decide (IsDigit c))
  else if t = asc "[ ,]" then some (classRe fun c => decide (c = 0x20 ∨ c = 0x2C))
  else if t = asc "[ \\t]" then some (classRe fun c => decide (IsBlank c))
  else none

end Sample

open Sample in
/-- The assumption of the theorems is met. -/
theorem colorClasses_ex : ColorClasses colorRx (classRe fun c => decide (IsDigit c ∧ c ≠ 0x30)) (classRe fun c => decide (IsDigit c))
    (classRe fun c => decide (c = 0x20 ∨ c = 0x2C)) (classRe fun c => decide (IsBlank c)) :=
  ⟨rfl, rfl, rfl, rfl, classRe_finds fun c => by simp, classRe_finds fun c => by simp, classRe_finds fun c => by simp, classRe_finds fun c => by simp⟩

/-- Texts of the README, and a number that is too large. -/
theorem colorText_rgb : ColorText (asc "rgb(127, 49, 255)") 127 49 255 :=
  .rgb (w1 := []) (w2 := []) (d1 := asc "127") (c1 := asc ", ") (d2 := asc "49") (c2 := asc ", ") (d3 := asc "255") (w3 := []) (r := 127) (g := 49) (b := 255)
    (by unfold IsGap; decide) (by unfold IsGap; decide) ⟨⟨by unfold IsDigit; decide, _, _, rfl, by decide⟩, by decide, by decide⟩ (by unfold IsComma; decide)
    ⟨⟨by unfold IsDigit; decide, _, _, rfl, by decide⟩, by decide, by decide⟩ (by unfold IsComma; decide)
    ⟨⟨by unfold IsDigit; decide, _, _, rfl, by decide⟩, by decide, by decide⟩ (by unfold IsGap; decide)

theorem colorText_hsl : ColorText (asc "hsl(127, 49%, 82%)") 12 23 34 :=
  .hsl (w1 := []) (w2 := []) (d1 := asc "127") (w3 := []) (w4 := asc " ") (d2 := asc "49") (w5 := []) (w6 := asc " ") (d3 := asc "82") (w7 := []) (h := 127) (s := 49) (l := 82)
    (by unfold IsGap; decide) (by unfold IsGap; decide) ⟨⟨by unfold IsDigit; decide, _, _, rfl, by decide⟩, by decide, by decide⟩ (by unfold IsGap; decide) (by unfold IsGap; decide)
    ⟨⟨by unfold IsDigit; decide, _, _, rfl, by decide⟩, by decide, by decide⟩ (by unfold IsGap; decide) (by unfold IsGap; decide)
    ⟨⟨by unfold IsDigit; decide, _, _, rfl, by decide⟩, by decide, by decide⟩ (by unfold IsGap; decide)

theorem colorPanic_ex : ColorPanic (asc "rgb(1, 9223372036854775808 here") :=
  .rgb2 (w1 := []) (w2 := []) (d1 := asc "1") (c1 := asc ", ") (d := asc "9223372036854775808") (s := asc " here") (n1 := 1)
    (by unfold IsGap; decide) (by unfold IsGap; decide) ⟨⟨by unfold IsDigit; decide, _, _, rfl, by decide⟩, by decide, by decide⟩ (by unfold IsComma; decide)
    ⟨⟨by unfold IsDigit; decide, _, _, rfl, by decide⟩, by decide⟩

open Sample in
/-- README.md:427-431. -/
example (u : UserString) : ∃ r1 r2 rc rb, ColorClasses colorRx r1 r2 rc rb ∧
    LibGives colorRx (colorLines r1 r2 rc rb) (colorOps u) (asc "blue") (.ok (some (colorAst 0 0 255, []))) ∧
    LibGives colorRx (colorLines r1 r2 rc rb) (colorOps u) (asc "red") (.ok (some (colorAst 255 0 0, []))) ∧
    LibGives colorRx (colorLines r1 r2 rc rb) (colorOps u) (asc "green") (.ok (some (colorAst 0 255 0, []))) ∧
    LibGives colorRx (colorLines r1 r2 rc rb) (colorOps u) (asc "rgb(127, 49, 255)") (.ok (some (colorAst 127 49 255, []))) ∧
    LibGives colorRx (colorLines r1 r2 rc rb) (colorOps u) (asc "hsl(127, 49%, 82%)") (.ok (some (colorAst 12 23 34, []))) ∧
    LibGives colorRx (colorLines r1 r2 rc rb) (colorOps u) (asc "rgb(1, 9223372036854775808 here") (.error .notANumber) :=
  ⟨_, _, _, _, colorClasses_ex, (C69_colors colorClasses_ex u _ _).mpr ⟨_, _, _, .blue, rfl⟩, (C69_colors colorClasses_ex u _ _).mpr ⟨_, _, _, .red, rfl⟩,
    (C69_colors colorClasses_ex u _ _).mpr ⟨_, _, _, .green, rfl⟩, (C69_colors colorClasses_ex u _ _).mpr ⟨_, _, _, colorText_rgb, rfl⟩,
    (C69_colors colorClasses_ex u _ _).mpr ⟨_, _, _, colorText_hsl, rfl⟩, (C69_panics colorClasses_ex u _ _).mpr ⟨rfl, colorPanic_ex⟩⟩

open Sample in
/-- `purple` is an error. -/
example (u : UserString) : ∃ r1 r2 rc rb, ColorClasses colorRx r1 r2 rc rb ∧
    ∃ r, LibGives colorRx (colorLines r1 r2 rc rb) (colorOps u) (asc "purple") r ∧ (r = .ok none ∨ ∃ v rest, rest ≠ [] ∧ r = .ok (some (v, rest))) := by
  refine ⟨_, _, _, _, colorClasses_ex, C69_errors colorClasses_ex u _ ?_ ?_⟩
  · intro r g b h
    have : ∀ t r g b, ColorText t r g b → t.head? ≠ some 0x70 := by
      intro t r g b h
      cases h <;> (intro he; injection he with he; exact absurd he (by decide))
    exact this _ r g b h rfl
  · intro h
    have : ∀ t, ColorPanic t → t.head? ≠ some 0x70 := by
      intro t h
      cases h <;> (intro he; injection he with he; exact absurd he (by decide))
    exact this _ h rfl

end Joeson
