import Verif.Spec.Color
import Verif.Proofs.Invert
import Verif.Proofs.Readme
/-! # The color example: what the rules match -/

namespace Joeson
open RuleText hiding decimal
open Arith

/-- What the classes of the grammar find. -/
structure ColorFinds (r1 r2 rc rb : Regex) : Prop where
  /-- `[1-9]` -/
  first : FindsOne (fun c => IsDigit c ∧ c ≠ 0x30) r1
  /-- `[0-9]` -/
  digit : FindsOne IsDigit r2
  /-- `[ ,]` -/
  comma : FindsOne (fun c => c = 0x20 ∨ c = 0x2C) rc
  /-- `[ \t]` -/
  blank : FindsOne IsBlank rb

variable {u : UserString} {N d : Nat} {r1 r2 rc rb : Regex}

local notation "CL" => colorLines r1 r2 rc rb
local notation "Op" => colorOps u

theorem comma_vp (r : Regex) : (commaE r).vp = .rep "" (.re "" r) none 0 none := rfl
theorem colorName_vp : (colorNameE "red").vp = .lit "" [0x72, 0x65, 0x64] ∧ (colorNameE "green").vp = .lit "" [0x67, 0x72, 0x65, 0x65, 0x6E] ∧
    (colorNameE "blue").vp = .lit "" [0x62, 0x6C, 0x75, 0x65] := ⟨by kernel_rfl, by kernel_rfl, by kernel_rfl⟩

/-- The parts of `Rgb`. -/
def rgbItems : List VP := [.lit "" [0x72, 0x67, 0x62], .name "" "_" true, .lit "" [0x28], .name "" "_" true,
  .rep "" (.name "" "Integer" false) (some (.name "" "_COMMA" true)) 3 (some 3), .name "" "_" true, .lit "" [0x29]]

/-- The parts of `Hsl`. -/
def hslItems : List VP := [.lit "" [0x68, 0x73, 0x6C], .name "" "_" true, .lit "" [0x28], .name "" "HslTrio" false, .lit "" [0x29]]

/-- The parts of `HslTrio`. -/
def trioItems : List VP := [.name "" "_" true, .name "" "Integer" false, .name "" "_" true, .lit "" [0x2C], .name "" "_" true, .name "" "Integer" false, .lit "" [0x25], .name "" "_" true,
  .lit "" [0x2C], .name "" "_" true, .name "" "Integer" false, .lit "" [0x25], .name "" "_" true]

theorem rgb_vp : rgbE.vp = .seq "" rgbItems := by kernel_rfl
theorem hsl_vp : hslE.vp = .seq "" hslItems := by kernel_rfl
theorem trio_vp : trioE.vp = .seq "" trioItems := by kernel_rfl
theorem rgb_form : formOf rgbItems = .single := by kernel_rfl
theorem hsl_form : formOf hslItems = .single := by kernel_rfl
theorem trio_form : formOf trioItems = .array := by kernel_rfl

theorem color_rules (r1 r2 rc rb : Regex) : (rulesOf CL).map (·.1) = ["Color", "Rgb", "Hsl", "HslTrio", "Integer", "_COMMA", "_"] := rfl

theorem color_one : OneRule CL := oneRule_of (by rw [color_rules r1 r2 rc rb]; decide)

theorem mem_int : ("Integer", some 5, Body.text (gameIdE r1 r2)) ∈ rulesOf CL := by simp [colorLines, rulesOf, GLine.rules, Body.rules]
theorem mem_comma : ("_COMMA", none, Body.text (commaE rc)) ∈ rulesOf CL := by simp [colorLines, rulesOf, GLine.rules, Body.rules]
theorem mem_gap : ("_", none, Body.text (gapE rb)) ∈ rulesOf CL := by simp [colorLines, rulesOf, GLine.rules, Body.rules]
theorem mem_trio : ("HslTrio", none, Body.text trioE) ∈ rulesOf CL := by simp [colorLines, rulesOf, GLine.rules, Body.rules]

/-! ## The rules, forwards -/

theorem gap_yields (h : ColorFinds r1 r2 rc rb) {w s : Bytes} (hw : IsGap w) (hs : NoneOf IsBlank s) :
    Yields Op N CL (d + 1) (.part true (.name "" "_" true)) (w ++ s) (.ok (some (.arr (w.map fun b => .str [b]), s))) :=
  Yields.call (.inl rfl) mem_gap (Yields.rtext (cb := none) (gap_vp rb) (Yields.repCls h.blank (.inr rfl) hw hs))

theorem comma_yields (h : ColorFinds r1 r2 rc rb) {w s : Bytes} (hw : ∀ c ∈ w, c = 0x20 ∨ c = 0x2C) (hs : NoneOf (fun c => c = 0x20 ∨ c = 0x2C) s) :
    Yields Op N CL (d + 1) (.sep (some (.name "" "_COMMA" true))) (w ++ s) (.ok (some (.arr (w.map fun b => .str [b]), s))) :=
  .sepSome (Yields.call (.inr rfl) mem_comma (Yields.rtext (cb := none) (comma_vp rc) (Yields.repCls h.comma (.inr rfl) hw hs)))

theorem nativeInt_digits {c : UInt8} {l : Bytes} (hc : IsDigit c) (hl : ∀ x ∈ l, IsDigit x) :
    nativeIntFrom u (.arr [.str [c], .arr (l.map fun b => .str [b])]) = if decimal (c :: l) < 2 ^ 63 then .ok (.int (decimal (c :: l))) else .error .notANumber := by
  have h1 : Ast.concatArray u [.str [c], .arr (l.map fun b => .str [b])] = c :: l := by simp [Ast.concatArray, Ast.inArray, concat_bytes]
  have h2 := atoi_decimal (ds := c :: l) (by simp) (by simpa using ⟨hc, hl⟩)
  simp only [nativeIntFrom, newNativeIntFromString, h1, h2]
  by_cases h : decimal (c :: l) < 2 ^ 63
  · simp only [if_pos h]; rfl
  · simp only [if_neg h]; rfl

theorem digits_yields (h : ColorFinds r1 r2 rc rb) {c : UInt8} {ds : Bytes} (hc : IsDigit c ∧ c ≠ 0x30) (hds : ∀ x ∈ ds, IsDigit x) {s : Bytes} (hs : NoneOf IsDigit s) :
    Yields Op N CL d (.part false (gameIdE r1 r2).vp) (c :: ds ++ s) (.ok (some (.arr [.str [c], .arr (ds.map fun b => .str [b])], s))) := by
  rw [gameId_vp]
  refine Yields.bare (.inr rfl) (.seq ?_)
  have hf : formOf [VP.re "" r1, .rep "" (.re "" r2) none 0 none] = .array := rfl
  rw [hf]
  refine .itemsPut (Yields.pcls h.first (.inl rfl) hc _) rfl ?_
  refine .itemsPut (Yields.repCls h.digit (.inl rfl) hds hs) rfl ?_
  exact .itemsEnd rfl

theorem int_yields (h : ColorFinds r1 r2 rc rb) {b : Bool} {ds : Bytes} (hd : IsId ds) {s : Bytes} (hs : NoneOf IsDigit s) :
    Yields Op N CL (d + 1) (.part b (.name "" "Integer" false)) (ds ++ s) (if decimal ds < 2 ^ 63 then .ok (some (.int (decimal ds), s)) else .error .notANumber) := by
  obtain ⟨c, l, rfl, hc, hl⟩ := hd.split
  have := Yields.text (cb := some 5) (digits_yields (u := u) (N := N) (d := d) h hc hl hs)
  have hv : called Op N (some 5) (.ok (some (.arr [.str [c], .arr (l.map fun b => .str [b])], s))) = if decimal (c :: l) < 2 ^ 63 then .ok (some (.int (decimal (c :: l)), s)) else .error .notANumber := by
    simp only [called, colorOps, treePure, nativeInt_digits hc.1 hl]
    by_cases h : decimal (c :: l) < 2 ^ 63
    · simp only [if_pos h]; rfl
    · simp only [if_neg h]; rfl
  rw [hv] at this
  exact Yields.call (.inr rfl) mem_int this

theorem num_yields (h : ColorFinds r1 r2 rc rb) {b : Bool} {ds : Bytes} {n : Nat} (hd : IsNum ds n) {s : Bytes} (hs : NoneOf IsDigit s) :
    Yields Op N CL (d + 1) (.part b (.name "" "Integer" false)) (ds ++ s) (.ok (some (.int n, s))) := by
  obtain ⟨h1, rfl, h3⟩ := hd
  have := int_yields (u := u) (N := N) (d := d) (b := b) h h1 hs
  rwa [if_pos h3] at this

/-! ## The rules, backwards -/

theorem inv_gap (h : ColorFinds r1 r2 rc rb) {s s' : Bytes} {v : Ast} (hy : Yields Op N CL d (.part true (.name "" "_" true)) s (.ok (some (v, s')))) :
    ∃ w, s = w ++ s' ∧ IsGap w := by
  obtain ⟨d', r0, h1, h2⟩ := inv_text (gap_vp rb) (inv_call color_one (.inl rfl) mem_gap hy)
  obtain ⟨w, t, rfl, h3, _, rfl⟩ := inv_repCls color_one h.blank (.inr rfl) h1
  cases h2
  exact ⟨w, rfl, h3⟩

theorem inv_comma (h : ColorFinds r1 r2 rc rb) {s s' : Bytes} {v : Ast} (hy : Yields Op N CL d (.sep (some (.name "" "_COMMA" true))) s (.ok (some (v, s')))) :
    ∃ w, s = w ++ s' ∧ ∀ c ∈ w, c = 0x20 ∨ c = 0x2C := by
  cases hy with
  | sepSome hy =>
    obtain ⟨d', r0, h1, h2⟩ := inv_text (comma_vp rc) (inv_call color_one (.inr rfl) mem_comma hy)
    obtain ⟨w, t, rfl, h3, _, rfl⟩ := inv_repCls color_one h.comma (.inr rfl) h1
    cases h2
    exact ⟨w, rfl, h3⟩

theorem inv_digits (h : ColorFinds r1 r2 rc rb) {s s' : Bytes} {v : Ast} (hy : Yields Op N CL d (.part false (.seq "" [.re "" r1, .rep "" (.re "" r2) none 0 none])) s (.ok (some (v, s')))) :
    ∃ c l, s = c :: l ++ s' ∧ (IsDigit c ∧ c ≠ 0x30) ∧ (∀ x ∈ l, IsDigit x) ∧ NoneOf IsDigit s' ∧ v = .arr [.str [c], .arr (l.map fun b => .str [b])] := by
  obtain ⟨w1, s1, h4, h5⟩ := inv_item (inv_seq (.inr rfl) hy)
  obtain ⟨c, hc, rfl, rfl⟩ := inv_pcls h.first (.inl rfl) h4
  obtain ⟨w2, s2, h6, h7⟩ := inv_item h5
  obtain ⟨l, t, rfl, hl, ht, he⟩ := inv_repCls color_one h.digit (.inl rfl) h6
  cases he
  obtain ⟨rfl, h8⟩ := inv_itemsEnd h7
  exact ⟨c, l, rfl, hc, hl, ht, by cases h8; rfl⟩

theorem inv_num (h : ColorFinds r1 r2 rc rb) {b : Bool} {s s' : Bytes} {v : Ast} (hy : Yields Op N CL d (.part b (.name "" "Integer" false)) s (.ok (some (v, s')))) :
    ∃ ds n, s = ds ++ s' ∧ IsNum ds n ∧ NoneOf IsDigit s' ∧ v = .int n := by
  obtain ⟨d', r0, h1, h2⟩ := inv_text (gameId_vp r1 r2) (inv_call color_one (.inr rfl) mem_int hy)
  obtain ⟨v0, rfl, h3⟩ := inv_called_some h2
  obtain ⟨c, l, rfl, hc, hl, ht, rfl⟩ := inv_digits h h1
  have h9 : (nativeIntFrom u (.arr [.str [c], .arr (l.map fun b => .str [b])])).map some = .ok (some v) := h3
  rw [nativeInt_digits hc.1 hl] at h9
  by_cases hlt : decimal (c :: l) < 2 ^ 63
  · rw [if_pos hlt] at h9
    cases h9
    exact ⟨c :: l, _, rfl, ⟨⟨by simpa using ⟨hc.1, hl⟩, c, l, rfl, hc.2⟩, rfl, hlt⟩, ht, rfl⟩
  · rw [if_neg hlt] at h9
    cases h9

/-- After a number there is no other without something in between. -/
theorem comma_ne {w ds s : Bytes} (hd : IsId ds) (hn : NoneOf IsDigit (w ++ (ds ++ s))) : w ≠ [] := by
  rintro rfl
  obtain ⟨c, l, rfl, hc, _⟩ := hd.split
  exact hn c (l ++ s) rfl hc.1

theorem inv_rgbItems (h : ColorFinds r1 r2 rc rb) {s s' : Bytes} {v0 : Ast} (h1 : Yields Op N CL d (.part false (.seq "" rgbItems)) s (.ok (some (v0, s')))) :
    ∃ (n1 n2 n3 : Nat), v0 = .arr [.int n1, .int n2, .int n3] ∧ ∃ w1 w2 d1 c1 d2 c2 d3 w3, IsGap w1 ∧ IsGap w2 ∧ IsNum d1 n1 ∧ IsComma c1 ∧ IsNum d2 n2 ∧ IsComma c2 ∧ IsNum d3 n3 ∧ IsGap w3 ∧
      s = asc "rgb" ++ (w1 ++ (asc "(" ++ (w2 ++ (d1 ++ (c1 ++ (d2 ++ (c2 ++ (d3 ++ (w3 ++ (asc ")" ++ s')))))))))) := by
  have h4 := inv_seq (.inr rfl) h1
  rw [rgb_form] at h4
  obtain ⟨_, s1, p1, h4⟩ := inv_item h4
  obtain ⟨_, s2, p2, h4⟩ := inv_item h4
  obtain ⟨_, s3, p3, h4⟩ := inv_item h4
  obtain ⟨_, s4, p4, h4⟩ := inv_item h4
  obtain ⟨x, s5, p5, h4⟩ := inv_item h4
  obtain ⟨_, s6, p6, h4⟩ := inv_item h4
  obtain ⟨_, s7, p7, h4⟩ := inv_item h4
  obtain ⟨rfl, h5⟩ := inv_itemsEnd h4
  obtain ⟨rfl, _⟩ := inv_plit (.inl rfl) p1
  obtain ⟨w1, rfl, g1⟩ := inv_gap h p2
  obtain ⟨rfl, _⟩ := inv_plit (.inl rfl) p3
  obtain ⟨w2, rfl, g2⟩ := inv_gap h p4
  obtain ⟨x1, t1, q1, m1⟩ := inv_rep (.inl rfl) (by omega) p5
  obtain ⟨_, t2, x2, t3, e1, q2, m2⟩ := inv_more (by simp) m1
  obtain ⟨_, t4, x3, t5, e2, q3, m3⟩ := inv_more (by simp) m2
  obtain ⟨rfl, rfl⟩ := inv_full (by simp) m3
  obtain ⟨d1, n1, rfl, i1, o1, rfl⟩ := inv_num h q1
  obtain ⟨c1, rfl, j1⟩ := inv_comma h e1
  obtain ⟨d2, n2, rfl, i2, o2, rfl⟩ := inv_num h q2
  obtain ⟨c2, rfl, j2⟩ := inv_comma h e2
  obtain ⟨d3, n3, rfl, i3, o3, rfl⟩ := inv_num h q3
  obtain ⟨w3, rfl, g3⟩ := inv_gap h p6
  obtain ⟨rfl, _⟩ := inv_plit (.inl rfl) p7
  refine ⟨n1, n2, n3, by cases h5; rfl, w1, w2, d1, c1, d2, c2, d3, w3, g1, g2, i1, ⟨comma_ne i2.1 o1, j1⟩, i2, ⟨comma_ne i3.1 o2, j2⟩, i3, g3, rfl⟩

theorem inv_rgb (h : ColorFinds r1 r2 rc rb) {s : Bytes} {v : Ast} (hy : Yields Op N CL d (.rule (some 3) (.text rgbE)) s (.ok (some (v, [])))) :
    ∃ r g b, ColorText s r g b ∧ v = colorAst r g b := by
  obtain ⟨d', r0, h1, h2⟩ := inv_text rgb_vp hy
  obtain ⟨v0, rfl, h3⟩ := inv_called_some h2
  obtain ⟨n1, n2, n3, rfl, w1, w2, d1, c1, d2, c2, d3, w3, g1, g2, i1, j1, i2, j2, i3, g3, rfl⟩ := inv_rgbItems h h1
  refine ⟨n1, n2, n3, .rgb g1 g2 i1 j1 i2 j2 i3 g3, ?_⟩
  cases h3
  rfl

theorem inv_trio (h : ColorFinds r1 r2 rc rb) {s s' : Bytes} {v : Ast} (hy : Yields Op N CL d (.part true (.name "" "HslTrio" false)) s (.ok (some (v, s')))) :
    ∃ w2 d1 w3 w4 d2 w5 w6 d3 w7 n1 n2 n3, IsGap w2 ∧ IsNum d1 n1 ∧ IsGap w3 ∧ IsGap w4 ∧ IsNum d2 n2 ∧ IsGap w5 ∧ IsGap w6 ∧ IsNum d3 n3 ∧ IsGap w7 ∧
      s = w2 ++ (d1 ++ (w3 ++ ([0x2C] ++ (w4 ++ (d2 ++ ([0x25] ++ (w5 ++ ([0x2C] ++ (w6 ++ (d3 ++ ([0x25] ++ (w7 ++ s')))))))))))) ∧ v = .arr [.int n1, .int n2, .int n3] := by
  obtain ⟨d', r0, h1, h2⟩ := inv_text trio_vp (inv_call color_one (.inl rfl) mem_trio hy)
  obtain rfl := inv_called_none h2
  have h4 := inv_seq (.inr rfl) h1
  rw [trio_form] at h4
  obtain ⟨_, s1, p1, h4⟩ := inv_item h4
  obtain ⟨_, s2, p2, h4⟩ := inv_item h4
  obtain ⟨_, s3, p3, h4⟩ := inv_item h4
  obtain ⟨_, s4, p4, h4⟩ := inv_item h4
  obtain ⟨_, s5, p5, h4⟩ := inv_item h4
  obtain ⟨_, s6, p6, h4⟩ := inv_item h4
  obtain ⟨_, s7, p7, h4⟩ := inv_item h4
  obtain ⟨_, s8, p8, h4⟩ := inv_item h4
  obtain ⟨_, s9, p9, h4⟩ := inv_item h4
  obtain ⟨_, s10, p10, h4⟩ := inv_item h4
  obtain ⟨_, s11, p11, h4⟩ := inv_item h4
  obtain ⟨_, s12, p12, h4⟩ := inv_item h4
  obtain ⟨_, s13, p13, h4⟩ := inv_item h4
  obtain ⟨rfl, h5⟩ := inv_itemsEnd h4
  obtain ⟨w2, rfl, g2⟩ := inv_gap h p1
  obtain ⟨d1, n1, rfl, i1, _, rfl⟩ := inv_num h p2
  obtain ⟨w3, rfl, g3⟩ := inv_gap h p3
  obtain ⟨rfl, _⟩ := inv_plit (.inl rfl) p4
  obtain ⟨w4, rfl, g4⟩ := inv_gap h p5
  obtain ⟨d2, n2, rfl, i2, _, rfl⟩ := inv_num h p6
  obtain ⟨rfl, _⟩ := inv_plit (.inl rfl) p7
  obtain ⟨w5, rfl, g5⟩ := inv_gap h p8
  obtain ⟨rfl, _⟩ := inv_plit (.inl rfl) p9
  obtain ⟨w6, rfl, g6⟩ := inv_gap h p10
  obtain ⟨d3, n3, rfl, i3, _, rfl⟩ := inv_num h p11
  obtain ⟨rfl, _⟩ := inv_plit (.inl rfl) p12
  obtain ⟨w7, rfl, g7⟩ := inv_gap h p13
  refine ⟨w2, d1, w3, w4, d2, w5, w6, d3, w7, n1, n2, n3, g2, i1, g3, g4, i2, g5, g6, i3, g7, rfl, ?_⟩
  cases h5
  rfl

theorem inv_hsl (h : ColorFinds r1 r2 rc rb) {s : Bytes} {v : Ast} (hy : Yields Op N CL d (.rule (some 4) (.text hslE)) s (.ok (some (v, [])))) :
    ∃ r g b, ColorText s r g b ∧ v = colorAst r g b := by
  obtain ⟨d', r0, h1, h2⟩ := inv_text hsl_vp hy
  obtain ⟨v0, rfl, h3⟩ := inv_called_some h2
  have h4 := inv_seq (.inr rfl) h1
  rw [hsl_form] at h4
  obtain ⟨_, s1, p1, h4⟩ := inv_item h4
  obtain ⟨_, s2, p2, h4⟩ := inv_item h4
  obtain ⟨_, s3, p3, h4⟩ := inv_item h4
  obtain ⟨x, s4, p4, h4⟩ := inv_item h4
  obtain ⟨_, s5, p5, h4⟩ := inv_item h4
  obtain ⟨rfl, h5⟩ := inv_itemsEnd h4
  obtain ⟨rfl, _⟩ := inv_plit (.inl rfl) p1
  obtain ⟨w1, rfl, g1⟩ := inv_gap h p2
  obtain ⟨rfl, _⟩ := inv_plit (.inl rfl) p3
  obtain ⟨w2, d1, w3, w4, d2, w5, w6, d3, w7, n1, n2, n3, g2, i1, g3, g4, i2, g5, g6, i3, g7, rfl, rfl⟩ := inv_trio h p4
  obtain ⟨rfl, _⟩ := inv_plit (.inl rfl) p5
  have hv : v0 = .arr [.int n1, .int n2, .int n3] := by cases h5; rfl
  subst hv
  refine ⟨12, 23, 34, .hsl g1 g2 i1 g3 g4 i2 g5 g6 i3 g7, ?_⟩
  cases h3
  rfl

theorem inv_colorName {c : Nat} {e : Expr} {t s : Bytes} {v : Ast} (he : e.vp = .lit "" t) (hy : Yields Op N CL d (.rule (some c) (.text e)) s (.ok (some (v, [])))) :
    s = t ∧ (Op).cb c (.str t) N = .ok (some v) := by
  obtain ⟨d', r0, h1, h2⟩ := inv_text he hy
  obtain ⟨v0, rfl, h3⟩ := inv_called_some h2
  obtain ⟨h4, rfl⟩ := inv_plit (.inr rfl) h1
  exact ⟨by simpa using h4, h3⟩

theorem inv_color (h : ColorFinds r1 r2 rc rb) {s : Bytes} {v : Ast} (hy : Yields Op N CL d (.lines CL) s (.ok (some (v, [])))) :
    ∃ r g b, ColorText s r g b ∧ v = colorAst r g b := by
  rcases inv_line hy with hy | ⟨_, hy⟩
  · obtain ⟨d', r0, hy, h2⟩ := inv_rank hy
    obtain rfl := inv_called_none h2
    rcases inv_line hy with hy | ⟨_, hy⟩
    · obtain ⟨rfl, h3⟩ := inv_colorName colorName_vp.1 hy
      cases h3
      exact ⟨255, 0, 0, .red, rfl⟩
    rcases inv_line hy with hy | ⟨_, hy⟩
    · obtain ⟨rfl, h3⟩ := inv_colorName colorName_vp.2.1 hy
      cases h3
      exact ⟨0, 255, 0, .green, rfl⟩
    rcases inv_line hy with hy | ⟨_, hy⟩
    · obtain ⟨rfl, h3⟩ := inv_colorName colorName_vp.2.2 hy
      cases h3
      exact ⟨0, 0, 255, .blue, rfl⟩
    rcases inv_line hy with hy | ⟨_, hy⟩
    · exact inv_rgb h hy
    rcases inv_line hy with hy | ⟨_, hy⟩
    · exact inv_hsl h hy
    cases inv_linesEnd (inv_incl hy)
  · cases inv_linesEnd (inv_incl (inv_incl (inv_incl hy)))

/-! ## The texts, forwards -/

theorem noneOf_cons {C : UInt8 → Prop} {c : UInt8} {s : Bytes} (h : ¬ C c) : NoneOf C (c :: s) := fun _ _ he => by cases he; exact h

theorem noneOf_append {C : UInt8 → Prop} {w s : Bytes} (hw : ∀ c ∈ w, ¬ C c) (hs : NoneOf C s) : NoneOf C (w ++ s) := by
  cases w with
  | nil => exact hs
  | cons c w => exact noneOf_cons (hw c (List.mem_cons_self ..))

theorem noneOf_id {C : UInt8 → Prop} (hC : ∀ c, C c → ¬ IsDigit c) {ds s : Bytes} (hd : IsId ds) : NoneOf C (ds ++ s) := by
  obtain ⟨c, l, rfl, hc, _⟩ := hd.split
  exact noneOf_cons fun h => hC _ h hc.1

theorem blank_digit (c : UInt8) (h : IsBlank c) : ¬ IsDigit c := by
  unfold IsBlank at h
  unfold IsDigit
  rcases h with rfl | rfl <;> decide

theorem comma_digit (c : UInt8) (h : c = 0x20 ∨ c = 0x2C) : ¬ IsDigit c := by
  unfold IsDigit
  rcases h with rfl | rfl <;> decide

theorem not_blank {c : UInt8} (h : c = 0x28 ∨ c = 0x29 ∨ c = 0x2C ∨ c = 0x25) : ¬ IsBlank c := by
  unfold IsBlank
  rcases h with rfl | rfl | rfl | rfl <;> decide

theorem not_digit {c : UInt8} (h : c = 0x28 ∨ c = 0x29 ∨ c = 0x2C ∨ c = 0x25) : ¬ IsDigit c := by
  unfold IsDigit
  rcases h with rfl | rfl | rfl | rfl <;> decide

theorem noneOf_comma {w s : Bytes} (h : IsComma w) : NoneOf IsDigit (w ++ s) := by
  obtain ⟨hne, hw⟩ := h
  cases w with
  | nil => exact absurd rfl hne
  | cons c w => exact noneOf_cons (comma_digit c (hw c (List.mem_cons_self ..)))

theorem room3 {n : Nat} (h : n < 3) : Room (some 3) n := fun m hm => by cases hm; exact h

theorem rgb_yields (h : ColorFinds r1 r2 rc rb) {w1 w2 d1 c1 d2 c2 d3 w3 : Bytes} {r g b : Nat} (g1 : IsGap w1) (g2 : IsGap w2) (i1 : IsNum d1 r) (j1 : IsComma c1)
    (i2 : IsNum d2 g) (j2 : IsComma c2) (i3 : IsNum d3 b) (g3 : IsGap w3) :
    Yields Op N CL (d + 2) (.rule (some 3) (.text rgbE)) (asc "rgb" ++ (w1 ++ (asc "(" ++ (w2 ++ (d1 ++ (c1 ++ (d2 ++ (c2 ++ (d3 ++ (w3 ++ asc ")"))))))))))
      (.ok (some (colorAst r g b, []))) := by
  have hv : called Op N (some 3) (.ok (some (.arr [.int r, .int g, .int b], []))) = .ok (some (colorAst r g b, [])) := rfl
  rw [← hv]
  refine Yields.rtext rgb_vp (Yields.bare (.inr rfl) (.seq ?_))
  rw [rgb_form]
  have hrep : Yields Op N CL (d + 1) (.part true (.rep "" (.name "" "Integer" false) (some (.name "" "_COMMA" true)) 3 (some 3)))
      (d1 ++ (c1 ++ (d2 ++ (c2 ++ (d3 ++ (w3 ++ asc ")")))))) (.ok (some (.arr [.int r, .int g, .int b], w3 ++ asc ")"))) := by
    refine Yields.bare (.inl rfl) (.rep (num_yields h i1 (noneOf_comma j1)) ?_)
    refine .more (room3 (by simp)) (comma_yields h j1.2 (noneOf_id comma_digit i2.1)) (num_yields h i2 (noneOf_comma j2)) ?_
    refine .more (room3 (by simp)) (comma_yields h j2.2 (noneOf_id comma_digit i3.1))
      (num_yields h i3 (noneOf_append (fun c hc => blank_digit c (g3 c hc)) (noneOf_cons (not_digit (.inr (.inl rfl)))))) ?_
    exact .full (fun hr => absurd (hr 3 rfl) (by simp))
  refine .itemsPut (Yields.plit (b := [0x72, 0x67, 0x62])) rfl ?_
  refine .itemsPut (gap_yields h g1 (noneOf_cons (not_blank (.inl rfl)))) rfl ?_
  refine .itemsPut (Yields.plit (b := [0x28])) rfl ?_
  refine .itemsPut (gap_yields h g2 (noneOf_id blank_digit i1.1)) rfl ?_
  refine .itemsPut hrep rfl ?_
  refine .itemsPut (gap_yields h g3 (noneOf_cons (not_blank (.inr (.inl rfl))))) rfl ?_
  refine .itemsPut (Yields.plit (b := [0x29]) (s := [])) rfl ?_
  exact .itemsEnd rfl

theorem noneOf_gap {C : UInt8 → Prop} (hC : ∀ c, IsBlank c → ¬ C c) {w s : Bytes} (h : IsGap w) (hs : NoneOf C s) : NoneOf C (w ++ s) :=
  noneOf_append (fun c hc => hC c (h c hc)) hs

theorem hsl_yields (h : ColorFinds r1 r2 rc rb) {w1 w2 d1 w3 w4 d2 w5 w6 d3 w7 : Bytes} {n1 n2 n3 : Nat} (g1 : IsGap w1) (g2 : IsGap w2) (i1 : IsNum d1 n1) (g3 : IsGap w3) (g4 : IsGap w4)
    (i2 : IsNum d2 n2) (g5 : IsGap w5) (g6 : IsGap w6) (i3 : IsNum d3 n3) (g7 : IsGap w7) :
    Yields Op N CL (d + 3) (.rule (some 4) (.text hslE))
      (asc "hsl" ++ (w1 ++ (asc "(" ++ (w2 ++ (d1 ++ (w3 ++ (asc "," ++ (w4 ++ (d2 ++ (asc "%" ++ (w5 ++ (asc "," ++ (w6 ++ (d3 ++ (asc "%" ++ (w7 ++ asc ")"))))))))))))))))
      (.ok (some (colorAst 12 23 34, []))) := by
  have hv : called Op N (some 4) (.ok (some (.arr [.int n1, .int n2, .int n3], []))) = .ok (some (colorAst 12 23 34, [])) := rfl
  rw [← hv]
  refine Yields.rtext hsl_vp (Yields.bare (.inr rfl) (.seq ?_))
  rw [hsl_form]
  have htrio : Yields Op N CL (d + 2) (.part true (.name "" "HslTrio" false))
      (w2 ++ (d1 ++ (w3 ++ (asc "," ++ (w4 ++ (d2 ++ (asc "%" ++ (w5 ++ (asc "," ++ (w6 ++ (d3 ++ (asc "%" ++ (w7 ++ asc ")"))))))))))))) (.ok (some (.arr [.int n1, .int n2, .int n3], asc ")"))) := by
    refine Yields.call (.inl rfl) mem_trio (Yields.rtext (cb := none) (r := .ok (some (Ast.arr [.int n1, .int n2, .int n3], asc ")"))) trio_vp (Yields.bare (.inr rfl) (.seq ?_)))
    rw [trio_form]
    have cb : ∀ {s : Bytes}, NoneOf IsBlank (asc "," ++ s) := noneOf_cons (not_blank (.inr (.inr (.inl rfl))))
    have cd : ∀ {s : Bytes}, NoneOf IsDigit (asc "," ++ s) := noneOf_cons (not_digit (.inr (.inr (.inl rfl))))
    have pd : ∀ {s : Bytes}, NoneOf IsDigit (asc "%" ++ s) := noneOf_cons (not_digit (.inr (.inr (.inr rfl))))
    refine .itemsPut (gap_yields h g2 (noneOf_id blank_digit i1.1)) rfl ?_
    refine .itemsPut (num_yields h i1 (noneOf_gap blank_digit g3 cd)) rfl ?_
    refine .itemsPut (gap_yields h g3 cb) rfl ?_
    refine .itemsPut (Yields.plit (b := [0x2C])) rfl ?_
    refine .itemsPut (gap_yields h g4 (noneOf_id blank_digit i2.1)) rfl ?_
    refine .itemsPut (num_yields h i2 pd) rfl ?_
    refine .itemsPut (Yields.plit (b := [0x25])) rfl ?_
    refine .itemsPut (gap_yields h g5 cb) rfl ?_
    refine .itemsPut (Yields.plit (b := [0x2C])) rfl ?_
    refine .itemsPut (gap_yields h g6 (noneOf_id blank_digit i3.1)) rfl ?_
    refine .itemsPut (num_yields h i3 pd) rfl ?_
    refine .itemsPut (Yields.plit (b := [0x25])) rfl ?_
    refine .itemsPut (gap_yields h g7 (noneOf_cons (not_blank (.inr (.inl rfl))))) rfl ?_
    exact .itemsEnd rfl
  refine .itemsPut (Yields.plit (b := [0x68, 0x73, 0x6C])) rfl ?_
  refine .itemsPut (gap_yields h g1 (noneOf_cons (not_blank (.inl rfl)))) rfl ?_
  refine .itemsPut (Yields.plit (b := [0x28])) rfl ?_
  refine .itemsPut htrio rfl ?_
  refine .itemsPut (Yields.plit (b := [0x29]) (s := [])) rfl ?_
  exact .itemsEnd rfl

theorem name_miss {c : Nat} {e : Expr} {t s : Bytes} (he : e.vp = .lit "" t) (hs : ∀ s', s ≠ t ++ s') : Yields Op N CL (d + 1) (.rule (some c) (.text e)) s (.ok none) :=
  Yields.rtext (r := .ok none) he (Yields.plitMiss hs)

theorem rgb_miss {s : Bytes} (hs : ∀ s', s ≠ [0x72, 0x67, 0x62] ++ s') : Yields Op N CL (d + 1) (.rule (some 3) (.text rgbE)) s (.ok none) :=
  Yields.rtext (r := .ok none) rgb_vp (Yields.bare (.inr rfl) (.seq (.itemsMiss (Yields.plitMiss hs))))

theorem color_yields (h : ColorFinds r1 r2 rc rb) {s : Bytes} {r g b : Int} (ht : ColorText s r g b) :
    Yields Op N CL (d + 4) (.lines CL) s (.ok (some (colorAst r g b, []))) := by
  refine .altDone (Yields.rank (cb := none) (r := .ok (some (colorAst r g b, []))) ?_) (by simp [called])
  have hn := colorName_vp
  cases ht with
  | red => exact .altDone (Yields.rtext (r := .ok (some (.str (asc "red"), []))) hn.1 (Yields.plit (b := [0x72, 0x65, 0x64]) (s := []))) (by simp [called, colorOps, treePure, Except.map])
  | green =>
    refine .altMiss (name_miss hn.1 fun s' he => by injection he with h1 _; exact absurd h1 (by decide)) ?_
    exact .altDone (Yields.rtext (r := .ok (some (.str (asc "green"), []))) hn.2.1 (Yields.plit (b := [0x67, 0x72, 0x65, 0x65, 0x6E]) (s := []))) (by simp [called, colorOps, treePure, Except.map])
  | blue =>
    refine .altMiss (name_miss hn.1 fun s' he => by injection he with h1 _; exact absurd h1 (by decide)) ?_
    refine .altMiss (name_miss hn.2.1 fun s' he => by injection he with h1 _; exact absurd h1 (by decide)) ?_
    exact .altDone (Yields.rtext (r := .ok (some (.str (asc "blue"), []))) hn.2.2 (Yields.plit (b := [0x62, 0x6C, 0x75, 0x65]) (s := []))) (by simp [called, colorOps, treePure, Except.map])
  | rgb g1 g2 i1 j1 i2 j2 i3 g3 =>
    refine .altMiss (name_miss hn.1 fun s' he => by injection he with _ he; injection he with h1 _; exact absurd h1 (by decide)) ?_
    refine .altMiss (name_miss hn.2.1 fun s' he => by injection he with h1 _; exact absurd h1 (by decide)) ?_
    refine .altMiss (name_miss hn.2.2 fun s' he => by injection he with h1 _; exact absurd h1 (by decide)) ?_
    exact .altDone (rgb_yields h g1 g2 i1 j1 i2 j2 i3 g3) (by simp)
  | hsl g1 g2 i1 g3 g4 i2 g5 g6 i3 g7 =>
    refine .altMiss (name_miss hn.1 fun s' he => by injection he with h1 _; exact absurd h1 (by decide)) ?_
    refine .altMiss (name_miss hn.2.1 fun s' he => by injection he with h1 _; exact absurd h1 (by decide)) ?_
    refine .altMiss (name_miss hn.2.2 fun s' he => by injection he with h1 _; exact absurd h1 (by decide)) ?_
    refine .altMiss (rgb_miss fun s' he => by injection he with h1 _; exact absurd h1 (by decide)) ?_
    exact .altDone (hsl_yields h g1 g2 i1 g3 g4 i2 g5 g6 i3 g7) (by simp)

end Joeson
