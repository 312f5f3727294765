import Verif.Proofs.Color
import Verif.Proofs.Readme2
/-! # The color example: where it panics -/

namespace Joeson
open RuleText hiding decimal
open Arith

variable {u : UserString} {N d : Nat} {r1 r2 rc rb : Regex}

local notation "CL" => colorLines r1 r2 rc rb
local notation "Op" => colorOps u

theorem big_yields (h : ColorFinds r1 r2 rc rb) {b : Bool} {ds : Bytes} (hd : IsBig ds) {s : Bytes} :
    Yields Op N CL (d + 1) (.part b (.name "" "Integer" false)) (ds ++ s) (.error .notANumber) := by
  obtain ⟨x, t, rfl, hx, ht⟩ := greedy IsDigit s
  have := int_yields (u := u) (N := N) (d := d) (b := b) h (isId_append hd.1 hx) ht
  rw [if_neg (Nat.not_lt.mpr (Nat.le_trans hd.2 (decimal_prefix ds x)))] at this
  rwa [← List.append_assoc]

theorem inv_big (h : ColorFinds r1 r2 rc rb) {b : Bool} {s : Bytes} {x : Panic} (hy : Yields Op N CL d (.part b (.name "" "Integer" false)) s (.error x)) :
    x = .notANumber ∧ ∃ ds s', s = ds ++ s' ∧ IsBig ds := by
  obtain ⟨d', r0, h1, h2⟩ := inv_text (gameId_vp r1 r2) (inv_call color_one (.inr rfl) mem_int hy)
  rcases inv_called_error h2 with rfl | ⟨c, v0, s', hc, rfl, h3⟩
  · rcases inv_item_error (by intro h; cases h) (inv_seq (.inr rfl) h1) with h4 | ⟨w, s1, _, h4⟩
    · have := inv_bare (.inl rfl) h4
      generalize hr : Except.error x = r at this
      cases this <;> cases hr
    · rcases inv_item_error (by intro h; cases h) h4 with h4 | ⟨w, s1, _, h4⟩
      · obtain ⟨_, _, _, _, _, he⟩ := inv_repCls color_one h.digit (.inl rfl) h4
        cases he
      · exact (inv_items_error_end h4).elim
  · cases hc
    obtain ⟨c, l, rfl, hc, hl, ht, rfl⟩ := inv_digits h h1
    have h9 : (nativeIntFrom u (.arr [.str [c], .arr (l.map fun b => .str [b])])).map some = .error x := h3
    rw [nativeInt_digits hc.1 hl] at h9
    by_cases hlt : decimal (c :: l) < 2 ^ 63
    · rw [if_pos hlt] at h9
      cases h9
    · rw [if_neg hlt] at h9
      cases h9
      exact ⟨rfl, c :: l, s', rfl, ⟨by simpa using ⟨hc.1, hl⟩, c, l, rfl, hc.2⟩, Nat.not_lt.mp hlt⟩

theorem inv_gap_error (h : ColorFinds r1 r2 rc rb) {s : Bytes} {x : Panic} (hy : Yields Op N CL d (.part true (.name "" "_" true)) s (.error x)) : False := by
  obtain ⟨d', r0, h1, h2⟩ := inv_text (gap_vp rb) (inv_call color_one (.inl rfl) mem_gap hy)
  obtain ⟨w, t, rfl, h3, _, rfl⟩ := inv_repCls color_one h.blank (.inr rfl) h1
  cases h2

theorem inv_comma_error (h : ColorFinds r1 r2 rc rb) {s : Bytes} {x : Panic} (hy : Yields Op N CL d (.sep (some (.name "" "_COMMA" true))) s (.error x)) : False := by
  cases hy with
  | sepSome hy =>
    obtain ⟨d', r0, h1, h2⟩ := inv_text (comma_vp rc) (inv_call color_one (.inr rfl) mem_comma hy)
    obtain ⟨w, t, rfl, h3, _, rfl⟩ := inv_repCls color_one h.comma (.inr rfl) h1
    cases h2

theorem inv_rgb_error (h : ColorFinds r1 r2 rc rb) {s : Bytes} {x : Panic} (hy : Yields Op N CL d (.rule (some 3) (.text rgbE)) s (.error x)) : x = .notANumber ∧ ColorPanic s := by
  obtain ⟨d', r0, h1, h2⟩ := inv_text rgb_vp hy
  rcases inv_called_error h2 with rfl | ⟨c, v0, s', hc, rfl, h3⟩
  · have a0 := inv_seq (.inr rfl) h1
    rw [rgb_form] at a0
    have ns : Form.single ≠ .object := by intro h; cases h
    rcases inv_item_error ns a0 with p1 | ⟨_, s1, p1, a1⟩
    · exact (inv_plit_error (.inl rfl) p1).elim
    rcases inv_item_error ns a1 with p2 | ⟨_, s2, p2, a2⟩
    · exact (inv_gap_error h p2).elim
    rcases inv_item_error ns a2 with p3 | ⟨_, s3, p3, a3⟩
    · exact (inv_plit_error (.inl rfl) p3).elim
    rcases inv_item_error ns a3 with p4 | ⟨_, s4, p4, a4⟩
    · exact (inv_gap_error h p4).elim
    obtain ⟨rfl, _⟩ := inv_plit (.inl rfl) p1
    obtain ⟨w1, rfl, g1⟩ := inv_gap h p2
    obtain ⟨rfl, _⟩ := inv_plit (.inl rfl) p3
    obtain ⟨w2, rfl, g2⟩ := inv_gap h p4
    rcases inv_item_error ns a4 with p5 | ⟨_, s5, p5, a5⟩
    · rcases inv_rep_error (.inl rfl) p5 with q1 | ⟨x1, t1, q1, m1⟩
      · obtain ⟨rfl, ds, s', rfl, hb⟩ := inv_big h q1
        exact ⟨rfl, .rgb1 g1 g2 hb⟩
      obtain ⟨d1, n1, rfl, i1, o1, rfl⟩ := inv_num h q1
      obtain ⟨_, e1 | ⟨_, t2, e1, q2 | ⟨x2, t3, q2, m2⟩⟩⟩ := inv_more_error m1
      · exact (inv_comma_error h e1).elim
      · obtain ⟨c1, rfl, j1⟩ := inv_comma h e1
        obtain ⟨rfl, ds, s', rfl, hb⟩ := inv_big h q2
        exact ⟨rfl, .rgb2 g1 g2 i1 ⟨comma_ne hb.1 o1, j1⟩ hb⟩
      obtain ⟨c1, rfl, j1⟩ := inv_comma h e1
      obtain ⟨d2, n2, rfl, i2, o2, rfl⟩ := inv_num h q2
      obtain ⟨_, e2 | ⟨_, t4, e2, q3 | ⟨x3, t5, q3, m3⟩⟩⟩ := inv_more_error m2
      · exact (inv_comma_error h e2).elim
      · obtain ⟨c2, rfl, j2⟩ := inv_comma h e2
        obtain ⟨rfl, ds, s', rfl, hb⟩ := inv_big h q3
        exact ⟨rfl, .rgb3 g1 g2 i1 ⟨comma_ne i2.1 o1, j1⟩ i2 ⟨comma_ne hb.1 o2, j2⟩ hb⟩
      · obtain ⟨hr, _⟩ := inv_more_error m3
        exact absurd (hr 3 rfl) (by simp)
    rcases inv_item_error ns a5 with p6 | ⟨_, s6, p6, a6⟩
    · exact (inv_gap_error h p6).elim
    rcases inv_item_error ns a6 with p7 | ⟨_, s7, p7, a7⟩
    · exact (inv_plit_error (.inl rfl) p7).elim
    exact (inv_items_error_end a7).elim
  · cases hc
    obtain ⟨n1, n2, n3, rfl, _⟩ := inv_rgbItems h h1
    cases h3

theorem inv_trio_error (h : ColorFinds r1 r2 rc rb) {s : Bytes} {x : Panic} (hy : Yields Op N CL d (.part true (.name "" "HslTrio" false)) s (.error x)) :
    x = .notANumber ∧ ∃ w2, IsGap w2 ∧ ((∃ ds s', IsBig ds ∧ s = w2 ++ (ds ++ s')) ∨
      ∃ d1 n1 w3 w4, IsNum d1 n1 ∧ IsGap w3 ∧ IsGap w4 ∧ ((∃ ds s', IsBig ds ∧ s = w2 ++ (d1 ++ (w3 ++ ([0x2C] ++ (w4 ++ (ds ++ s')))))) ∨
        ∃ d2 n2 w5 w6 ds s', IsNum d2 n2 ∧ IsGap w5 ∧ IsGap w6 ∧ IsBig ds ∧ s = w2 ++ (d1 ++ (w3 ++ ([0x2C] ++ (w4 ++ (d2 ++ ([0x25] ++ (w5 ++ ([0x2C] ++ (w6 ++ (ds ++ s')))))))))))) := by
  obtain ⟨d', r0, h1, h2⟩ := inv_text trio_vp (inv_call color_one (.inl rfl) mem_trio hy)
  rcases inv_called_error h2 with rfl | ⟨c, v0, s', hc, rfl, h3⟩
  · have a0 := inv_seq (.inr rfl) h1
    rw [trio_form] at a0
    have ns : Form.array ≠ .object := by intro h; cases h
    rcases inv_item_error ns a0 with p1 | ⟨_, s1, p1, a1⟩
    · exact (inv_gap_error h p1).elim
    obtain ⟨w2, rfl, g2⟩ := inv_gap h p1
    rcases inv_item_error ns a1 with p2 | ⟨_, s2, p2, a2⟩
    · obtain ⟨rfl, ds, s', rfl, hb⟩ := inv_big h p2
      exact ⟨rfl, w2, g2, .inl ⟨ds, s', hb, rfl⟩⟩
    obtain ⟨d1, n1, rfl, i1, _, rfl⟩ := inv_num h p2
    rcases inv_item_error ns a2 with p3 | ⟨_, s3, p3, a3⟩
    · exact (inv_gap_error h p3).elim
    obtain ⟨w3, rfl, g3⟩ := inv_gap h p3
    rcases inv_item_error ns a3 with p4 | ⟨_, s4, p4, a4⟩
    · exact (inv_plit_error (.inl rfl) p4).elim
    obtain ⟨rfl, _⟩ := inv_plit (.inl rfl) p4
    rcases inv_item_error ns a4 with p5 | ⟨_, s5, p5, a5⟩
    · exact (inv_gap_error h p5).elim
    obtain ⟨w4, rfl, g4⟩ := inv_gap h p5
    rcases inv_item_error ns a5 with p6 | ⟨_, s6, p6, a6⟩
    · obtain ⟨rfl, ds, s', rfl, hb⟩ := inv_big h p6
      exact ⟨rfl, w2, g2, .inr ⟨d1, n1, w3, w4, i1, g3, g4, .inl ⟨ds, s', hb, rfl⟩⟩⟩
    obtain ⟨d2, n2, rfl, i2, _, rfl⟩ := inv_num h p6
    rcases inv_item_error ns a6 with p7 | ⟨_, s7, p7, a7⟩
    · exact (inv_plit_error (.inl rfl) p7).elim
    obtain ⟨rfl, _⟩ := inv_plit (.inl rfl) p7
    rcases inv_item_error ns a7 with p8 | ⟨_, s8, p8, a8⟩
    · exact (inv_gap_error h p8).elim
    obtain ⟨w5, rfl, g5⟩ := inv_gap h p8
    rcases inv_item_error ns a8 with p9 | ⟨_, s9, p9, a9⟩
    · exact (inv_plit_error (.inl rfl) p9).elim
    obtain ⟨rfl, _⟩ := inv_plit (.inl rfl) p9
    rcases inv_item_error ns a9 with p10 | ⟨_, s10, p10, a10⟩
    · exact (inv_gap_error h p10).elim
    obtain ⟨w6, rfl, g6⟩ := inv_gap h p10
    rcases inv_item_error ns a10 with p11 | ⟨_, s11, p11, a11⟩
    · obtain ⟨rfl, ds, s', rfl, hb⟩ := inv_big h p11
      exact ⟨rfl, w2, g2, .inr ⟨d1, n1, w3, w4, i1, g3, g4, .inr ⟨d2, n2, w5, w6, ds, s', i2, g5, g6, hb, rfl⟩⟩⟩
    rcases inv_item_error ns a11 with p12 | ⟨_, s12, p12, a12⟩
    · exact (inv_plit_error (.inl rfl) p12).elim
    rcases inv_item_error ns a12 with p13 | ⟨_, s13, p13, a13⟩
    · exact (inv_gap_error h p13).elim
    exact (inv_items_error_end a13).elim
  · cases hc

theorem inv_hsl_error (h : ColorFinds r1 r2 rc rb) {s : Bytes} {x : Panic} (hy : Yields Op N CL d (.rule (some 4) (.text hslE)) s (.error x)) : x = .notANumber ∧ ColorPanic s := by
  obtain ⟨d', r0, h1, h2⟩ := inv_text hsl_vp hy
  rcases inv_called_error h2 with rfl | ⟨c, v0, s', hc, rfl, h3⟩
  · have a0 := inv_seq (.inr rfl) h1
    rw [hsl_form] at a0
    have ns : Form.single ≠ .object := by intro h; cases h
    rcases inv_item_error ns a0 with p1 | ⟨_, s1, p1, a1⟩
    · exact (inv_plit_error (.inl rfl) p1).elim
    rcases inv_item_error ns a1 with p2 | ⟨_, s2, p2, a2⟩
    · exact (inv_gap_error h p2).elim
    rcases inv_item_error ns a2 with p3 | ⟨_, s3, p3, a3⟩
    · exact (inv_plit_error (.inl rfl) p3).elim
    obtain ⟨rfl, _⟩ := inv_plit (.inl rfl) p1
    obtain ⟨w1, rfl, g1⟩ := inv_gap h p2
    obtain ⟨rfl, _⟩ := inv_plit (.inl rfl) p3
    rcases inv_item_error ns a3 with p4 | ⟨_, s4, p4, a4⟩
    · obtain ⟨rfl, w2, g2, ⟨ds, s', hb, rfl⟩ | ⟨d1, n1, w3, w4, i1, g3, g4, ⟨ds, s', hb, rfl⟩ | ⟨d2, n2, w5, w6, ds, s', i2, g5, g6, hb, rfl⟩⟩⟩ := inv_trio_error h p4
      · exact ⟨rfl, .hsl1 g1 g2 hb⟩
      · exact ⟨rfl, .hsl2 g1 g2 i1 g3 g4 hb⟩
      · exact ⟨rfl, .hsl3 g1 g2 i1 g3 g4 i2 g5 g6 hb⟩
    rcases inv_item_error ns a4 with p5 | ⟨_, s5, p5, a5⟩
    · exact (inv_plit_error (.inl rfl) p5).elim
    exact (inv_items_error_end a5).elim
  · cases hc
    have h4 := inv_seq (.inr rfl) h1
    rw [hsl_form] at h4
    obtain ⟨_, s1, p1, h4⟩ := inv_item h4
    obtain ⟨_, s2, p2, h4⟩ := inv_item h4
    obtain ⟨_, s3, p3, h4⟩ := inv_item h4
    obtain ⟨x, s4, p4, h4⟩ := inv_item h4
    obtain ⟨_, s5, p5, h4⟩ := inv_item h4
    obtain ⟨rfl, h5⟩ := inv_itemsEnd h4
    obtain ⟨w2, d1, w3, w4, d2, w5, w6, d3, w7, n1, n2, n3, _, _, _, _, _, _, _, _, _, _, rfl⟩ := inv_trio h p4
    have hv : v0 = .arr [.int n1, .int n2, .int n3] := by cases h5; rfl
    subst hv
    cases h3

theorem inv_colorName_error {c : Nat} {e : Expr} {t s : Bytes} {x : Panic} (he : e.vp = .lit "" t) (hc : ∀ v o, ∃ v', (Op).cb c v o = .ok v')
    (hy : Yields Op N CL d (.rule (some c) (.text e)) s (.error x)) : False := by
  obtain ⟨d', r0, h1, h2⟩ := inv_text he hy
  rcases inv_called_error h2 with rfl | ⟨c, v0, s', hc', rfl, h3⟩
  · exact inv_plit_error (.inr rfl) h1
  · cases hc'
    obtain ⟨v', hv⟩ := hc v0 (N - s'.length)
    rw [hv] at h3
    cases h3

theorem inv_color_error (h : ColorFinds r1 r2 rc rb) {s : Bytes} {x : Panic} (hy : Yields Op N CL d (.lines CL) s (.error x)) : x = .notANumber ∧ ColorPanic s := by
  rcases inv_line hy with hy | ⟨_, hy⟩
  · obtain ⟨d', r0, hy, h2⟩ := inv_rank hy
    rcases inv_called_error h2 with rfl | ⟨c, v0, s', hc, rfl, h3⟩
    · rcases inv_line hy with hy | ⟨_, hy⟩
      · exact (inv_colorName_error colorName_vp.1 (fun _ _ => ⟨_, rfl⟩) hy).elim
      rcases inv_line hy with hy | ⟨_, hy⟩
      · exact (inv_colorName_error colorName_vp.2.1 (fun _ _ => ⟨_, rfl⟩) hy).elim
      rcases inv_line hy with hy | ⟨_, hy⟩
      · exact (inv_colorName_error colorName_vp.2.2 (fun _ _ => ⟨_, rfl⟩) hy).elim
      rcases inv_line hy with hy | ⟨_, hy⟩
      · exact inv_rgb_error h hy
      rcases inv_line hy with hy | ⟨_, hy⟩
      · exact inv_hsl_error h hy
      cases inv_linesEnd (inv_incl hy)
    · cases hc
  · cases inv_linesEnd (inv_incl (inv_incl (inv_incl hy)))

/-! ## Forwards -/

/-- After `rgb` and the parenthesis. -/
theorem rgb_open (h : ColorFinds r1 r2 rc rb) {w1 w2 s : Bytes} (g1 : IsGap w1) (g2 : IsGap w2) (hs : NoneOf IsBlank s)
    (hy : Yields Op N CL (d + 1) (.part true (.rep "" (.name "" "Integer" false) (some (.name "" "_COMMA" true)) 3 (some 3))) s (.error .notANumber)) :
    Yields Op N CL (d + 2) (.rule (some 3) (.text rgbE)) (asc "rgb" ++ (w1 ++ (asc "(" ++ (w2 ++ s)))) (.error .notANumber) := by
  refine Yields.rtext (r := .error .notANumber) rgb_vp (Yields.bare (.inr rfl) (.seq ?_))
  rw [rgb_form]
  refine .itemsPut (Yields.plit (b := [0x72, 0x67, 0x62])) rfl ?_
  refine .itemsPut (gap_yields h g1 (noneOf_cons (not_blank (.inl rfl)))) rfl ?_
  refine .itemsPut (Yields.plit (b := [0x28])) rfl ?_
  refine .itemsPut (gap_yields h g2 hs) rfl ?_
  exact .itemsPanic hy

theorem hsl_open (h : ColorFinds r1 r2 rc rb) {w1 s : Bytes} (g1 : IsGap w1)
    (hy : Yields Op N CL (d + 1) (.items .array trioItems []) s (.error .notANumber)) :
    Yields Op N CL (d + 3) (.rule (some 4) (.text hslE)) (asc "hsl" ++ (w1 ++ (asc "(" ++ s))) (.error .notANumber) := by
  refine Yields.rtext (r := .error .notANumber) hsl_vp (Yields.bare (.inr rfl) (.seq ?_))
  rw [hsl_form]
  refine .itemsPut (Yields.plit (b := [0x68, 0x73, 0x6C])) rfl ?_
  refine .itemsPut (gap_yields h g1 (noneOf_cons (not_blank (.inl rfl)))) rfl ?_
  refine .itemsPut (Yields.plit (b := [0x28])) rfl ?_
  refine .itemsPanic ?_
  refine Yields.call (.inl rfl) mem_trio (Yields.rtext (cb := none) (r := .error .notANumber) trio_vp (Yields.bare (.inr rfl) (.seq ?_)))
  rw [trio_form]
  exact hy

theorem panic_rgb (h : ColorFinds r1 r2 rc rb) {s : Bytes} (hy : Yields Op N CL (d + 3) (.rule (some 3) (.text rgbE)) (asc "rgb" ++ s) (.error .notANumber)) :
    Yields Op N CL (d + 4) (.lines CL) (asc "rgb" ++ s) (.error .notANumber) := by
  have hn := colorName_vp
  refine .altDone (Yields.rank (cb := none) (r := .error .notANumber) ?_) (by simp [called])
  refine .altMiss (name_miss hn.1 fun s' he => by injection he with _ he; injection he with h1 _; exact absurd h1 (by decide)) ?_
  refine .altMiss (name_miss hn.2.1 fun s' he => by injection he with h1 _; exact absurd h1 (by decide)) ?_
  refine .altMiss (name_miss hn.2.2 fun s' he => by injection he with h1 _; exact absurd h1 (by decide)) ?_
  exact .altDone hy (by simp)

theorem panic_hsl (h : ColorFinds r1 r2 rc rb) {s : Bytes} (hy : Yields Op N CL (d + 3) (.rule (some 4) (.text hslE)) (asc "hsl" ++ s) (.error .notANumber)) :
    Yields Op N CL (d + 4) (.lines CL) (asc "hsl" ++ s) (.error .notANumber) := by
  have hn := colorName_vp
  refine .altDone (Yields.rank (cb := none) (r := .error .notANumber) ?_) (by simp [called])
  refine .altMiss (name_miss hn.1 fun s' he => by injection he with h1 _; exact absurd h1 (by decide)) ?_
  refine .altMiss (name_miss hn.2.1 fun s' he => by injection he with h1 _; exact absurd h1 (by decide)) ?_
  refine .altMiss (name_miss hn.2.2 fun s' he => by injection he with h1 _; exact absurd h1 (by decide)) ?_
  refine .altMiss (rgb_miss fun s' he => by injection he with h1 _; exact absurd h1 (by decide)) ?_
  exact .altDone hy (by simp)

theorem color_panics (h : ColorFinds r1 r2 rc rb) {s : Bytes} (ht : ColorPanic s) : Yields Op N CL (d + 4) (.lines CL) s (.error .notANumber) := by
  have cb : ∀ {s : Bytes}, NoneOf IsBlank (asc "," ++ s) := noneOf_cons (not_blank (.inr (.inr (.inl rfl))))
  have cd : ∀ {s : Bytes}, NoneOf IsDigit (asc "," ++ s) := noneOf_cons (not_digit (.inr (.inr (.inl rfl))))
  have pd : ∀ {s : Bytes}, NoneOf IsDigit (asc "%" ++ s) := noneOf_cons (not_digit (.inr (.inr (.inr rfl))))
  cases ht with
  | rgb1 g1 g2 hb => exact panic_rgb h (rgb_open h g1 g2 (noneOf_id blank_digit hb.1) (Yields.bare (.inl rfl) (.repPanic (big_yields h hb))))
  | rgb2 g1 g2 i1 j1 hb =>
    exact panic_rgb h (rgb_open h g1 g2 (noneOf_id blank_digit i1.1) (Yields.bare (.inl rfl) (.rep (num_yields h i1 (noneOf_comma j1))
      (.morePanic (room3 (by simp)) (comma_yields h j1.2 (noneOf_id comma_digit hb.1)) (big_yields h hb)))))
  | rgb3 g1 g2 i1 j1 i2 j2 hb =>
    exact panic_rgb h (rgb_open h g1 g2 (noneOf_id blank_digit i1.1) (Yields.bare (.inl rfl) (.rep (num_yields h i1 (noneOf_comma j1))
      (.more (room3 (by simp)) (comma_yields h j1.2 (noneOf_id comma_digit i2.1)) (num_yields h i2 (noneOf_comma j2))
        (.morePanic (room3 (by simp)) (comma_yields h j2.2 (noneOf_id comma_digit hb.1)) (big_yields h hb))))))
  | hsl1 g1 g2 hb =>
    refine panic_hsl h (hsl_open h g1 ?_)
    refine .itemsPut (gap_yields h g2 (noneOf_id blank_digit hb.1)) rfl ?_
    exact .itemsPanic (big_yields h hb)
  | hsl2 g1 g2 i1 g3 g4 hb =>
    refine panic_hsl h (hsl_open h g1 ?_)
    refine .itemsPut (gap_yields h g2 (noneOf_id blank_digit i1.1)) rfl ?_
    refine .itemsPut (num_yields h i1 (noneOf_gap blank_digit g3 cd)) rfl ?_
    refine .itemsPut (gap_yields h g3 cb) rfl ?_
    refine .itemsPut (Yields.plit (b := [0x2C])) rfl ?_
    refine .itemsPut (gap_yields h g4 (noneOf_id blank_digit hb.1)) rfl ?_
    exact .itemsPanic (big_yields h hb)
  | hsl3 g1 g2 i1 g3 g4 i2 g5 g6 hb =>
    refine panic_hsl h (hsl_open h g1 ?_)
    refine .itemsPut (gap_yields h g2 (noneOf_id blank_digit i1.1)) rfl ?_
    refine .itemsPut (num_yields h i1 (noneOf_gap blank_digit g3 cd)) rfl ?_
    refine .itemsPut (gap_yields h g3 cb) rfl ?_
    refine .itemsPut (Yields.plit (b := [0x2C])) rfl ?_
    refine .itemsPut (gap_yields h g4 (noneOf_id blank_digit i2.1)) rfl ?_
    refine .itemsPut (num_yields h i2 pd) rfl ?_
    refine .itemsPut (Yields.plit (b := [0x25])) rfl ?_
    refine .itemsPut (gap_yields h g5 cb) rfl ?_
    refine .itemsPut (Yields.plit (b := [0x2C])) rfl ?_
    refine .itemsPut (gap_yields h g6 (noneOf_id blank_digit hb.1)) rfl ?_
    exact .itemsPanic (big_yields h hb)

end Joeson
