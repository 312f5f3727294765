import Verif.Proofs.Readme
import Verif.Proofs.Until
/-! # The VideoGame grammars of the README: nothing else is matched -/

namespace Joeson
open RuleText hiding decimal
open Arith

variable {u : UserString} {db : List VideoGame} {N : Nat} {L : List GLine} {d : Nat} {r1 r2 r rb : Regex}

local notation "Op" => gameOps u db

/-- A longer number is not smaller. -/
theorem decimal_prefix (ds x : Bytes) : decimal ds ≤ decimal (ds ++ x) := by
  unfold decimal
  rw [List.foldl_append]
  generalize List.foldl _ 0 ds = n
  induction x generalizing n with
  | nil => exact Nat.le_refl _
  | cons c x ih =>
    rw [List.foldl_cons]
    exact Nat.le_trans (by omega) (ih _)

theorem isId_append {ds x : Bytes} (h : IsId ds) (hx : ∀ c ∈ x, IsDigit c) : IsId (ds ++ x) := by
  obtain ⟨h1, c, l, rfl, h2⟩ := h
  exact ⟨fun y hy => (List.mem_append.mp hy).elim (h1 y) (hx y), c, l ++ x, rfl, h2⟩

theorem concat_pieces (u : UserString) : ∀ ps : List Bytes, Ast.concatArray u (ps.map Ast.str) = ps.flatten
  | [] => by simp [Ast.concatArray]
  | b :: w => by simp [Ast.concatArray, Ast.inArray, concat_pieces u w]

/-! ## Numbers -/

theorem inv_gameId (hL : OneRule L) (h1 : FindsOne (fun c => IsDigit c ∧ c ≠ 0x30) r1) (h2 : FindsOne IsDigit r2) {s s' : Bytes} {v : Ast}
    (hy : Yields Op N L d (.part false (.seq "" [.re "" r1, .rep "" (.re "" r2) none 0 none])) s (.ok (some (v, s')))) :
    ∃ c l, s = c :: l ++ s' ∧ (IsDigit c ∧ c ≠ 0x30) ∧ (∀ x ∈ l, IsDigit x) ∧ NoneOf IsDigit s' ∧ v = .arr [.str [c], .arr (l.map fun b => .str [b])] := by
  obtain ⟨w1, s1, h4, h5⟩ := inv_item (inv_seq (.inr rfl) hy)
  obtain ⟨c, hc, rfl, rfl⟩ := inv_pcls h1 (.inl rfl) h4
  obtain ⟨w2, s2, h6, h7⟩ := inv_item h5
  obtain ⟨l, t, rfl, hl, ht, he⟩ := inv_repCls hL h2 (.inl rfl) h6
  cases he
  obtain ⟨rfl, h8⟩ := inv_itemsEnd h7
  exact ⟨c, l, rfl, hc, hl, ht, by cases h8; rfl⟩

theorem inv_gameId_error (hL : OneRule L) (h2 : FindsOne IsDigit r2) {s : Bytes} {x : Panic}
    (hy : Yields Op N L d (.part false (.seq "" [.re "" r1, .rep "" (.re "" r2) none 0 none])) s (.error x)) : False := by
  rcases inv_item_error (by intro h; cases h) (inv_seq (.inr rfl) hy) with h4 | ⟨w, s1, _, h4⟩
  · exact inv_re_error (.inl rfl) h4
  · rcases inv_item_error (by intro h; cases h) h4 with h4 | ⟨w, s1, _, h4⟩
    · obtain ⟨_, _, _, _, _, he⟩ := inv_repCls hL h2 (.inl rfl) h4
      cases he
    · exact (inv_items_error_end h4).elim

theorem findById_digits {c : UInt8} {l : Bytes} (hc : IsDigit c) (hl : ∀ x ∈ l, IsDigit x) :
    findVideoGameById u db (.arr [.str [c], .arr (l.map fun b => .str [b])]) =
      if decimal (c :: l) < 2 ^ 63 then .ok (gameWhere db (fun v => v.id == decimal (c :: l))) else .error .notANumber :=
  findById_arr (.inr ⟨_, rfl, by simp [Ast.concatArray, Ast.inArray, concat_bytes]⟩) (by simp) (by simpa using ⟨hc, hl⟩)

theorem inv_idRule (hL : OneRule L) (h1 : FindsOne (fun c => IsDigit c ∧ c ≠ 0x30) r1) (h2 : FindsOne IsDigit r2) {s : Bytes} {v : Ast}
    (hy : Yields Op N L d (.rule (some 1) (.text (gameIdE r1 r2))) s (.ok (some (v, [])))) : ∃ p, GameText s p ∧ v = gameWhere db p := by
  obtain ⟨d', r0, h3, h4⟩ := inv_text (gameId_vp r1 r2) hy
  obtain ⟨v0, rfl, h5⟩ := inv_called_some h4
  obtain ⟨c, l, rfl, hc, hl, ht, rfl⟩ := inv_gameId hL h1 h2 h3
  have h9 : (findVideoGameById u db (.arr [.str [c], .arr (l.map fun b => .str [b])])).map some = .ok (some v) := h5
  rw [findById_digits hc.1 hl] at h9
  rw [List.append_nil]
  by_cases hlt : decimal (c :: l) < 2 ^ 63
  · rw [if_pos hlt] at h9
    cases h9
    exact ⟨_, .id ⟨by simpa using ⟨hc.1, hl⟩, c, l, rfl, hc.2⟩ hlt, rfl⟩
  · rw [if_neg hlt] at h9
    cases h9

theorem inv_idRule_error (hL : OneRule L) (h1 : FindsOne (fun c => IsDigit c ∧ c ≠ 0x30) r1) (h2 : FindsOne IsDigit r2) {s : Bytes} {x : Panic}
    (hy : Yields Op N L d (.rule (some 1) (.text (gameIdE r1 r2))) s (.error x)) : x = .notANumber ∧ ∃ ds s', s = ds ++ s' ∧ IsBig ds := by
  obtain ⟨d', r0, h3, h4⟩ := inv_text (gameId_vp r1 r2) hy
  rcases inv_called_error h4 with rfl | ⟨c, v0, s', hc, rfl, h5⟩
  · exact (inv_gameId_error hL h2 h3).elim
  · cases hc
    obtain ⟨c, l, rfl, hc, hl, ht, rfl⟩ := inv_gameId hL h1 h2 h3
    have h9 : (findVideoGameById u db (.arr [.str [c], .arr (l.map fun b => .str [b])])).map some = .error x := h5
    rw [findById_digits hc.1 hl] at h9
    by_cases hlt : decimal (c :: l) < 2 ^ 63
    · rw [if_pos hlt] at h9
      cases h9
    · rw [if_neg hlt] at h9
      cases h9
      exact ⟨rfl, c :: l, s', rfl, ⟨by simpa using ⟨hc.1, hl⟩, c, l, rfl, hc.2⟩, Nat.not_lt.mp hlt⟩

theorem bigRule_yields (h1 : FindsOne (fun c => IsDigit c ∧ c ≠ 0x30) r1) (h2 : FindsOne IsDigit r2) {ds s : Bytes} (hd : IsBig ds) :
    Yields Op N L (d + 1) (.rule (some 1) (.text (gameIdE r1 r2))) (ds ++ s) (.error .notANumber) := by
  obtain ⟨x, t, rfl, hx, ht⟩ := greedy IsDigit s
  obtain ⟨c, l, he, hc, hl⟩ := (isId_append hd.1 hx).split
  have hlt : ¬ decimal (c :: l) < 2 ^ 63 := by
    rw [← he]
    exact Nat.not_lt.mpr (Nat.le_trans hd.2 (decimal_prefix ds x))
  rw [← List.append_assoc, he]
  have := Yields.text (cb := some 1) (gameId_yields (u := u) (db := db) (N := N) (L := L) (d := d) h1 h2 hc hl ht)
  have hv : called Op N (some 1) (.ok (some (.arr [.str [c], .arr (l.map fun b => .str [b])], t))) = .error .notANumber := by
    simp only [called, gameOps, treePure, findById_digits hc.1 hl, if_neg hlt]
    rfl
  rwa [hv] at this

/-! ## Titles -/

theorem findByTitle_pieces (ps : List Bytes) : findVideoGameByTitle u db (.arr (ps.map Ast.str)) = .ok (gameWhere db fun v => v.title == ps.flatten) := by
  simp only [findVideoGameByTitle, newNativeStringFrom, nativeStringFrom, concat_pieces, findGame_eq, gameWhere]
  rfl

theorem title_stops {s : Bytes} : Stops 0x22 (0x22 :: s) := fun c s' h hc => by cases h; exact hc rfl

theorem titleRule_yields (hr : FindsBut 0x22 r) {w : Bytes} (hw : 0x22 ∉ w) :
    Yields Op N L (d + 1) (.rule (some 2) (.text (gameTitleE r))) (0x22 :: (w ++ [0x22])) (.ok (some (gameWhere db (fun v => v.title == w), []))) := by
  obtain ⟨ps, hf, hy⟩ := Yields.repBut (P := Op) (N := N) (L := L) (d := d) hr (h := true) (lab := "") (.inl rfl) hw (title_stops (s := []))
  have hv : called Op N (some 2) (.ok (some (.arr (ps.map Ast.str), []))) = .ok (some (gameWhere db (fun v => v.title == w), [])) := by
    simp only [called, gameOps, treePure, findByTitle_pieces, hf]
    rfl
  rw [← hv]
  refine Yields.rtext (gameTitle_vp r) (Yields.bare (.inr rfl) (.seq ?_))
  have hf : formOf [VP.lit "" [0x22], .rep "" (.re "" r) none 0 none, .lit "" [0x22]] = .single := rfl
  rw [hf]
  refine .itemsPut (Yields.plit (b := [0x22])) rfl ?_
  refine .itemsPut hy rfl ?_
  refine .itemsPut (Yields.plit (b := [0x22]) (s := [])) rfl ?_
  exact .itemsEnd rfl

theorem inv_title (hL : OneRule L) (hr : FindsBut 0x22 r) {s s' : Bytes} {v : Ast}
    (hy : Yields Op N L d (.part false (.seq "" [.lit "" [0x22], .rep "" (.re "" r) none 0 none, .lit "" [0x22]])) s (.ok (some (v, s')))) :
    ∃ (w : Bytes) (ps : List Bytes), s = 0x22 :: (w ++ 0x22 :: s') ∧ 0x22 ∉ w ∧ ps.flatten = w ∧ v = .arr (ps.map Ast.str) := by
  obtain ⟨_, s1, p1, h4⟩ := inv_item (inv_seq (.inr rfl) hy)
  obtain ⟨_, s2, p2, h4⟩ := inv_item h4
  obtain ⟨_, s3, p3, h4⟩ := inv_item h4
  obtain ⟨rfl, h5⟩ := inv_itemsEnd h4
  obtain ⟨rfl, _⟩ := inv_plit (.inl rfl) p1
  obtain ⟨w, t, ps, rfl, hq, _, hf, he⟩ := inv_repBut hL hr (.inl rfl) p2
  cases he
  obtain ⟨rfl, _⟩ := inv_plit (.inl rfl) p3
  exact ⟨w, ps, rfl, hq, hf, by cases h5; rfl⟩

theorem inv_title_error (hL : OneRule L) (hr : FindsBut 0x22 r) {s : Bytes} {x : Panic}
    (hy : Yields Op N L d (.part false (.seq "" [.lit "" [0x22], .rep "" (.re "" r) none 0 none, .lit "" [0x22]])) s (.error x)) : False := by
  rcases inv_item_error (by intro h; cases h) (inv_seq (.inr rfl) hy) with h4 | ⟨w, s1, _, h4⟩
  · exact inv_plit_error (.inl rfl) h4
  · rcases inv_item_error (by intro h; cases h) h4 with h5 | ⟨w, s1, _, h5⟩
    · obtain ⟨_, _, _, _, _, _, _, he⟩ := inv_repBut hL hr (.inl rfl) h5
      cases he
    · rcases inv_item_error (by intro h; cases h) h5 with h6 | ⟨w, s1, _, h6⟩
      · exact inv_plit_error (.inl rfl) h6
      · exact (inv_items_error_end h6).elim

theorem inv_titleRule (hL : OneRule L) (hr : FindsBut 0x22 r) {s : Bytes} {v : Ast} (hy : Yields Op N L d (.rule (some 2) (.text (gameTitleE r))) s (.ok (some (v, [])))) :
    ∃ p, GameText s p ∧ v = gameWhere db p := by
  obtain ⟨d', r0, h3, h4⟩ := inv_text (gameTitle_vp r) hy
  obtain ⟨v0, rfl, h5⟩ := inv_called_some h4
  obtain ⟨w, ps, rfl, hq, hf, rfl⟩ := inv_title hL hr h3
  have h9 : (findVideoGameByTitle u db (.arr (ps.map Ast.str))).map some = .ok (some v) := h5
  rw [findByTitle_pieces, hf] at h9
  cases h9
  exact ⟨_, .title hq, rfl⟩

theorem inv_titleRule_error (hL : OneRule L) (hr : FindsBut 0x22 r) {s : Bytes} {x : Panic} (hy : Yields Op N L d (.rule (some 2) (.text (gameTitleE r))) s (.error x)) : False := by
  obtain ⟨d', r0, h3, h4⟩ := inv_text (gameTitle_vp r) hy
  rcases inv_called_error h4 with rfl | ⟨c, v0, s', hc, rfl, h5⟩
  · exact (inv_title_error hL hr h3).elim
  · cases hc
    obtain ⟨w, ps, rfl, hq, hf, rfl⟩ := inv_title hL hr h3
    have h9 : (findVideoGameByTitle u db (.arr (ps.map Ast.str))).map some = .error x := h5
    rw [findByTitle_pieces] at h9
    cases h9

/-! ## Examples 2 to 4 -/

theorem title_noId {w : Bytes} : NoneOf (fun c => IsDigit c ∧ c ≠ 0x30) (0x22 :: w) := by
  intro c s' h hc
  cases h
  exact absurd hc.1 (by unfold IsDigit; decide)

theorem rank_text (h1 : FindsOne (fun c => IsDigit c ∧ c ≠ 0x30) r1) (h2 : FindsOne IsDigit r2) (hr : FindsBut 0x22 r) {n1 n2 : String} {more top : List GLine} {s : Bytes} {p : VideoGame → Bool}
    (h : GameText s p) : Yields Op N L (d + 2) (.lines (rankOf r1 r2 r n1 n2 more top)) s (.ok (some (gameWhere db p, []))) := by
  cases h with
  | id hi hlt =>
    have := rank_id (u := u) (db := db) (N := N) (L := L) (d := d) (r := r) (n1 := n1) (n2 := n2) (more := more) (top := top) h1 h2 hi
    rwa [byId, if_pos hlt] at this
  | @title w hw =>
    have m1 := Yields.text (cb := some 1) (gameId_miss (u := u) (db := db) (N := N) (L := L) (d := d) (r2 := r2) h1 (title_noId (w := w ++ [0x22])))
    have h4 := Yields.rank (cb := none) (Yields.altMiss (nm := n1) m1 (Yields.altDone (nm := n2) (ls := more) (titleRule_yields hr hw) (by simp)))
    exact .altDone h4 (by simp [called])

theorem rank_panics (h1 : FindsOne (fun c => IsDigit c ∧ c ≠ 0x30) r1) (h2 : FindsOne IsDigit r2) {n1 n2 : String} {more top : List GLine} {ds s : Bytes}
    (h : IsBig ds) : Yields Op N L (d + 2) (.lines (rankOf r1 r2 r n1 n2 more top)) (ds ++ s) (.error .notANumber) := by
  have h4 := Yields.rank (cb := none) (Yields.altDone (nm := n1) (ls := .alt n2 (some 2) (.text (gameTitleE r)) :: more) (bigRule_yields (u := u) (db := db) (N := N) (L := L) (d := d) (s := s) h1 h2 h) (by simp))
  exact .altDone h4 (by simp)

/-- A grammar with these two alternatives, and perhaps more. -/
theorem inv_rankOf (hL : OneRule L) (h1 : FindsOne (fun c => IsDigit c ∧ c ≠ 0x30) r1) (h2 : FindsOne IsDigit r2) (hr : FindsBut 0x22 r) {n1 n2 : String} {more : List GLine} {s : Bytes} {v : Ast}
    (hy : Yields Op N L d (.rule none (.rank (.alt n1 (some 1) (.text (gameIdE r1 r2)) :: .alt n2 (some 2) (.text (gameTitleE r)) :: more))) s (.ok (some (v, [])))) :
    (∃ p, GameText s p ∧ v = gameWhere db p) ∨ ∃ d, Yields Op N L d (.lines more) s (.ok (some (v, []))) := by
  obtain ⟨d', r0, hy, h3⟩ := inv_rank hy
  obtain rfl := inv_called_none h3
  rcases inv_line hy with hy | ⟨_, hy⟩
  · exact .inl (inv_idRule hL h1 h2 hy)
  rcases inv_line hy with hy | ⟨_, hy⟩
  · exact .inl (inv_titleRule hL hr hy)
  exact .inr ⟨_, hy⟩

theorem inv_rankOf_error (hL : OneRule L) (h1 : FindsOne (fun c => IsDigit c ∧ c ≠ 0x30) r1) (h2 : FindsOne IsDigit r2) (hr : FindsBut 0x22 r) {n1 n2 : String} {more : List GLine} {s : Bytes} {x : Panic}
    (hy : Yields Op N L d (.rule none (.rank (.alt n1 (some 1) (.text (gameIdE r1 r2)) :: .alt n2 (some 2) (.text (gameTitleE r)) :: more))) s (.error x)) :
    (x = .notANumber ∧ ∃ ds s', s = ds ++ s' ∧ IsBig ds) ∨ ∃ d, Yields Op N L d (.lines more) s (.error x) := by
  obtain ⟨d', r0, hy, h3⟩ := inv_rank hy
  rcases inv_called_error h3 with rfl | ⟨c, v0, s', hc, rfl, h5⟩
  · rcases inv_line hy with hy | ⟨_, hy⟩
    · exact .inl (inv_idRule_error hL h1 h2 hy)
    rcases inv_line hy with hy | ⟨_, hy⟩
    · exact (inv_titleRule_error hL hr hy).elim
    exact .inr ⟨_, hy⟩
  · cases hc

/-! ## Example 5 -/

theorem five_one : OneRule (readme5 r1 r2 r rb) := oneRule_of (by
  show (["VideoGame", "VideoGameId", "VideoGameTitle", "VideoGameBestOfYear", "Year", "_"] : List String).Nodup
  decide)

theorem mem5_gap : ("_", none, Body.text (gapE rb)) ∈ rulesOf (readme5 r1 r2 r rb) := by simp [readme5, rulesOf, GLine.rules, Body.rules]
theorem mem5_year : ("Year", some 4, Body.text (yearE r2)) ∈ rulesOf (readme5 r1 r2 r rb) := by simp [readme5, rulesOf, GLine.rules, Body.rules]

theorem inv_century {s s' : Bytes} {v : Ast} (hy : Yields Op N L d (.part true (.alt "a" [.lit "" [0x31, 0x39], .lit "" [0x32, 0x30], .lit "" [0x32, 0x31]])) s (.ok (some (v, s')))) :
    ∃ c, s = c ++ s' ∧ (c = asc "19" ∨ c = asc "20" ∨ c = asc "21") ∧ v = .str c := by
  have h := inv_alt (.inl rfl) hy
  rcases inv_alts h with ⟨h, _⟩ | ⟨_, h⟩
  · obtain ⟨rfl, rfl⟩ := inv_plit (.inr rfl) h
    exact ⟨_, rfl, .inl rfl, rfl⟩
  rcases inv_alts h with ⟨h, _⟩ | ⟨_, h⟩
  · obtain ⟨rfl, rfl⟩ := inv_plit (.inr rfl) h
    exact ⟨_, rfl, .inr (.inl rfl), rfl⟩
  rcases inv_alts h with ⟨h, _⟩ | ⟨_, h⟩
  · obtain ⟨rfl, rfl⟩ := inv_plit (.inr rfl) h
    exact ⟨_, rfl, .inr (.inr rfl), rfl⟩
  cases inv_altsEnd h

theorem inv_century_error {s : Bytes} {x : Panic} (hy : Yields Op N L d (.part true (.alt "a" [.lit "" [0x31, 0x39], .lit "" [0x32, 0x30], .lit "" [0x32, 0x31]])) s (.error x)) : False := by
  have h := inv_alt (.inl rfl) hy
  rcases inv_alts h with ⟨h, _⟩ | ⟨_, h⟩
  · exact inv_plit_error (.inr rfl) h
  rcases inv_alts h with ⟨h, _⟩ | ⟨_, h⟩
  · exact inv_plit_error (.inr rfl) h
  rcases inv_alts h with ⟨h, _⟩ | ⟨_, h⟩
  · exact inv_plit_error (.inr rfl) h
  cases inv_altsEnd h

theorem year_form : formOf [VP.alt "a" [.lit "" [0x31, 0x39], .lit "" [0x32, 0x30], .lit "" [0x32, 0x31]], .re "b" r2, .re "c" r2] = .object := by kernel_rfl

theorem inv_yearParts (h2 : FindsOne IsDigit r2) {s s' : Bytes} {v : Ast} (hy : Yields Op N L d (.part false (yearE r2).vp) s (.ok (some (v, s')))) :
    ∃ c b1 b2, s = c ++ ([b1, b2] ++ s') ∧ IsYear (c ++ [b1, b2]) ∧ v = .map [("a", .str c), ("b", .str [b1]), ("c", .str [b2])] := by
  rw [year_vp] at hy
  have h4 := inv_seq (.inr rfl) hy
  rw [year_form] at h4
  obtain ⟨_, s1, p1, h5⟩ := inv_item h4
  obtain ⟨_, s2, p2, h6⟩ := inv_item h5
  obtain ⟨_, s3, p3, h7⟩ := inv_item h6
  obtain ⟨rfl, h8⟩ := inv_itemsEnd h7
  obtain ⟨c, rfl, hc, rfl⟩ := inv_century p1
  obtain ⟨b1, hb1, rfl, rfl⟩ := inv_pcls h2 (.inl rfl) p2
  obtain ⟨b2, hb2, rfl, rfl⟩ := inv_pcls h2 (.inl rfl) p3
  exact ⟨c, b1, b2, rfl, ⟨c, b1, b2, rfl, hc, hb1, hb2⟩, by cases h8; rfl⟩

theorem inv_year (hL : OneRule L) (h2 : FindsOne IsDigit r2) (hm : ("Year", some 4, Body.text (yearE r2)) ∈ rulesOf L) {s s' : Bytes} {v : Ast}
    (hy : Yields Op N L d (.part true (.name "" "Year" false)) s (.ok (some (v, s')))) : ∃ ds, s = ds ++ s' ∧ IsYear ds ∧ v = .str ds := by
  obtain ⟨d', r0, h1, h3⟩ := inv_text rfl (inv_call hL (.inl rfl) hm hy)
  obtain ⟨v0, rfl, h5⟩ := inv_called_some h3
  obtain ⟨c, b1, b2, rfl, hy, rfl⟩ := inv_yearParts h2 h1
  refine ⟨c ++ [b1, b2], by simp, hy, ?_⟩
  have h9 : (concatOfMap u (.map [("a", .str c), ("b", .str [b1]), ("c", .str [b2])])).map some = .ok (some v) := h5
  simp [concatOfMap, Ast.concatMap, Ast.inMap, Except.map] at h9
  cases h9
  simp

theorem inv_year_error (hL : OneRule L) (h2 : FindsOne IsDigit r2) (hm : ("Year", some 4, Body.text (yearE r2)) ∈ rulesOf L) {s : Bytes} {x : Panic}
    (hy : Yields Op N L d (.part true (.name "" "Year" false)) s (.error x)) : False := by
  obtain ⟨d', r0, h1, h3⟩ := inv_text rfl (inv_call hL (.inl rfl) hm hy)
  rcases inv_called_error h3 with rfl | ⟨c, v0, s', hc, rfl, h5⟩
  · rw [year_vp] at h1
    have h4 := inv_seq (.inr rfl) h1
    rw [year_form] at h4
    rcases inv_item_error' h4 with p1 | ⟨_, s1, p1, h5⟩
    · exact inv_century_error p1
    obtain ⟨c, rfl, hc, rfl⟩ := inv_century p1
    rcases h5 with h5 | h5
    · rcases inv_item_error' h5 with p2 | ⟨_, s2, p2, h6⟩
      · exact inv_re_error (.inl rfl) p2
      obtain ⟨b1, hb1, rfl, rfl⟩ := inv_pcls h2 (.inl rfl) p2
      rcases h6 with h6 | h6
      · rcases inv_item_error' h6 with p3 | ⟨_, s3, p3, h7⟩
        · exact inv_re_error (.inl rfl) p3
        obtain ⟨b2, hb2, rfl, rfl⟩ := inv_pcls h2 (.inl rfl) p3
        rcases h7 with h7 | h7
        · exact inv_items_error_end h7
        · cases h7
      · cases h6
    · cases h5
  · cases hc
    obtain ⟨c, b1, b2, rfl, hy, rfl⟩ := inv_yearParts h2 h1
    have h9 : (concatOfMap u (.map [("a", .str c), ("b", .str [b1]), ("c", .str [b2])])).map some = .error x := h5
    simp [concatOfMap, Ast.concatMap, Ast.inMap, Except.map] at h9
    cases h9

theorem inv_gap5 (hb : FindsOne IsBlank rb) {s : Bytes} {q : VRes Ast} (hy : Yields Op N (readme5 r1 r2 r rb) d (.part true (.name "" "_" true)) s q) :
    ∃ w s', s = w ++ s' ∧ (∀ b ∈ w, IsBlank b) ∧ q = .ok (some (.arr (w.map fun b => .str [b]), s')) := by
  obtain ⟨d', r0, h1, h2⟩ := inv_text (gap_vp rb) (inv_call five_one (.inl rfl) mem5_gap hy)
  obtain ⟨w, t, rfl, h3, _, rfl⟩ := inv_repCls five_one hb (.inr rfl) h1
  exact ⟨w, t, rfl, h3, h2⟩

theorem best_form : formOf [VP.lit "" [0x62, 0x65, 0x73, 0x74, 0x49, 0x6E, 0x3A], .name "" "_" true, .name "" "Year" false] = .single := by kernel_rfl

theorem findByYear {ds : Bytes} (h : IsYear ds) : findBestVideoGameOfYear u db (.str ds) = .ok (gameWhere db fun v => v.year == decimal ds) := by
  obtain ⟨hne, hd, hlt⟩ := h.digits
  simp only [findBestVideoGameOfYear, newNativeIntFrom, nativeIntFrom, atoi_decimal hne hd, if_pos hlt, findGame_eq, gameWhere]
  rfl

theorem inv_best (h2 : FindsOne IsDigit r2) (hb : FindsOne IsBlank rb) {s s' : Bytes} {v : Ast} (hy : Yields Op N (readme5 r1 r2 r rb) d (.part false bestInE.vp) s (.ok (some (v, s')))) :
    ∃ w ds, s = asc "bestIn:" ++ w ++ ds ++ s' ∧ (∀ b ∈ w, IsBlank b) ∧ IsYear ds ∧ v = .str ds := by
  rw [bestIn_vp] at hy
  have h4 := inv_seq (.inr rfl) hy
  rw [best_form] at h4
  obtain ⟨_, s1, p1, h5⟩ := inv_item h4
  obtain ⟨_, s2, p2, h6⟩ := inv_item h5
  obtain ⟨_, s3, p3, h7⟩ := inv_item h6
  obtain ⟨rfl, h8⟩ := inv_itemsEnd h7
  obtain ⟨rfl, _⟩ := inv_plit (.inl rfl) p1
  obtain ⟨w, t, rfl, hw, he⟩ := inv_gap5 hb p2
  cases he
  obtain ⟨ds, rfl, hds, rfl⟩ := inv_year five_one h2 mem5_year p3
  exact ⟨w, ds, by simp [asc], hw, hds, by cases h8; rfl⟩

theorem inv_best_error (h2 : FindsOne IsDigit r2) (hb : FindsOne IsBlank rb) {s : Bytes} {x : Panic} (hy : Yields Op N (readme5 r1 r2 r rb) d (.rule (some 3) (.text bestInE)) s (.error x)) : False := by
  obtain ⟨d', r0, h1, h3⟩ := inv_text rfl hy
  rcases inv_called_error h3 with rfl | ⟨c, v0, s', hc, rfl, h5⟩
  · rw [bestIn_vp] at h1
    have h4 := inv_seq (.inr rfl) h1
    rw [best_form] at h4
    have ns : Form.single ≠ .object := by intro h; cases h
    rcases inv_item_error ns h4 with p1 | ⟨_, s1, p1, h5⟩
    · exact inv_plit_error (.inl rfl) p1
    rcases inv_item_error ns h5 with p2 | ⟨_, s2, p2, h6⟩
    · obtain ⟨w, t, rfl, hw, he⟩ := inv_gap5 hb p2
      cases he
    rcases inv_item_error ns h6 with p3 | ⟨_, s3, p3, h7⟩
    · exact inv_year_error five_one h2 mem5_year p3
    exact inv_items_error_end h7
  · cases hc
    obtain ⟨w, ds, rfl, hw, hds, rfl⟩ := inv_best h2 hb h1
    have h9 : (findBestVideoGameOfYear u db (.str ds)).map some = .error x := h5
    rw [findByYear hds] at h9
    cases h9

theorem inv_five (h1 : FindsOne (fun c => IsDigit c ∧ c ≠ 0x30) r1) (h2 : FindsOne IsDigit r2) (hr : FindsBut 0x22 r) (hb : FindsOne IsBlank rb) {s : Bytes} {v : Ast}
    (hy : Yields Op N (readme5 r1 r2 r rb) d (.lines (readme5 r1 r2 r rb)) s (.ok (some (v, [])))) : ∃ p, GameText5 s p ∧ v = gameWhere db p := by
  rcases inv_line hy with hy | ⟨_, hy⟩
  · rcases inv_rankOf five_one h1 h2 hr hy with ⟨p, hp, rfl⟩ | ⟨d, hy⟩
    · exact ⟨p, .game hp, rfl⟩
    rcases inv_line hy with hy | ⟨_, hy⟩
    · obtain ⟨d', r0, h3, h4⟩ := inv_text rfl hy
      obtain ⟨v0, rfl, h5⟩ := inv_called_some h4
      obtain ⟨w, ds, rfl, hw, hds, rfl⟩ := inv_best h2 hb h3
      have h9 : (findBestVideoGameOfYear u db (.str ds)).map some = .ok (some v) := h5
      rw [findByYear hds] at h9
      cases h9
      rw [List.append_nil]
      exact ⟨_, .year hw hds, rfl⟩
    cases inv_linesEnd (inv_incl hy)
  · cases inv_linesEnd (inv_incl hy)

theorem inv_five_error (h1 : FindsOne (fun c => IsDigit c ∧ c ≠ 0x30) r1) (h2 : FindsOne IsDigit r2) (hr : FindsBut 0x22 r) (hb : FindsOne IsBlank rb) {s : Bytes} {x : Panic}
    (hy : Yields Op N (readme5 r1 r2 r rb) d (.lines (readme5 r1 r2 r rb)) s (.error x)) : x = .notANumber ∧ ∃ ds s', s = ds ++ s' ∧ IsBig ds := by
  rcases inv_line hy with hy | ⟨_, hy⟩
  · rcases inv_rankOf_error five_one h1 h2 hr hy with h | ⟨d, hy⟩
    · exact h
    rcases inv_line hy with hy | ⟨_, hy⟩
    · exact (inv_best_error h2 hb hy).elim
    cases inv_linesEnd (inv_incl hy)
  · cases inv_linesEnd (inv_incl hy)

theorem five_text (h1 : FindsOne (fun c => IsDigit c ∧ c ≠ 0x30) r1) (h2 : FindsOne IsDigit r2) (hr : FindsBut 0x22 r) (hb : FindsOne IsBlank rb) {s : Bytes} {p : VideoGame → Bool}
    (h : GameText5 s p) : Yields Op N (readme5 r1 r2 r rb) (d + 3) (.lines (readme5 r1 r2 r rb)) s (.ok (some (gameWhere db p, []))) := by
  cases h with
  | game h => exact rank_text (d := d + 1) h1 h2 hr h
  | year hw hd => exact five_best h1 h2 hb hw hd

/-! ## Example 1 -/

theorem one_one : OneRule (readme1 r1 r2 r) := oneRule_of (by
  show (["VideoGame"] : List String).Nodup
  decide)

theorem one_id_form : formOf [VP.re "id" r1, .rep "" (.re "" r2) none 0 none] = .object := rfl
theorem one_title_form : formOf [VP.lit "" [0x22], .rep "title" (.re "" r) none 0 none, .lit "" [0x22]] = .object := rfl

/-- The values that the callback of example 1 gets. -/
theorem inv_one_alts (h1 : FindsOne (fun c => IsDigit c ∧ c ≠ 0x30) r1) (h2 : FindsOne IsDigit r2) (hr : FindsBut 0x22 r) {s s' : Bytes} {v : Ast}
    (hy : Yields Op N (readme1 r1 r2 r) d (.part false (gameE r1 r2 r).vp) s (.ok (some (v, s')))) :
    (∃ c l, s = c :: l ++ s' ∧ IsId (c :: l) ∧ v = .map [("id", .str [c])]) ∨
    ∃ (w : Bytes) (ps : List Bytes), s = 0x22 :: (w ++ 0x22 :: s') ∧ 0x22 ∉ w ∧ ps.flatten = w ∧ v = .map [("title", .arr (ps.map Ast.str))] := by
  rw [game_vp] at hy
  rcases inv_alts (inv_alt (.inr rfl) hy) with ⟨h, _⟩ | ⟨_, h⟩
  · have h4 := inv_seq (.inr rfl) h
    rw [one_id_form] at h4
    obtain ⟨w1, s1, h4, h5⟩ := inv_item h4
    obtain ⟨c, hc, rfl, rfl⟩ := inv_pcls h1 (.inl rfl) h4
    obtain ⟨w2, s2, h6, h7⟩ := inv_item h5
    obtain ⟨l, t, rfl, hl, ht, he⟩ := inv_repCls one_one h2 (.inl rfl) h6
    cases he
    obtain ⟨rfl, h8⟩ := inv_itemsEnd h7
    exact .inl ⟨c, l, rfl, ⟨by simpa using ⟨hc.1, hl⟩, c, l, rfl, hc.2⟩, by cases h8; rfl⟩
  rcases inv_alts h with ⟨h, _⟩ | ⟨_, h⟩
  · have h4 := inv_seq (.inr rfl) h
    rw [one_title_form] at h4
    obtain ⟨_, s1, p1, h4⟩ := inv_item h4
    obtain ⟨_, s2, p2, h4⟩ := inv_item h4
    obtain ⟨_, s3, p3, h4⟩ := inv_item h4
    obtain ⟨rfl, h5⟩ := inv_itemsEnd h4
    obtain ⟨rfl, _⟩ := inv_plit (.inl rfl) p1
    obtain ⟨w, t, ps, rfl, hq, _, hf, he⟩ := inv_repBut one_one hr (.inl rfl) p2
    cases he
    obtain ⟨rfl, _⟩ := inv_plit (.inl rfl) p3
    exact .inr ⟨w, ps, rfl, hq, hf, by cases h5; rfl⟩
  cases inv_altsEnd h

theorem inv_one_error (h1 : FindsOne (fun c => IsDigit c ∧ c ≠ 0x30) r1) (h2 : FindsOne IsDigit r2) (hr : FindsBut 0x22 r) {s : Bytes} {x : Panic}
    (hy : Yields Op N (readme1 r1 r2 r) d (.part false (gameE r1 r2 r).vp) s (.error x)) : False := by
  rw [game_vp] at hy
  rcases inv_alts (inv_alt (.inr rfl) hy) with ⟨h, _⟩ | ⟨_, h⟩
  · have h4 := inv_seq (.inr rfl) h
    rw [one_id_form] at h4
    rcases inv_item_error' h4 with p1 | ⟨_, s1, p1, h5⟩
    · exact inv_re_error (.inl rfl) p1
    obtain ⟨c, hc, rfl, rfl⟩ := inv_pcls h1 (.inl rfl) p1
    rcases h5 with h5 | h5
    · rcases inv_item_error' h5 with p2 | ⟨_, s2, p2, h6⟩
      · obtain ⟨_, _, _, _, _, he⟩ := inv_repCls one_one h2 (.inl rfl) p2
        cases he
      obtain ⟨l, t, rfl, hl, ht, he⟩ := inv_repCls one_one h2 (.inl rfl) p2
      cases he
      rcases h6 with h6 | h6
      · exact inv_items_error_end h6
      · cases h6
    · cases h5
  rcases inv_alts h with ⟨h, _⟩ | ⟨_, h⟩
  · have h4 := inv_seq (.inr rfl) h
    rw [one_title_form] at h4
    rcases inv_item_error' h4 with p1 | ⟨_, s1, p1, h5⟩
    · exact inv_plit_error (.inl rfl) p1
    obtain ⟨rfl, rfl⟩ := inv_plit (.inl rfl) p1
    rcases h5 with h5 | h5
    · rcases inv_item_error' h5 with p2 | ⟨_, s2, p2, h6⟩
      · obtain ⟨_, _, _, _, _, _, _, he⟩ := inv_repBut one_one hr (.inl rfl) p2
        cases he
      obtain ⟨w, t, ps, rfl, hq, _, hf, he⟩ := inv_repBut one_one hr (.inl rfl) p2
      cases he
      rcases h6 with h6 | h6
      · rcases inv_item_error' h6 with p3 | ⟨_, s3, p3, h7⟩
        · exact inv_plit_error (.inl rfl) p3
        obtain ⟨rfl, rfl⟩ := inv_plit (.inl rfl) p3
        rcases h7 with h7 | h7
        · exact inv_items_error_end h7
        · cases h7
      · cases h6
    · cases h5
  cases inv_altsEnd h

theorem make_id {c : UInt8} (hc : IsDigit c) : makeVideoGame u db (.map [("id", .str [c])]) = .ok (gameWhere db fun v => v.id == decimal [c]) := by
  have h0 := findById_arr (u := u) (db := db) (it := .str [c]) (ds := [c]) (.inl rfl) (by simp) (by simpa using hc)
  have hm : makeVideoGame u db (.map [("id", .str [c])]) = findVideoGameById u db (.str [c]) := rfl
  have hlt : decimal [c] < 2 ^ 63 := by
    have := c.toNat_lt
    simp only [decimal, List.foldl_cons, List.foldl_nil]
    omega
  rw [hm, h0, if_pos hlt]

theorem make_title (ps : List Bytes) : makeVideoGame u db (.map [("title", .arr (ps.map Ast.str))]) = .ok (gameWhere db fun v => v.title == ps.flatten) := by
  have hm : ∀ x, makeVideoGame u db (.map [("title", x)]) = findVideoGameByTitle u db x := fun _ => rfl
  rw [hm, findByTitle_pieces]

theorem inv_one (h1 : FindsOne (fun c => IsDigit c ∧ c ≠ 0x30) r1) (h2 : FindsOne IsDigit r2) (hr : FindsBut 0x22 r) {s : Bytes} {v : Ast}
    (hy : Yields Op N (readme1 r1 r2 r) d (.lines (readme1 r1 r2 r)) s (.ok (some (v, [])))) : ∃ p, GameText1 s p ∧ v = gameWhere db p := by
  rcases inv_line hy with hy | ⟨_, hy⟩
  · obtain ⟨d', r0, h3, h4⟩ := inv_text rfl hy
    obtain ⟨v0, rfl, h5⟩ := inv_called_some h4
    rcases inv_one_alts h1 h2 hr h3 with ⟨c, l, rfl, hi, rfl⟩ | ⟨w, ps, rfl, hq, hf, rfl⟩
    · have h9 : (makeVideoGame u db (.map [("id", .str [c])])).map some = .ok (some v) := h5
      rw [make_id (hi.digits c (List.mem_cons_self ..))] at h9
      cases h9
      rw [List.append_nil]
      exact ⟨_, .id hi, rfl⟩
    · have h9 : (makeVideoGame u db (.map [("title", .arr (ps.map Ast.str))])).map some = .ok (some v) := h5
      rw [make_title, hf] at h9
      cases h9
      exact ⟨_, .title hq, rfl⟩
  · cases inv_linesEnd hy

theorem one_never_panics (h1 : FindsOne (fun c => IsDigit c ∧ c ≠ 0x30) r1) (h2 : FindsOne IsDigit r2) (hr : FindsBut 0x22 r) {s : Bytes} {x : Panic}
    (hy : Yields Op N (readme1 r1 r2 r) d (.lines (readme1 r1 r2 r)) s (.error x)) : False := by
  rcases inv_line hy with hy | ⟨_, hy⟩
  · obtain ⟨d', r0, h3, h4⟩ := inv_text rfl hy
    rcases inv_called_error h4 with rfl | ⟨c, v0, s', hc, rfl, h5⟩
    · exact inv_one_error h1 h2 hr h3
    · cases hc
      rcases inv_one_alts h1 h2 hr h3 with ⟨c, l, rfl, hi, rfl⟩ | ⟨w, ps, rfl, hq, hf, rfl⟩
      · have h9 : (makeVideoGame u db (.map [("id", .str [c])])).map some = .error x := h5
        rw [make_id (hi.digits c (List.mem_cons_self ..))] at h9
        cases h9
      · have h9 : (makeVideoGame u db (.map [("title", .arr (ps.map Ast.str))])).map some = .error x := h5
        rw [make_title] at h9
        cases h9
  · cases inv_linesEnd hy

theorem one_text (h1 : FindsOne (fun c => IsDigit c ∧ c ≠ 0x30) r1) (h2 : FindsOne IsDigit r2) (hr : FindsBut 0x22 r) {s : Bytes} {p : VideoGame → Bool} (h : GameText1 s p) :
    Yields Op N (readme1 r1 r2 r) (d + 1) (.lines (readme1 r1 r2 r)) s (.ok (some (gameWhere db p, []))) := by
  cases h with
  | @id c l hi =>
    have := one_id (u := u) (db := db) (N := N) (L := readme1 r1 r2 r) (d := d) (r := r) h1 h2 hi
    have hlt : decimal [c] < 2 ^ 63 := by
      have := c.toNat_lt
      simp only [decimal, List.foldl_cons, List.foldl_nil]
      omega
    rwa [byId, if_pos hlt] at this
  | @title w hw =>
    obtain ⟨ps, hf, hy⟩ := Yields.repBut (P := Op) (N := N) (L := readme1 r1 r2 r) (d := d) hr (h := true) (lab := "title") (.inl rfl) hw (title_stops (s := []))
    have hv : called Op N (some 0) (.ok (some (.map [("title", .arr (ps.map Ast.str))], []))) = .ok (some (gameWhere db (fun v => v.title == w), [])) := by
      simp only [called, gameOps, treePure, make_title, hf]
      rfl
    refine .altDone ?_ (by simp)
    rw [← hv]
    refine Yields.rtext (game_vp r1 r2 r) ?_
    refine Yields.bare (.inr rfl) (.alt (.altsMiss (Yields.bare (.inr rfl) (.seq (.itemsMiss (Yields.pclsMiss h1 (.inl rfl) title_noId)))) (.altsDone (Yields.bare (.inr rfl) (.seq ?_)) (by simp))))
    rw [one_title_form]
    refine .itemsPut (Yields.plit (b := [0x22])) (w := .undef) rfl ?_
    refine .itemsPut hy (w := .map [("title", .arr (ps.map Ast.str))]) rfl ?_
    refine .itemsPut (Yields.plit (b := [0x22]) (s := [])) (w := .map [("title", .arr (ps.map Ast.str))]) rfl ?_
    exact .itemsEnd rfl

end Joeson
