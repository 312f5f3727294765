import Verif.Spec.Readme
import Verif.Proofs.Deriv
import Verif.Proofs.Calculator2
/-! # The VideoGame grammars of the README: what the rules match -/

namespace Joeson
open RuleText hiding decimal
open Arith

variable {u : UserString} {db : List VideoGame} {N : Nat} {L : List GLine} {d : Nat}

theorem gameId_vp (r1 r2 : Regex) : (gameIdE r1 r2).vp = .seq "" [.re "" r1, .rep "" (.re "" r2) none 0 none] := rfl
theorem gameTitle_vp (r : Regex) : (gameTitleE r).vp = .seq "" [.lit "" [0x22], .rep "" (.re "" r) none 0 none, .lit "" [0x22]] := by kernel_rfl
theorem game_vp (r1 r2 r : Regex) : (gameE r1 r2 r).vp = .alt "" [.seq "" [.re "id" r1, .rep "" (.re "" r2) none 0 none],
    .seq "" [.lit "" [0x22], .rep "title" (.re "" r) none 0 none, .lit "" [0x22]]] := by kernel_rfl
theorem bestIn_vp : bestInE.vp = .seq "" [.lit "" [0x62, 0x65, 0x73, 0x74, 0x49, 0x6E, 0x3A], .name "" "_" true, .name "" "Year" false] := by kernel_rfl
theorem year_vp (r : Regex) : (yearE r).vp = .seq "" [.alt "a" [.lit "" [0x31, 0x39], .lit "" [0x32, 0x30], .lit "" [0x32, 0x31]], .re "b" r, .re "c" r] := by kernel_rfl
theorem gap_vp (r : Regex) : (gapE r).vp = .rep "" (.re "" r) none 0 none := rfl

theorem findGame_eq (p : VideoGame → Bool) : ∀ db, findGame p db = (db.find? p).getD notFoundGame
  | [] => rfl
  | v :: l => by
    unfold findGame
    rw [List.find?_cons, findGame_eq p l]
    cases p v <;> rfl

theorem concat_bytes (u : UserString) : ∀ w : Bytes, Ast.concatArray u (w.map fun b => .str [b]) = w
  | [] => by simp [Ast.concatArray]
  | b :: w => by simp [Ast.concatArray, Ast.inArray, concat_bytes u w]

theorem concat_runes (u : UserString) : ∀ w : List Nat, Ast.concatArray u (w.map fun c => .str (Spec.utf8 [c])) = Spec.utf8 w
  | [] => by simp [Ast.concatArray, Spec.utf8]
  | b :: w => by rw [List.map_cons, utf8_split b w, Ast.concatArray, Ast.inArray, concat_runes u w]

theorem atoi_decimal {ds : Bytes} (hne : ds ≠ []) (hd : ∀ c ∈ ds, IsDigit c) : atoi ds = if decimal ds < 2 ^ 63 then some (decimal ds : Int) else none := by
  have h := Calc.atoi_number false ds hne hd
  simp only [Bool.false_eq_true, if_false, List.nil_append] at h
  rw [h]
  unfold number Arith.Fits
  simp only [Bool.false_eq_true, if_false]
  by_cases h : decimal ds < 2 ^ 63
  · rw [if_pos h, if_pos (by omega)]
  · rw [if_neg h, if_neg (by omega)]

/-- Looking up the number. -/
theorem findById_arr {it : Ast} {ds : Bytes} (hit : it = .str ds ∨ ∃ l, it = .arr l ∧ Ast.concatArray u l = ds) (hne : ds ≠ []) (hd : ∀ c ∈ ds, IsDigit c) :
    findVideoGameById u db it = if decimal ds < 2 ^ 63 then .ok (gameWhere db (fun v => v.id == decimal ds)) else .error .notANumber := by
  unfold findVideoGameById newNativeIntFrom gameWhere
  rcases hit with rfl | ⟨l, rfl, hl⟩
  · simp only [nativeIntFrom, atoi_decimal hne hd]
    by_cases h : decimal ds < 2 ^ 63
    · simp only [if_pos h, findGame_eq]; rfl
    · simp only [if_neg h]; rfl
  · simp only [nativeIntFrom, newNativeIntFromString, hl, atoi_decimal hne hd]
    by_cases h : decimal ds < 2 ^ 63
    · simp only [if_pos h, findGame_eq]; rfl
    · simp only [if_neg h]; rfl

variable {r1 r2 r rb : Regex}

/-- `[1-9][0-9]*` -/
theorem gameId_yields (h1 : FindsOne (fun c => IsDigit c ∧ c ≠ 0x30) r1) (h2 : FindsOne IsDigit r2) {c : UInt8} {ds : Bytes} (hc : IsDigit c ∧ c ≠ 0x30) (hds : ∀ x ∈ ds, IsDigit x)
    {s : Bytes} (hs : NoneOf IsDigit s) :
    Yields (gameOps u db) N L d (.part false (gameIdE r1 r2).vp) (c :: ds ++ s) (.ok (some (.arr [.str [c], .arr (ds.map fun b => .str [b])], s))) := by
  rw [gameId_vp]
  refine Yields.bare (.inr rfl) (.seq ?_)
  have hf : formOf [VP.re "" r1, .rep "" (.re "" r2) none 0 none] = .array := rfl
  rw [hf]
  refine .itemsPut (Yields.pcls h1 (.inl rfl) hc _) rfl ?_
  refine .itemsPut (Yields.repCls h2 (.inl rfl) hds hs) rfl ?_
  exact .itemsEnd rfl

theorem gameId_miss (h1 : FindsOne (fun c => IsDigit c ∧ c ≠ 0x30) r1) {s : Bytes} (hs : NoneOf (fun c => IsDigit c ∧ c ≠ 0x30) s) :
    Yields (gameOps u db) N L d (.part false (gameIdE r1 r2).vp) s (.ok none) := by
  rw [gameId_vp]
  exact Yields.bare (.inr rfl) (.seq (.itemsMiss (Yields.pclsMiss h1 (.inl rfl) hs)))

theorem quote_end : NoneOf (· ≠ 0x22) ([0x22] : Bytes) := by
  intro c s' h hc
  cases h
  exact hc rfl

/-- `'"' [^"]* '"'` -/
theorem gameTitle_yields (hr : FindsRune (· ≠ 0x22) (· ≠ 0x22) r) {w : List Nat} (hw : IsTitle w) :
    Yields (gameOps u db) N L d (.part false (gameTitleE r).vp) (quoted w) (.ok (some (.arr (w.map fun c => .str (Spec.utf8 [c])), []))) := by
  rw [gameTitle_vp]
  refine Yields.bare (.inr rfl) (.seq ?_)
  have hf : formOf [VP.lit "" [0x22], .rep "" (.re "" r) none 0 none, .lit "" [0x22]] = .single := rfl
  rw [hf]
  refine .itemsPut (Yields.plit (b := [0x22])) rfl ?_
  refine .itemsPut (Yields.repRune hr (.inl rfl) hw quote_end) rfl ?_
  refine .itemsPut (Yields.plit (b := [0x22]) (s := [])) rfl ?_
  exact .itemsEnd rfl

theorem quoted_none (w : List Nat) : NoneOf (fun c => IsDigit c ∧ c ≠ 0x30) (quoted w) := by
  intro c s' h hc
  cases h
  exact absurd hc.1 (by unfold IsDigit; decide)

/-- The rank with the two alternatives, and what follows. -/
def rankOf (r1 r2 r : Regex) (n1 n2 : String) (more top : List GLine) : List GLine :=
  .alt "VideoGame" none (.rank (.alt n1 (some 1) (.text (gameIdE r1 r2)) :: .alt n2 (some 2) (.text (gameTitleE r)) :: more)) :: top

theorem IsId.split {ds : Bytes} (h : IsId ds) : ∃ c l, ds = c :: l ∧ (IsDigit c ∧ c ≠ 0x30) ∧ ∀ x ∈ l, IsDigit x := by
  obtain ⟨c, l, rfl, hc⟩ := h.first
  exact ⟨c, l, rfl, ⟨h.digits _ (List.mem_cons_self ..), hc⟩, fun x hx => h.digits x (List.mem_cons_of_mem _ hx)⟩

theorem id_value {c : UInt8} {l : Bytes} (hc : IsDigit c ∧ c ≠ 0x30) (hl : ∀ x ∈ l, IsDigit x) :
    called (gameOps u db) N (some 1) (.ok (some (.arr [.str [c], .arr (l.map fun b => .str [b])], []))) = byId db (c :: l) := by
  have h0 := findById_arr (u := u) (db := db) (it := .arr [.str [c], .arr (l.map fun b => .str [b])]) (ds := c :: l)
    (.inr ⟨_, rfl, by simp [Ast.concatArray, Ast.inArray, concat_bytes]⟩) (by simp) (by
      intro x hx
      rcases List.mem_cons.mp hx with rfl | hx
      · exact hc.1
      · exact hl x hx)
  simp only [called, gameOps, treePure, h0, byId]
  by_cases h : decimal (c :: l) < 2 ^ 63
  · simp only [if_pos h]; rfl
  · simp only [if_neg h]; rfl

theorem byId_ne (ds : Bytes) : byId db ds ≠ .ok none := by
  unfold byId
  split <;> simp

theorem rank_id (h1 : FindsOne (fun c => IsDigit c ∧ c ≠ 0x30) r1) (h2 : FindsOne IsDigit r2) {n1 n2 : String} {more top : List GLine} {ds : Bytes} (h : IsId ds) :
    Yields (gameOps u db) N L (d + 2) (.lines (rankOf r1 r2 r n1 n2 more top)) ds (byId db ds) := by
  obtain ⟨c, l, rfl, hc, hl⟩ := h.split
  have hy := gameId_yields (u := u) (db := db) (N := N) (L := L) (d := d) h1 h2 hc hl NoneOf.nil
  rw [List.append_nil] at hy
  have h3 := Yields.text (cb := some 1) hy
  rw [id_value hc hl] at h3
  have h4 := Yields.rank (cb := none) (Yields.altDone (nm := n1) (ls := .alt n2 (some 2) (.text (gameTitleE r)) :: more) h3 (byId_ne _))
  have h5 : called (gameOps u db) N none (byId db (c :: l)) = byId db (c :: l) := by
    unfold byId
    split <;> rfl
  rw [h5] at h4
  exact .altDone h4 (byId_ne _)

theorem title_value {w : List Nat} : called (gameOps u db) N (some 2) (.ok (some (.arr (w.map fun c => .str (Spec.utf8 [c])), []))) = byTitle db w := by
  simp only [called, gameOps, treePure, findVideoGameByTitle, newNativeStringFrom, nativeStringFrom, concat_runes, findGame_eq, byTitle, gameWhere]
  rfl

theorem rank_title (h1 : FindsOne (fun c => IsDigit c ∧ c ≠ 0x30) r1) (hr : FindsRune (· ≠ 0x22) (· ≠ 0x22) r) {n1 n2 : String} {more top : List GLine} {w : List Nat} (h : IsTitle w) :
    Yields (gameOps u db) N L (d + 2) (.lines (rankOf r1 r2 r n1 n2 more top)) (quoted w) (byTitle db w) := by
  have h2 := Yields.text (cb := some 1) (gameId_miss (u := u) (db := db) (N := N) (L := L) (d := d) (r2 := r2) h1 (quoted_none w))
  have h3 := Yields.text (cb := some 2) (gameTitle_yields (u := u) (db := db) (N := N) (L := L) (d := d) hr h)
  rw [title_value] at h3
  have h4 := Yields.rank (cb := none) (Yields.altMiss (nm := n1) h2 (Yields.altDone (nm := n2) (ls := more) h3 (by simp [byTitle])))
  exact .altDone h4 (by simp [byTitle])

/-! ## Example 1 -/

theorem one_id (h1 : FindsOne (fun c => IsDigit c ∧ c ≠ 0x30) r1) (h2 : FindsOne IsDigit r2) {c : UInt8} {l : Bytes} (h : IsId (c :: l)) :
    Yields (gameOps u db) N L (d + 1) (.lines (readme1 r1 r2 r)) (c :: l) (byId db [c]) := by
  obtain ⟨c', l', he, hc, hl⟩ := h.split
  cases he
  have hy : Yields (gameOps u db) N L d (.part false (gameE r1 r2 r).vp) (c :: l) (.ok (some (.map [("id", .str [c])], []))) := by
    rw [game_vp]
    refine Yields.bare (.inr rfl) (.alt (.altsDone (Yields.bare (.inr rfl) (.seq ?_)) (by simp)))
    have hf : formOf [VP.re "id" r1, .rep "" (.re "" r2) none 0 none] = .object := rfl
    rw [hf]
    refine .itemsPut (Yields.pcls h1 (.inl rfl) hc _) (w := .map [("id", .str [c])]) rfl ?_
    have := Yields.repCls (P := gameOps u db) (N := N) (L := L) (d := d) h2 (h := true) (lab := "") (.inl rfl) hl (NoneOf.nil)
    rw [List.append_nil] at this
    refine .itemsPut this (w := .map [("id", .str [c])]) rfl ?_
    exact .itemsEnd rfl
  have h3 := Yields.text (cb := some 0) hy
  have h0 := findById_arr (u := u) (db := db) (it := .str [c]) (ds := [c]) (.inl rfl) (by simp) (by simpa using hc.1)
  have hv : called (gameOps u db) N (some 0) (.ok (some (.map [("id", .str [c])], []))) = byId db [c] := by
    have hm : makeVideoGame u db (.map [("id", .str [c])]) = findVideoGameById u db (.str [c]) := rfl
    simp only [called, gameOps, treePure, hm, h0, byId]
    by_cases h : decimal [c] < 2 ^ 63
    · simp only [if_pos h]; rfl
    · simp only [if_neg h]; rfl
  rw [hv] at h3
  exact .altDone h3 (byId_ne _)

theorem one_title (h1 : FindsOne (fun c => IsDigit c ∧ c ≠ 0x30) r1) (hr : FindsRune (· ≠ 0x22) (· ≠ 0x22) r) {w : List Nat} (h : IsTitle w) :
    Yields (gameOps u db) N L (d + 1) (.lines (readme1 r1 r2 r)) (quoted w) (byTitle db w) := by
  have hy : Yields (gameOps u db) N L d (.part false (gameE r1 r2 r).vp) (quoted w) (.ok (some (.map [("title", .arr (w.map fun c => .str (Spec.utf8 [c])))], []))) := by
    rw [game_vp]
    refine Yields.bare (.inr rfl) (.alt (.altsMiss (Yields.bare (.inr rfl) (.seq (.itemsMiss (Yields.pclsMiss h1 (.inl rfl) (quoted_none w))))) (.altsDone (Yields.bare (.inr rfl) (.seq ?_)) (by simp))))
    have hf : formOf [VP.lit "" [0x22], .rep "title" (.re "" r) none 0 none, .lit "" [0x22]] = .object := rfl
    rw [hf]
    refine .itemsPut (Yields.plit (b := [0x22])) (w := .undef) rfl ?_
    refine .itemsPut (Yields.repRune hr (.inl rfl) h quote_end) (w := .map [("title", .arr (w.map fun c => .str (Spec.utf8 [c])))]) rfl ?_
    refine .itemsPut (Yields.plit (b := [0x22]) (s := [])) (w := .map [("title", .arr (w.map fun c => .str (Spec.utf8 [c])))]) rfl ?_
    exact .itemsEnd rfl
  have h3 := Yields.text (cb := some 0) hy
  have hv : called (gameOps u db) N (some 0) (.ok (some (.map [("title", .arr (w.map fun c => .str (Spec.utf8 [c])))], []))) = byTitle db w := by
    have hm : ∀ x, makeVideoGame u db (.map [("title", x)]) = findVideoGameByTitle u db x := fun _ => rfl
    simp only [called, gameOps, treePure, hm, findVideoGameByTitle, newNativeStringFrom, nativeStringFrom, concat_runes, findGame_eq, byTitle, gameWhere]
    rfl
  rw [hv] at h3
  exact .altDone h3 (by simp [byTitle])

/-! ## Example 5 -/

theorem year_yields (h2 : FindsOne IsDigit r2) {ds : Bytes} (h : IsYear ds) :
    Yields (gameOps u db) N L (d + 1) (.rule (some 4) (.text (yearE r2))) ds (.ok (some (.str ds, []))) := by
  obtain ⟨c, b1, b2, rfl, hc, hb1, hb2⟩ := h
  have hl : ∀ (b : Bytes) (s : Bytes), b.length = 2 → ∀ c, c.length = 2 → c ≠ b → ∀ s', c ++ s ≠ b ++ s' := by
    intro b s hb c hc hne s' he
    exact hne (List.append_inj_left he (by omega))
  have ha : Yields (gameOps u db) N L d (.part true (.alt "a" [.lit "" [0x31, 0x39], .lit "" [0x32, 0x30], .lit "" [0x32, 0x31]])) (c ++ [b1, b2]) (.ok (some (.str c, [b1, b2]))) := by
    refine Yields.bare (.inl rfl) (.alt ?_)
    rcases hc with rfl | rfl | rfl
    · exact .altsDone (Yields.plit (b := [0x31, 0x39])) (by simp)
    · exact .altsMiss (Yields.plitMiss (hl _ _ rfl _ rfl (by decide))) (.altsDone (Yields.plit (b := [0x32, 0x30])) (by simp))
    · exact .altsMiss (Yields.plitMiss (hl _ _ rfl _ rfl (by decide))) (.altsMiss (Yields.plitMiss (hl _ _ rfl _ rfl (by decide))) (.altsDone (Yields.plit (b := [0x32, 0x31])) (by simp)))
  have hy : Yields (gameOps u db) N L d (.part false (yearE r2).vp) (c ++ [b1, b2]) (.ok (some (.map [("a", .str c), ("b", .str [b1]), ("c", .str [b2])], []))) := by
    rw [year_vp]
    refine Yields.bare (.inr rfl) (.seq ?_)
    have hf : formOf [VP.alt "a" [.lit "" [0x31, 0x39], .lit "" [0x32, 0x30], .lit "" [0x32, 0x31]], .re "b" r2, .re "c" r2] = .object := by kernel_rfl
    rw [hf]
    refine .itemsPut ha (w := .map [("a", .str c)]) rfl ?_
    refine .itemsPut (Yields.pcls h2 (.inl rfl) hb1 _) (w := .map [("a", .str c), ("b", .str [b1])]) rfl ?_
    refine .itemsPut (Yields.pcls h2 (.inl rfl) hb2 _) (w := .map [("a", .str c), ("b", .str [b1]), ("c", .str [b2])]) rfl ?_
    exact .itemsEnd rfl
  have h3 := Yields.text (cb := some 4) hy
  have hv : called (gameOps u db) N (some 4) (.ok (some (.map [("a", .str c), ("b", .str [b1]), ("c", .str [b2])], []))) = .ok (some (.str (c ++ [b1, b2]), [])) := by
    simp [called, gameOps, treePure, concatOfMap, Ast.concatMap, Ast.inMap]
    rfl
  rw [hv] at h3
  exact h3

theorem IsYear.digits {ds : Bytes} (h : IsYear ds) : ds ≠ [] ∧ (∀ c ∈ ds, IsDigit c) ∧ decimal ds < 2 ^ 63 := by
  obtain ⟨c, b1, b2, rfl, hc, hb1, hb2⟩ := h
  refine ⟨by simp, ?_, ?_⟩
  · intro x hx
    simp only [List.mem_append, List.mem_cons, List.not_mem_nil, or_false] at hx
    rcases hx with hx | rfl | rfl
    · rcases hc with rfl | rfl | rfl <;>
      · revert x
        unfold IsDigit
        decide
    · exact hb1
    · exact hb2
  · have hb1 := hb1.2
    have hb2 := hb2.2
    rcases hc with rfl | rfl | rfl <;> simp [decimal, asc] <;> omega

/-- `'bestIn:' _ Year` -/
theorem best_yields (h2 : FindsOne IsDigit r2) (hb : FindsOne IsBlank rb) {w ds : Bytes} (hw : ∀ b ∈ w, IsBlank b) (h : IsYear ds) :
    Yields (gameOps u db) N (readme5 r1 r2 r rb) (d + 1) (.part false bestInE.vp) (asc "bestIn:" ++ w ++ ds) (.ok (some (.str ds, []))) := by
  rw [bestIn_vp, List.append_assoc]
  refine Yields.bare (.inr rfl) (.seq ?_)
  have hf : formOf [VP.lit "" [0x62, 0x65, 0x73, 0x74, 0x49, 0x6E, 0x3A], .name "" "_" true, .name "" "Year" false] = .single := by kernel_rfl
  rw [hf]
  refine .itemsPut (Yields.plit (b := [0x62, 0x65, 0x73, 0x74, 0x49, 0x6E, 0x3A])) (w := .undef) rfl ?_
  have hmem : ("_", none, Body.text (gapE rb)) ∈ rulesOf (readme5 r1 r2 r rb) := by simp [readme5, rulesOf, GLine.rules, Body.rules]
  have hmem' : ("Year", some 4, Body.text (yearE r2)) ∈ rulesOf (readme5 r1 r2 r rb) := by simp [readme5, rulesOf, GLine.rules, Body.rules]
  have hn : NoneOf IsBlank ds := by
    intro c s' he hc
    obtain ⟨_, hd, _⟩ := h.digits
    have := hd c (by rw [he]; exact List.mem_cons_self ..)
    unfold IsBlank at hc
    unfold IsDigit at this
    rcases hc with rfl | rfl <;> revert this <;> decide
  have hg := Yields.rtext (P := gameOps u db) (N := N) (L := readme5 r1 r2 r rb) (d := d) (cb := none) (gap_vp rb) (Yields.repCls hb (.inr rfl) hw hn)
  refine .itemsPut (Yields.call (.inl rfl) hmem hg) (w := .undef) rfl ?_
  refine .itemsPut (Yields.call (.inl rfl) hmem' (year_yields h2 h)) (w := .str ds) rfl ?_
  exact .itemsEnd rfl

theorem five_best (h1 : FindsOne (fun c => IsDigit c ∧ c ≠ 0x30) r1) (h2 : FindsOne IsDigit r2) (hb : FindsOne IsBlank rb) {w ds : Bytes} (hw : ∀ b ∈ w, IsBlank b) (h : IsYear ds) :
    Yields (gameOps u db) N (readme5 r1 r2 r rb) (d + 3) (.lines (readme5 r1 r2 r rb)) (asc "bestIn:" ++ w ++ ds) (byYear db ds) := by
  have hn : ∀ s, NoneOf (fun c => IsDigit c ∧ c ≠ 0x30) (asc "bestIn:" ++ s) := by
    intro s c s' he hc
    have : c = 0x62 := by injection he with h1 _; exact h1.symm
    subst this
    exact absurd hc.1 (by unfold IsDigit; decide)
  have m1 := Yields.text (cb := some 1) (gameId_miss (u := u) (db := db) (N := N) (L := readme5 r1 r2 r rb) (d := d + 1) (r2 := r2) h1 (hn (w ++ ds)))
  have m2 : Yields (gameOps u db) N (readme5 r1 r2 r rb) (d + 2) (.rule (some 2) (.text (gameTitleE r))) (asc "bestIn:" ++ (w ++ ds)) (.ok none) := by
    refine Yields.rtext (cb := some 2) (r := .ok none) (gameTitle_vp r) ?_
    exact Yields.bare (.inr rfl) (.seq (.itemsMiss (Yields.plitMiss fun s' he => by injection he with h1 _; exact absurd h1 (by decide))))
  have m3 := Yields.text (cb := some 3) (best_yields (u := u) (db := db) (N := N) (d := d) (r1 := r1) (r := r) h2 hb hw h)
  have hv : called (gameOps u db) N (some 3) (.ok (some (.str ds, []))) = byYear db ds := by
    obtain ⟨hne, hd, hlt⟩ := h.digits
    simp only [called, gameOps, treePure, findBestVideoGameOfYear, newNativeIntFrom, nativeIntFrom, atoi_decimal hne hd, if_pos hlt, findGame_eq, byYear, gameWhere]
    rfl
  rw [hv] at m3
  rw [List.append_assoc] at m3 ⊢
  have h4 := Yields.rank (cb := none) (Yields.altMiss (nm := "VideoGameId") m1 (Yields.altMiss (nm := "VideoGameTitle") m2 (Yields.altDone (nm := "VideoGameBestOfYear")
    (ls := [.incl "Year" (some 4) (.text (yearE r2))]) m3 (by simp [byYear]))))
  exact .altDone h4 (by simp [byYear])

end Joeson
