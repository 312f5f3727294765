import Verif.Proofs.Readme2
import Verif.Props.Readme
import Verif.Props.WellFormed
/-!
# C63: the VideoGame grammars of the README, all texts

What is looked up, for every text: also if it is not UTF-8.
-/

namespace Joeson
open RuleText hiding decimal
open Arith

variable {rx : Bytes → Option Regex} {r1 r2 r rb : Regex}

/-- The rule that can match nothing. -/
def gameEps (n : String) : Prop := n = "_"

/-- How rules are looked up before something is matched. -/
def gameRank : String → Nat
  | "VideoGame" => 1
  | _ => 0

/-- How deeply rules are nested. -/
def gameHeight : String → Nat
  | "VideoGame" => 3
  | "VideoGameBestOfYear" => 2
  | _ => 1

theorem five_known (r1 r2 r rb : Regex) {n : String} (h : n ∈ (["VideoGame", "VideoGameId", "VideoGameTitle", "VideoGameBestOfYear", "Year", "_"] : List String)) :
    Known (readme5 r1 r2 r rb) n := by
  have : n ∈ (rulesOf (readme5 r1 r2 r rb)).map (·.1) := h
  obtain ⟨⟨n', cb, b⟩, hm, rfl⟩ := List.mem_map.mp this
  exact ⟨cb, b, hm⟩

theorem one_rulesOf (r1 r2 r : Regex) : rulesOf (readme1 r1 r2 r) = [("VideoGame", some 0, .text (gameE r1 r2 r))] := rfl

theorem three_rulesOf (r1 r2 r : Regex) : rulesOf (readme3 r1 r2 r) =
    [("VideoGame", none, .rank [.alt "" (some 1) (.text (gameIdE r1 r2)), .alt "" (some 2) (.text (gameTitleE r))])] := rfl

theorem four_rulesOf (r1 r2 r : Regex) : rulesOf (readme4 r1 r2 r) =
    [("VideoGame", none, .rank [.alt "VideoGameId" (some 1) (.text (gameIdE r1 r2)), .alt "VideoGameTitle" (some 2) (.text (gameTitleE r))]),
     ("VideoGameId", some 1, .text (gameIdE r1 r2)), ("VideoGameTitle", some 2, .text (gameTitleE r))] := rfl

theorem five_rulesOf (r1 r2 r rb : Regex) : rulesOf (readme5 r1 r2 r rb) =
    [("VideoGame", none, .rank [.alt "VideoGameId" (some 1) (.text (gameIdE r1 r2)), .alt "VideoGameTitle" (some 2) (.text (gameTitleE r)),
       .alt "VideoGameBestOfYear" (some 3) (.text bestInE), .incl "Year" (some 4) (.text (yearE r2))]),
     ("VideoGameId", some 1, .text (gameIdE r1 r2)), ("VideoGameTitle", some 2, .text (gameTitleE r)), ("VideoGameBestOfYear", some 3, .text bestInE),
     ("Year", some 4, .text (yearE r2)), ("_", none, .text (gapE rb))] := rfl

theorem three_one : OneRule (readme3 r1 r2 r) := oneRule_of (by
  show (["VideoGame"] : List String).Nodup
  decide)

theorem four_one : OneRule (readme4 r1 r2 r) := oneRule_of (by
  show (["VideoGame", "VideoGameId", "VideoGameTitle"] : List String).Nodup
  decide)

/-- C63: the grammars are well formed. -/
theorem C63_well_formed (h : GameClasses rx r1 r2 r rb) (hq : FindsBut 0x22 r) : WellFormed (readme1 r1 r2 r) gameEps gameRank ∧ WellFormed (readme3 r1 r2 r) gameEps gameRank ∧
    WellFormed (readme4 r1 r2 r) gameEps gameRank ∧ WellFormed (readme5 r1 r2 r rb) gameEps gameRank := by
  have hk := @five_known r1 r2 r rb
  have f1 := finds_ne h.f1
  have f2 := finds_ne h.f2
  have f3 := finds_ne h.fb
  have f4 := hq.ne
  refine ⟨⟨?_, ?_, ?_⟩, ⟨?_, ?_, ?_⟩, ⟨?_, ?_, ?_⟩, ⟨?_, ?_, ?_⟩⟩
  · intro nm cb b hm hb
    rw [one_rulesOf] at hm
    simp only [List.mem_cons, List.not_mem_nil, or_false, Prod.mk.injEq] at hm
    obtain ⟨rfl, rfl, rfl⟩ := hm
    simp [Body.Eps, game_vp, VP.Eps, VP.EpsAll, VP.EpsAny, f1] at hb
  · intro nm cb b hm
    rw [one_rulesOf] at hm
    simp only [List.mem_cons, List.not_mem_nil, or_false, Prod.mk.injEq] at hm
    obtain ⟨rfl, rfl, rfl⟩ := hm
    simp [Body.Wf, VP.Wf, VP.WfSeq, VP.WfAll, game_vp, VP.Eps, VP.EpsAll, VP.EpsAny, f1, f2, f4]
  · simp [readme1, Body.Wf, linesWf, GLine.Wf, VP.Wf, VP.WfSeq, VP.WfAll, game_vp, VP.Eps, VP.EpsAll, VP.EpsAny, f1, f2, f4]
  · intro nm cb b hm hb
    rw [three_rulesOf] at hm
    simp only [List.mem_cons, List.not_mem_nil, or_false, Prod.mk.injEq] at hm
    obtain ⟨rfl, rfl, rfl⟩ := hm
    simp [Body.Eps, linesEps, GLine.Eps, gameId_vp, gameTitle_vp, VP.Eps, VP.EpsAll, VP.EpsAny, f1] at hb
  · intro nm cb b hm
    rw [three_rulesOf] at hm
    simp only [List.mem_cons, List.not_mem_nil, or_false, Prod.mk.injEq] at hm
    obtain ⟨rfl, rfl, rfl⟩ := hm
    simp [Body.Wf, linesWf, GLine.Wf, VP.Wf, VP.WfSeq, VP.WfAll, gameId_vp, gameTitle_vp, VP.Eps, VP.EpsAll, VP.EpsAny, f1, f2, f4]
  · simp [readme3, Body.Wf, linesWf, GLine.Wf, VP.Wf, VP.WfSeq, VP.WfAll, gameId_vp, gameTitle_vp, VP.Eps, VP.EpsAll, VP.EpsAny, f1, f2, f4]
  · intro nm cb b hm hb
    rw [four_rulesOf] at hm
    simp only [List.mem_cons, List.not_mem_nil, or_false, Prod.mk.injEq] at hm
    rcases hm with ⟨rfl, rfl, rfl⟩ | ⟨rfl, rfl, rfl⟩ | ⟨rfl, rfl, rfl⟩
    all_goals simp [Body.Eps, linesEps, GLine.Eps, gameId_vp, gameTitle_vp, VP.Eps, VP.EpsAll, VP.EpsAny, f1] at hb
  · intro nm cb b hm
    rw [four_rulesOf] at hm
    simp only [List.mem_cons, List.not_mem_nil, or_false, Prod.mk.injEq] at hm
    rcases hm with ⟨rfl, rfl, rfl⟩ | ⟨rfl, rfl, rfl⟩ | ⟨rfl, rfl, rfl⟩
    all_goals simp [Body.Wf, linesWf, GLine.Wf, VP.Wf, VP.WfSeq, VP.WfAll, gameId_vp, gameTitle_vp, VP.Eps, VP.EpsAll, VP.EpsAny, f1, f2, f4]
  · simp [readme4, Body.Wf, linesWf, GLine.Wf, VP.Wf, VP.WfSeq, VP.WfAll, gameId_vp, gameTitle_vp, VP.Eps, VP.EpsAll, VP.EpsAny, f1, f2, f4]
  · intro nm cb b hm hb
    rw [five_rulesOf] at hm
    simp only [List.mem_cons, List.not_mem_nil, or_false, Prod.mk.injEq] at hm
    rcases hm with ⟨rfl, rfl, rfl⟩ | ⟨rfl, rfl, rfl⟩ | ⟨rfl, rfl, rfl⟩ | ⟨rfl, rfl, rfl⟩ | ⟨rfl, rfl, rfl⟩ | ⟨rfl, rfl, rfl⟩
    all_goals simp [Body.Eps, linesEps, GLine.Eps, gameId_vp, gameTitle_vp, bestIn_vp, year_vp, gap_vp, VP.Eps, VP.EpsAll, VP.EpsAny, f1, gameEps] at hb ⊢
  · intro nm cb b hm
    rw [five_rulesOf] at hm
    simp only [List.mem_cons, List.not_mem_nil, or_false, Prod.mk.injEq] at hm
    rcases hm with ⟨rfl, rfl, rfl⟩ | ⟨rfl, rfl, rfl⟩ | ⟨rfl, rfl, rfl⟩ | ⟨rfl, rfl, rfl⟩ | ⟨rfl, rfl, rfl⟩ | ⟨rfl, rfl, rfl⟩
    all_goals simp [Body.Wf, linesWf, GLine.Wf, VP.Wf, VP.WfSeq, VP.WfAll, gameId_vp, gameTitle_vp, bestIn_vp, year_vp, gap_vp, VP.Eps, VP.EpsAll, VP.EpsAny, hk, gameRank, gameEps, f1, f2, f3, f4]
  · generalize Known (readme5 r1 r2 r rb) = K at hk ⊢
    simp [readme5, Body.Wf, linesWf, GLine.Wf, VP.Wf, VP.WfSeq, VP.WfAll, gameId_vp, gameTitle_vp, bestIn_vp, year_vp, gap_vp, VP.Eps, VP.EpsAll, VP.EpsAny, hk, gameEps, f1, f2, f3, f4]

theorem readme_flat (r1 r2 r rb : Regex) : Flat (readme1 r1 r2 r) gameHeight 3 ∧ Flat (readme3 r1 r2 r) gameHeight 3 ∧ Flat (readme4 r1 r2 r) gameHeight 3 ∧ Flat (readme5 r1 r2 r rb) gameHeight 3 := by
  refine ⟨⟨?_, ?_⟩, ⟨?_, ?_⟩, ⟨?_, ?_⟩, ⟨?_, ?_⟩⟩
  · intro nm cb b hm
    rw [one_rulesOf] at hm
    simp only [List.mem_cons, List.not_mem_nil, or_false, Prod.mk.injEq] at hm
    obtain ⟨rfl, rfl, rfl⟩ := hm
    simp [Body.Within, game_vp, VP.Within, VP.WithinAll, gameHeight]
  · simp [readme1, Body.Within, linesWithin, GLine.Within, game_vp, VP.Within, VP.WithinAll]
  · intro nm cb b hm
    rw [three_rulesOf] at hm
    simp only [List.mem_cons, List.not_mem_nil, or_false, Prod.mk.injEq] at hm
    obtain ⟨rfl, rfl, rfl⟩ := hm
    simp [Body.Within, linesWithin, GLine.Within, gameId_vp, gameTitle_vp, VP.Within, VP.WithinAll, gameHeight]
  · simp [readme3, Body.Within, linesWithin, GLine.Within, gameId_vp, gameTitle_vp, VP.Within, VP.WithinAll]
  · intro nm cb b hm
    rw [four_rulesOf] at hm
    simp only [List.mem_cons, List.not_mem_nil, or_false, Prod.mk.injEq] at hm
    rcases hm with ⟨rfl, rfl, rfl⟩ | ⟨rfl, rfl, rfl⟩ | ⟨rfl, rfl, rfl⟩
    all_goals simp [Body.Within, linesWithin, GLine.Within, gameId_vp, gameTitle_vp, VP.Within, VP.WithinAll, gameHeight]
  · simp [readme4, Body.Within, linesWithin, GLine.Within, gameId_vp, gameTitle_vp, VP.Within, VP.WithinAll]
  · intro nm cb b hm
    rw [five_rulesOf] at hm
    simp only [List.mem_cons, List.not_mem_nil, or_false, Prod.mk.injEq] at hm
    rcases hm with ⟨rfl, rfl, rfl⟩ | ⟨rfl, rfl, rfl⟩ | ⟨rfl, rfl, rfl⟩ | ⟨rfl, rfl, rfl⟩ | ⟨rfl, rfl, rfl⟩ | ⟨rfl, rfl, rfl⟩
    all_goals simp [Body.Within, linesWithin, GLine.Within, gameId_vp, gameTitle_vp, bestIn_vp, year_vp, gap_vp, VP.Within, VP.WithinAll, gameHeight]
  · simp [readme5, Body.Within, linesWithin, GLine.Within, gameId_vp, gameTitle_vp, bestIn_vp, year_vp, gap_vp, VP.Within, VP.WithinAll, gameHeight]

/-- C63: the texts that examples 2 to 4 give a game for are those of `GameText`, and the game is the one looked up, whatever the
database. -/
theorem C63_games (h : GameClasses rx r1 r2 r rb) (hq : FindsBut 0x22 r) (u : UserString) (db : List VideoGame) (text : Bytes) (v : Ast) :
    (LibGives rx (readme3 r1 r2 r) (gameOps u db) text (.ok (some (v, []))) ↔ ∃ p, GameText text p ∧ v = gameWhere db p) ∧
    (LibGives rx (readme4 r1 r2 r) (gameOps u db) text (.ok (some (v, []))) ↔ ∃ p, GameText text p ∧ v = gameWhere db p) := by
  obtain ⟨_, n3, n4, _⟩ := readme_names r1 r2 r rb
  obtain ⟨_, t3, t4, _⟩ := readme_texts h
  obtain ⟨_, w3, w4, _⟩ := C63_well_formed h hq
  obtain ⟨_, f3, f4, _⟩ := readme_flat r1 r2 r rb
  constructor
  · rw [C68_values_only n3 t3 w3 f3 (by decide) _ (fun _ _ => rfl)]
    constructor
    · intro hy
      rcases inv_line hy with hy | ⟨_, hy⟩
      · rcases inv_rankOf three_one h.f1 h.f2 hq hy with h | ⟨d, hy⟩
        · exact h
        · cases inv_linesEnd hy
      · cases inv_linesEnd hy
    · rintro ⟨p, hp, rfl⟩
      exact rank_text (d := 1) h.f1 h.f2 hq hp
  · rw [C68_values_only n4 t4 w4 f4 (by decide) _ (fun _ _ => rfl)]
    constructor
    · intro hy
      rcases inv_line hy with hy | ⟨_, hy⟩
      · rcases inv_rankOf four_one h.f1 h.f2 hq hy with h | ⟨d, hy⟩
        · exact h
        · cases inv_linesEnd hy
      · cases inv_linesEnd hy
    · rintro ⟨p, hp, rfl⟩
      exact rank_text (d := 1) h.f1 h.f2 hq hp

/-- C63: likewise for example 5, which also understands years. -/
theorem C63_games5 (h : GameClasses rx r1 r2 r rb) (hq : FindsBut 0x22 r) (u : UserString) (db : List VideoGame) (text : Bytes) (v : Ast) :
    LibGives rx (readme5 r1 r2 r rb) (gameOps u db) text (.ok (some (v, []))) ↔ ∃ p, GameText5 text p ∧ v = gameWhere db p := by
  rw [C68_values_only (readme_names r1 r2 r rb).2.2.2 (readme_texts h).2.2.2 (C63_well_formed h hq).2.2.2 (readme_flat r1 r2 r rb).2.2.2 (by decide) _ (fun _ _ => rfl)]
  refine ⟨inv_five h.f1 h.f2 hq h.fb, ?_⟩
  rintro ⟨p, hp, rfl⟩
  exact five_text (d := 0) h.f1 h.f2 hq h.fb hp

/-- C63: and example 1, which looks only at the first digit of a number. -/
theorem C63_games1 (h : GameClasses rx r1 r2 r rb) (hq : FindsBut 0x22 r) (u : UserString) (db : List VideoGame) (text : Bytes) (v : Ast) :
    LibGives rx (readme1 r1 r2 r) (gameOps u db) text (.ok (some (v, []))) ↔ ∃ p, GameText1 text p ∧ v = gameWhere db p := by
  rw [C68_values_only (readme_names r1 r2 r rb).1 (readme_texts h).1 (C63_well_formed h hq).1 (readme_flat r1 r2 r rb).1 (by decide) _ (fun _ _ => rfl)]
  refine ⟨inv_one h.f1 h.f2 hq, ?_⟩
  rintro ⟨p, hp, rfl⟩
  exact one_text (d := 2) h.f1 h.f2 hq hp

/-- C63: examples 2 to 5 panic for the texts that begin with a number that does not fit in an `int`, whatever follows it. -/
theorem C63_panics (h : GameClasses rx r1 r2 r rb) (hq : FindsBut 0x22 r) (u : UserString) (db : List VideoGame) (text : Bytes) (x : Panic) :
    (LibGives rx (readme3 r1 r2 r) (gameOps u db) text (.error x) ↔ x = .notANumber ∧ ∃ ds s, text = ds ++ s ∧ IsBig ds) ∧
    (LibGives rx (readme4 r1 r2 r) (gameOps u db) text (.error x) ↔ x = .notANumber ∧ ∃ ds s, text = ds ++ s ∧ IsBig ds) ∧
    (LibGives rx (readme5 r1 r2 r rb) (gameOps u db) text (.error x) ↔ x = .notANumber ∧ ∃ ds s, text = ds ++ s ∧ IsBig ds) := by
  obtain ⟨_, n3, n4, n5⟩ := readme_names r1 r2 r rb
  obtain ⟨_, t3, t4, t5⟩ := readme_texts h
  obtain ⟨_, w3, w4, w5⟩ := C63_well_formed h hq
  obtain ⟨_, f3, f4, f5⟩ := readme_flat r1 r2 r rb
  refine ⟨?_, ?_, ?_⟩
  · rw [C68_panics_only n3 t3 w3 f3 (by decide) _ (fun _ _ => rfl)]
    constructor
    · intro hy
      rcases inv_line hy with hy | ⟨_, hy⟩
      · rcases inv_rankOf_error three_one h.f1 h.f2 hq hy with h | ⟨d, hy⟩
        · exact h
        · cases inv_linesEnd hy
      · cases inv_linesEnd hy
    · rintro ⟨rfl, ds, s, rfl, hd⟩
      exact rank_panics (d := 1) h.f1 h.f2 hd
  · rw [C68_panics_only n4 t4 w4 f4 (by decide) _ (fun _ _ => rfl)]
    constructor
    · intro hy
      rcases inv_line hy with hy | ⟨_, hy⟩
      · rcases inv_rankOf_error four_one h.f1 h.f2 hq hy with h | ⟨d, hy⟩
        · exact h
        · cases inv_linesEnd hy
      · cases inv_linesEnd hy
    · rintro ⟨rfl, ds, s, rfl, hd⟩
      exact rank_panics (d := 1) h.f1 h.f2 hd
  · rw [C68_panics_only n5 t5 w5 f5 (by decide) _ (fun _ _ => rfl)]
    refine ⟨inv_five_error h.f1 h.f2 hq h.fb, ?_⟩
    rintro ⟨rfl, ds, s, rfl, hd⟩
    exact rank_panics (d := 1) h.f1 h.f2 hd

/-- C63: example 1 panics for no text. -/
theorem C63_one_never_panics (h : GameClasses rx r1 r2 r rb) (hq : FindsBut 0x22 r) (u : UserString) (db : List VideoGame) (text : Bytes) (x : Panic) :
    ¬ LibGives rx (readme1 r1 r2 r) (gameOps u db) text (.error x) := by
  rw [C68_panics_only (readme_names r1 r2 r rb).1 (readme_texts h).1 (C63_well_formed h hq).1 (readme_flat r1 r2 r rb).1 (by decide) _ (fun _ _ => rfl)]
  exact one_never_panics h.f1 h.f2 hq

/-- C63: all other texts are parse errors: example 5. -/
theorem C63_errors (h : GameClasses rx r1 r2 r rb) (hq : FindsBut 0x22 r) (u : UserString) (db : List VideoGame) (text : Bytes) (g1 : ∀ p, ¬ GameText5 text p)
    (g2 : ¬ ∃ ds s, text = ds ++ s ∧ IsBig ds) :
    ∃ o, LibGives rx (readme5 r1 r2 r rb) (gameOps u db) text o ∧ (o = .ok none ∨ ∃ v rest, rest ≠ [] ∧ o = .ok (some (v, rest))) := by
  obtain ⟨o, _, ho⟩ := C68_flat (readme_names r1 r2 r rb).2.2.2 (readme_texts h).2.2.2 (C63_well_formed h hq).2.2.2 (readme_flat r1 r2 r rb).2.2.2 (by decide) (gameOps u db) (fun _ _ => rfl) text
  refine ⟨o, ho, ?_⟩
  match o, ho with
  | .error x, ho => exact absurd ((C63_panics h hq u db text x).2.2.mp ho).2 g2
  | .ok none, _ => exact .inl rfl
  | .ok (some (v, rest)), ho =>
    refine .inr ⟨v, rest, ?_, rfl⟩
    rintro rfl
    obtain ⟨p, hp, _⟩ := (C63_games5 h hq u db text v).mp ho
    exact g1 p hp

namespace Sample

end Sample

open Sample in
/-- Two bytes that are no UTF-8, between quotes, are a title; `12` with a letter after it is not understood; a number that is
too large panics, also if a letter is after it. -/
example (u : UserString) (db : List VideoGame) : ∃ r1 r2 r rb, GameClasses gameRx r1 r2 r rb ∧ FindsBut 0x22 r ∧
    LibGives gameRx (readme5 r1 r2 r rb) (gameOps u db) [0x22, 0xFF, 0xC3, 0x22] (.ok (some (gameWhere db fun v => v.title == [0xFF, 0xC3], []))) ∧
    LibGives gameRx (readme1 r1 r2 r) (gameOps u db) (asc "73") (.ok (some (gameWhere db fun v => v.id == 7, []))) ∧
    LibGives gameRx (readme4 r1 r2 r) (gameOps u db) (asc "73") (.ok (some (gameWhere db fun v => v.id == 73, []))) ∧
    LibGives gameRx (readme3 r1 r2 r) (gameOps u db) (asc "9223372036854775808x") (.error .notANumber) ∧
    ∃ o, LibGives gameRx (readme5 r1 r2 r rb) (gameOps u db) (asc "12x") o ∧ (o = .ok none ∨ ∃ v rest, rest ≠ [] ∧ o = .ok (some (v, rest))) := by
  have hid : IsId (asc "73") := ⟨by unfold IsDigit; decide, _, _, rfl, by decide⟩
  have hbig : IsBig (asc "9223372036854775808") := ⟨⟨by unfold IsDigit; decide, _, _, rfl, by decide⟩, by decide⟩
  refine ⟨_, _, _, _, gameClasses_ex, notQuoteRe_but, (C63_games5 gameClasses_ex notQuoteRe_but u db _ _).mpr ⟨_, .game (.title (w := [0xFF, 0xC3]) (by decide)), rfl⟩,
    (C63_games1 gameClasses_ex notQuoteRe_but u db _ _).mpr ⟨_, .id hid, rfl⟩, (C63_games gameClasses_ex notQuoteRe_but u db _ _).2.mpr ⟨_, .id hid (by decide), rfl⟩,
    (C63_panics gameClasses_ex notQuoteRe_but u db _ _).1.mpr ⟨rfl, _, asc "x", rfl, hbig⟩, C63_errors gameClasses_ex notQuoteRe_but u db _ ?_ ?_⟩
  · intro p hp
    have hx : ∀ t p, GameText5 t p → t.head? = some 0x31 → ∀ c ∈ t, IsDigit c := by
      intro t p hp hh
      cases hp with
      | game hp =>
        cases hp with
        | id hi _ => exact hi.1
        | title _ => cases hh
      | year hw _ => cases hh
    have := hx _ p hp rfl 0x78 (by decide)
    exact absurd this (by unfold IsDigit; decide)
  · rintro ⟨ds, s, he, hd⟩
    have hle : ds.length ≤ 2 := by
      rcases Nat.lt_or_ge 2 ds.length with h | h
      · have : ds = asc "12x" := by
          have hl : ds.length ≤ (asc "12x").length := by rw [he]; simp
          have e3 : (asc "12x").length = 3 := rfl
          have : s = [] := List.eq_nil_of_length_eq_zero (by have := congrArg List.length he; simp at this; omega)
          rw [this] at he; simpa using he.symm
        exact absurd (hd.1.1 0x78 (by rw [this]; decide)) (by unfold IsDigit; decide)
      · exact h
    have h2 : decimal ds < 2 ^ 63 := by
      match ds, hle with
      | [], _ => decide
      | [a], _ =>
        have := a.toNat_lt
        simp only [decimal, List.foldl_cons, List.foldl_nil]; omega
      | [a, b], _ =>
        have := a.toNat_lt
        have := b.toNat_lt
        simp only [decimal, List.foldl_cons, List.foldl_nil]; omega
    exact absurd hd.2 (by omega)

end Joeson
