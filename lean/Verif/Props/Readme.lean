import Verif.Proofs.Readme
import Verif.Proofs.Until
import Verif.Props.Calculator
/-!
# C63: the VideoGame grammars of the README
-/

namespace Joeson
open RuleText hiding decimal
open Arith

/-- The regular expressions of the grammars, compiled, and what they find. -/
structure GameClasses (rx : Bytes → Option Regex) (r1 r2 r rb : Regex) : Prop where
  c1 : rx (asc "[1-9]") = some r1
  c2 : rx (asc "[0-9]") = some r2
  c : rx (asc "[^\"]") = some r
  cb : rx (asc "[ \\t]") = some rb
  /-- `[1-9]` -/
  f1 : FindsOne (fun c => IsDigit c ∧ c ≠ 0x30) r1
  /-- `[0-9]` -/
  f2 : FindsOne IsDigit r2
  /-- `[^"]` -/
  f : FindsRune (· ≠ 0x22) (· ≠ 0x22) r
  /-- `[ \t]` -/
  fb : FindsOne IsBlank rb

/-- The texts are those of readme_02alternation_test.go:83-112. -/
example (r1 r2 r rb : Regex) : (gameE r1 r2 r).text = asc "id:[1-9][0-9]* | '\"' title:([^\"]*) '\"'" ∧ (gameIdE r1 r2).text = asc "[1-9][0-9]*" ∧
    (gameTitleE r).text = asc "'\"' [^\"]* '\"'" ∧ bestInE.text = asc "'bestIn:' _ Year" ∧
    (yearE r2).text = asc "a:('19'|'20'|'21') b:[0-9] c:[0-9]" ∧ (gapE rb).text = asc "[ \\t]*" :=
  ⟨by kernel_rfl, by kernel_rfl, by kernel_rfl, by kernel_rfl, by kernel_rfl, by kernel_rfl⟩

theorem readme_names (r1 r2 r rb : Regex) : GoodNames (readme1 r1 r2 r) ∧ GoodNames (readme3 r1 r2 r) ∧ GoodNames (readme4 r1 r2 r) ∧ GoodNames (readme5 r1 r2 r rb) := by
  have hh : ∀ x : String, x ∈ (["VideoGame", "VideoGameId", "VideoGameTitle", "VideoGameBestOfYear", "Year", "_"] : List String) → '[' ∉ x.toList := by
    intro x hx
    simp only [List.mem_cons, List.not_mem_nil, or_false] at hx
    rcases hx with rfl | rfl | rfl | rfl | rfl | rfl <;> decide
  refine ⟨goodNames_of rfl ?_ fun d hd => hh _ ?_, goodNames_of rfl ?_ fun d hd => hh _ ?_, goodNames_of rfl ?_ fun d hd => hh _ ?_, goodNames_of rfl ?_ fun d hd => hh _ ?_⟩
  · show (["VideoGame"] : List String).Nodup
    decide
  · have : d.1 ∈ ["VideoGame"] := List.mem_map_of_mem (f := (·.1)) hd
    simp only [List.mem_cons, List.not_mem_nil, or_false] at this ⊢
    tauto
  · show (["VideoGame"] : List String).Nodup
    decide
  · have : d.1 ∈ ["VideoGame"] := List.mem_map_of_mem (f := (·.1)) hd
    simp only [List.mem_cons, List.not_mem_nil, or_false] at this ⊢
    tauto
  · show (["VideoGame", "VideoGameId", "VideoGameTitle"] : List String).Nodup
    decide
  · have : d.1 ∈ ["VideoGame", "VideoGameId", "VideoGameTitle"] := List.mem_map_of_mem (f := (·.1)) hd
    simp only [List.mem_cons, List.not_mem_nil, or_false] at this ⊢
    tauto
  · show (["VideoGame", "VideoGameId", "VideoGameTitle", "VideoGameBestOfYear", "Year", "_"] : List String).Nodup
    decide
  · exact List.mem_map_of_mem (f := (·.1)) hd

variable {rx : Bytes → Option Regex} {r1 r2 r rb : Regex}

theorem readme_texts (h : GameClasses rx r1 r2 r rb) : AllLines (TextOk rx (readme1 r1 r2 r)) (readme1 r1 r2 r) ∧ AllLines (TextOk rx (readme3 r1 r2 r)) (readme3 r1 r2 r) ∧
    AllLines (TextOk rx (readme4 r1 r2 r)) (readme4 r1 r2 r) ∧ AllLines (TextOk rx (readme5 r1 r2 r rb)) (readme5 r1 r2 r rb) := by
  refine ⟨textsOk_rx (by kernel_rfl) ?_, textsOk_rx (by kernel_rfl) ?_, textsOk_rx (by kernel_rfl) ?_, textsOk_rx (by kernel_rfl) ?_⟩
  · simp only [readme1, AllLines, GLine.All, Body.All, Expr.RxOk, Units.RxOk, Alts.RxOk, Deco.RxOk, Prim.RxOk, gameE, quoteP, and_true, true_and]
    exact ⟨⟨h.c1, h.c2⟩, h.c⟩
  · simp only [readme3, AllLines, GLine.All, Body.All, Expr.RxOk, Units.RxOk, Deco.RxOk, Prim.RxOk, gameIdE, gameTitleE, quoteP, and_true, true_and]
    exact ⟨⟨h.c1, h.c2⟩, h.c⟩
  · simp only [readme4, AllLines, GLine.All, Body.All, Expr.RxOk, Units.RxOk, Deco.RxOk, Prim.RxOk, gameIdE, gameTitleE, quoteP, and_true, true_and]
    exact ⟨⟨h.c1, h.c2⟩, h.c⟩
  · simp only [readme5, AllLines, GLine.All, Body.All, Expr.RxOk, Units.RxOk, Alts.RxOk, Deco.RxOk, Prim.RxOk, gameIdE, gameTitleE, bestInE, yearE, gapE, quoteP, and_true, true_and]
    exact ⟨⟨⟨h.c1, h.c2⟩, h.c, h.c2, h.c2⟩, h.cb⟩

/-- C63: the rank grammars of the README (examples 2 to 5) look a game up by its number, whatever the database. A number that
does not fit in an `int` panics. -/
theorem C63_by_id (h : GameClasses rx r1 r2 r rb) (u : UserString) (db : List VideoGame) (ds : Bytes) (hd : IsId ds) :
    LibGives rx (readme3 r1 r2 r) (gameOps u db) ds (byId db ds) ∧ LibGives rx (readme4 r1 r2 r) (gameOps u db) ds (byId db ds) ∧
      LibGives rx (readme5 r1 r2 r rb) (gameOps u db) ds (byId db ds) := by
  obtain ⟨_, n3, n4, n5⟩ := readme_names r1 r2 r rb
  obtain ⟨_, t3, t4, t5⟩ := readme_texts h
  exact ⟨libGives_of n3 t3 (fun _ _ => rfl) (d := 2) (by decide) (rank_id h.f1 h.f2 hd),
    libGives_of n4 t4 (fun _ _ => rfl) (d := 2) (by decide) (rank_id h.f1 h.f2 hd),
    libGives_of n5 t5 (fun _ _ => rfl) (d := 2) (by decide) (rank_id h.f1 h.f2 hd)⟩

/-- C63: and all the grammars look a game up by its title. -/
theorem C63_by_title (h : GameClasses rx r1 r2 r rb) (u : UserString) (db : List VideoGame) (w : List Nat) (hw : IsTitle w) :
    LibGives rx (readme1 r1 r2 r) (gameOps u db) (quoted w) (byTitle db w) ∧ LibGives rx (readme3 r1 r2 r) (gameOps u db) (quoted w) (byTitle db w) ∧
      LibGives rx (readme4 r1 r2 r) (gameOps u db) (quoted w) (byTitle db w) ∧ LibGives rx (readme5 r1 r2 r rb) (gameOps u db) (quoted w) (byTitle db w) := by
  obtain ⟨n1, n3, n4, n5⟩ := readme_names r1 r2 r rb
  obtain ⟨t1, t3, t4, t5⟩ := readme_texts h
  exact ⟨libGives_of n1 t1 (fun _ _ => rfl) (d := 2) (by decide) (one_title h.f1 h.f hw),
    libGives_of n3 t3 (fun _ _ => rfl) (d := 2) (by decide) (rank_title h.f1 h.f hw),
    libGives_of n4 t4 (fun _ _ => rfl) (d := 2) (by decide) (rank_title h.f1 h.f hw),
    libGives_of n5 t5 (fun _ _ => rfl) (d := 2) (by decide) (rank_title h.f1 h.f hw)⟩

/-- C63: example 5 looks up the first game of a year. -/
theorem C63_by_year (h : GameClasses rx r1 r2 r rb) (u : UserString) (db : List VideoGame) (w ds : Bytes) (hw : ∀ b ∈ w, IsBlank b) (hd : IsYear ds) :
    LibGives rx (readme5 r1 r2 r rb) (gameOps u db) (asc "bestIn:" ++ w ++ ds) (byYear db ds) := by
  obtain ⟨_, _, _, n5⟩ := readme_names r1 r2 r rb
  obtain ⟨_, _, _, t5⟩ := readme_texts h
  exact libGives_of n5 t5 (fun _ _ => rfl) (d := 3) (by decide) (five_best h.f1 h.f2 h.fb hw hd)

/-- C63, a finding: the first grammar, of which the others are said to be another way to write it (README.md:327), labels only
the first digit: it looks up the game whose number is the first digit. -/
theorem C63_first_digit (h : GameClasses rx r1 r2 r rb) (u : UserString) (db : List VideoGame) (c : UInt8) (l : Bytes) (hd : IsId (c :: l)) :
    LibGives rx (readme1 r1 r2 r) (gameOps u db) (c :: l) (byId db [c]) := by
  obtain ⟨n1, _⟩ := readme_names r1 r2 r rb
  obtain ⟨t1, _⟩ := readme_texts h
  exact libGives_of n1 t1 (fun _ _ => rfl) (d := 1) (by decide) (one_id h.f1 h.f2 hd)

/-- So `12` is "Civilization" for the first and "Not found" for the others. -/
theorem C63_readme_differs (h : GameClasses rx r1 r2 r rb) (u : UserString) :
    LibGives rx (readme1 r1 r2 r) (gameOps u readmeDb) (asc "12") (.ok (some (VideoGame.ast ⟨1, asc "Civilization", 1991, asc "Sid Meier", 95⟩, []))) ∧
      LibGives rx (readme3 r1 r2 r) (gameOps u readmeDb) (asc "12") (.ok (some (notFoundGame.ast, []))) := by
  have hid : IsId (asc "12") := ⟨by unfold IsDigit; decide, _, _, rfl, by decide⟩
  refine ⟨C63_first_digit h u readmeDb 0x31 [0x32] hid, (C63_by_id h u readmeDb _ hid).1⟩

namespace Sample

/-- A class of bytes: the leftmost. -/
def classRe (p : UInt8 → Bool) : Regex where
  find s := (s.findIdx? p).map fun i => (i, i + 1)
  bounds := by
    intro s a b h
    simp only [Option.map_eq_some_iff, Prod.mk.injEq] at h
    obtain ⟨i, hi, rfl, rfl⟩ := h
    obtain ⟨hlt, _⟩ := List.findIdx?_eq_some_iff_getElem.mp hi
    exact ⟨by omega, by omega⟩

theorem classRe_finds {C : UInt8 → Prop} {p : UInt8 → Bool} (h : ∀ c, p c = true ↔ C c) : FindsOne C (classRe p) := by
  constructor
  · intro c s hc
    simp [classRe, List.findIdx?_cons, (h c).mpr hc]
  · intro s n hn
    simp only [classRe, Option.map_eq_some_iff, Prod.mk.injEq] at hn
    obtain ⟨i, hi, rfl, _⟩ := hn
    obtain ⟨hlt, hp, _⟩ := List.findIdx?_eq_some_iff_getElem.mp hi
    match s, hlt with
    | c :: s, _ => exact ⟨c, s, rfl, (h c).mp hp⟩

/-- `[^"]`, when it is at the beginning. -/
def notQuoteRe : Regex where
  find s := match s with
    | [] => none
    | c :: s => if c = 0x22 then none else some (0, (decodeRune (c :: s)).2)
  bounds := by
    intro s a b h
    match s with
    | [] => cases h
    | c :: s =>
      dsimp only at h
      split at h
      · cases h
      · simp only [Option.some.injEq, Prod.mk.injEq] at h
        obtain ⟨rfl, rfl⟩ := h
        exact ⟨by omega, decodeRune_width_le _⟩

theorem notQuoteRe_but : FindsBut 0x22 notQuoteRe := by
  constructor
  · intro c s hc
    exact ⟨(decodeRune (c :: s)).2, by simp [notQuoteRe, hc]⟩
  · intro s n h
    match s with
    | [] => cases h
    | c :: s =>
      have h : (if c = 0x22 then none else some (0, (decodeRune (c :: s)).2)) = some (0, n) := h
      split at h
      · cases h
      · rename_i hc
        obtain ⟨d1, _, _, d4, _⟩ := decodeRune_cons c s
        injection h with h
        injection h with _ h
        subst h
        refine ⟨d1, fun hm => ?_⟩
        obtain ⟨i, he⟩ := List.mem_iff_getElem?.mp hm
        rw [List.getElem?_take] at he
        split at he
        · rename_i hlt
          rcases Nat.eq_zero_or_pos i with rfl | hi
          · injection he with he
            exact hc he
          · obtain ⟨x, hx, hge⟩ := d4 i hi hlt
            rw [he] at hx
            injection hx with hx
            subst hx
            exact absurd hge (by decide)
        · cases he

theorem notQuoteRe_finds : FindsRune (· ≠ 0x22) (· ≠ 0x22) notQuoteRe := by
  constructor
  · intro c s hs hc
    have he : Spec.utf8 [c] = encodeRune c := by rw [encodeRune_eq_utf8 hs]; simp [Spec.utf8]
    have hd := decodeRune_encodeRune hs s
    rw [he]
    have hlen : encodeRune c ≠ [] := by
      intro h0
      rw [h0] at hd
      cases s with
      | nil => simp only [List.append_nil, decodeRune_nil, List.length_nil, Prod.mk.injEq, and_true] at hd
               subst hd
               exact absurd h0 (by decide)
      | cons x s =>
        have := (decodeRune_cons x s).1
        rw [List.nil_append] at hd
        rw [hd] at this
        exact absurd this (by simp)
    match hb : encodeRune c, hlen with
    | b :: l, _ =>
      have hq : b ≠ 0x22 := by
        rintro rfl
        have := (decodeRune_cons 0x22 (l ++ s)).2.2.2.2.2.1 (by decide)
        rw [hb, List.cons_append, this] at hd
        injection hd with h1 _
        exact hc h1.symm
      rw [hb] at hd
      show (if b = 0x22 then none else some (0, (decodeRune (b :: (l ++ s))).2)) = _
      rw [if_neg hq, show b :: (l ++ s) = b :: l ++ s from rfl, hd]
  · intro s n h
    match s with
    | [] => cases h
    | c :: s =>
      have h : (if c = 0x22 then none else some (0, (decodeRune (c :: s)).2)) = some (0, n) := h
      split at h
      · cases h
      · exact ⟨c, s, rfl, ‹_›⟩

/-- The regular expressions of the grammars. -/
def gameRx (t : Bytes) : Option Regex :=
  if t = asc "[1-9]" then some (classRe fun c => decide (IsDigit c ∧ c ≠ 0x30))
  else if t = asc "[0-9]" then some (classRe fun c => decide (IsDigit c))
  else if t = asc "[^\"]" then some notQuoteRe
  else if t = asc "[ \\t]" then some (classRe fun c => decide (IsBlank c))
  else none

end Sample

open Sample in
/-- The assumption of the theorems is met. -/
theorem gameClasses_ex : GameClasses gameRx (classRe fun c => decide (IsDigit c ∧ c ≠ 0x30)) (classRe fun c => decide (IsDigit c)) notQuoteRe (classRe fun c => decide (IsBlank c)) :=
  ⟨rfl, rfl, rfl, rfl, classRe_finds fun c => by simp, classRe_finds fun c => by simp, notQuoteRe_finds, classRe_finds fun c => by simp⟩

/-- `"Doom"` is a title, `73264983242` a number, `1980` a year. -/
example : IsTitle ("Doom".toList.map Char.toNat) ∧ IsId (asc "73264983242") ∧ IsYear (asc "1980") :=
  ⟨by unfold IsTitle Spec.Scalar; decide, ⟨by unfold IsDigit; decide, _, _, rfl, by decide⟩, asc "19", 0x38, 0x30, rfl, .inl rfl, by unfold IsDigit; decide, by unfold IsDigit; decide⟩

open Sample in
/-- The texts of the test: readme_02alternation_test.go:117-125. -/
example (u : UserString) : ∃ r1 r2 r rb, GameClasses gameRx r1 r2 r rb ∧
    LibGives gameRx (readme3 r1 r2 r) (gameOps u readmeDb) (asc "1") (.ok (some (VideoGame.ast ⟨1, asc "Civilization", 1991, asc "Sid Meier", 95⟩, []))) ∧
    LibGives gameRx (readme3 r1 r2 r) (gameOps u readmeDb) (asc "73264983242") (.ok (some (notFoundGame.ast, []))) ∧
    LibGives gameRx (readme3 r1 r2 r) (gameOps u readmeDb) (asc "\"Doom\"") (.ok (some (VideoGame.ast ⟨4, asc "Doom", 1993, asc "John Carmack", 90⟩, []))) ∧
    LibGives gameRx (readme5 r1 r2 r rb) (gameOps u readmeDb) (asc "bestIn: 1980") (.ok (some (VideoGame.ast ⟨3, asc "Rogue", 1980, asc "Michael Toy, Glenn Wichman, Ken Arnold", 80⟩, []))) := by
  refine ⟨_, _, _, _, gameClasses_ex, ?_, ?_, ?_, ?_⟩
  · exact (C63_by_id gameClasses_ex u readmeDb (asc "1") ⟨by unfold IsDigit; decide, _, _, rfl, by decide⟩).1
  · exact (C63_by_id gameClasses_ex u readmeDb (asc "73264983242") ⟨by unfold IsDigit; decide, _, _, rfl, by decide⟩).1
  · exact (C63_by_title gameClasses_ex u readmeDb ("Doom".toList.map Char.toNat) (by unfold IsTitle Spec.Scalar; decide)).2.1
  · exact C63_by_year gameClasses_ex u readmeDb [0x20] (asc "1980") (by unfold IsBlank; decide)
      ⟨asc "19", 0x38, 0x30, rfl, .inl rfl, by unfold IsDigit; decide, by unfold IsDigit; decide⟩

end Joeson
