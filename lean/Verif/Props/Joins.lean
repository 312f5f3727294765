import Verif.Proofs.Joins
import Verif.Proofs.Same
/-!
# C64: repetitions of a string
-/

namespace Joeson
open RuleText

variable {V : Type}

/-- The grammar whose only rule is the repetition. -/
def repLines (d : Deco) : List GLine := [.alt "" none (.text (.single (.one [] none d) []))]

theorem repLines_names (d : Deco) : GoodNames (repLines d) := goodNames_of rfl (by simp [repLines, declsOf, GLine.decls, Body.decls]) (by simp [repLines, declsOf, GLine.decls, Body.decls])

theorem repLines_texts {rx : Bytes → Option Regex} {e : Deco} {x : Bytes} {y : Option Bytes} {mn : Nat} {mx : Option Nat}
    (h : StringRep e x y mn mx) (ho : e.Ok rx) : AllLines (TextOk rx (repLines e)) (repLines e) := by
  refine ⟨⟨⟨⟨by simp [Blank], by simp [LabOk], ho⟩, by simp [Blank], fun h => by cases h⟩, (stringRep_noAt h).2, (stringRep_noAt h).1.merges⟩, trivial⟩

variable {rx : Bytes → Option Regex} {e : Deco} {x : Bytes} {y : Option Bytes} {mn : Nat} {mx : Option Nat}

theorem repLines_gives (h : StringRep e x y mn mx) (ho : e.Ok rx) (P : PureOps V) (hP : ∀ v o, P.origin v o = v) {text : Bytes} {r : VRes V}
    (hr : Yields P text.length (repLines e) 0 (.part false (.rep "" (.lit "" x) (sepOf y) mn mx)) text r) : LibGives rx (repLines e) P text r := by
  refine libGives_of (repLines_names e) (repLines_texts h ho) hP (d := 1) (by decide) ?_
  have := Yields.rtext (cb := none) (stringRep_vp h) hr
  rw [called_none] at this
  by_cases hn : r = .ok none
  · subst hn
    exact .altMiss this .linesEnd
  · exact .altDone this hn

/-- C64: a repeated string matches the texts made of the string, with the other one in between, if its number is between the
bounds. The value is the list of the strings, without those in between. -/
theorem C64_repeats (h : StringRep e x y mn mx) (ho : e.Ok rx) (hx : x ≠ []) (P : PureOps V) (hP : ∀ v o, P.origin v o = v) (text : Bytes) (n : Nat)
    (ht : RepText x (y.getD []) mn mx text n) : LibGives rx (repLines e) P text (.ok (some (P.arr (List.replicate n (P.str x)), []))) := by
  refine repLines_gives h ho P hP ?_
  obtain ⟨hmn, hmx, ⟨rfl, rfl⟩ | ⟨k, rfl, rfl⟩⟩ := ht
  · have := rep_none (P := P) (N := ([] : Bytes).length) (L := repLines e) (d := 0) (y := y) (mn := mn) (mx := mx) (x := x) (s := [])
      fun s' hs => hx (List.append_eq_nil_iff.mp hs.symm).1
    simpa [vstop, Nat.not_lt.mpr hmn] using this
  · have hs : ∀ s', ([] : Bytes) ≠ y.getD [] ++ x ++ s' := fun s' hs => hx (List.append_eq_nil_iff.mp (List.append_eq_nil_iff.mp hs.symm).1).2
    have := rep_strs (P := P) (N := (joined x (y.getD []) k).length) (L := repLines e) (d := 0) (mn := mn) (mx := mx) hs k
    have hk : roomFor mx 1 k = k := by
      cases mx with
      | none => rfl
      | some m =>
        have := hmx m rfl
        simp only [roomFor]
        omega
    rw [hk] at this
    rw [Nat.add_comm 1 k] at this
    rw [joined_eq] at this ⊢
    simpa [vstop, Nat.not_lt.mpr hmn, tails] using this

/-- C64: and no other text: all others fail, or are matched in part, which makes them errors. -/
theorem C64_nothing_else (h : StringRep e x y mn mx) (ho : e.Ok rx) (hx : x ≠ []) (P : PureOps V) (hP : ∀ v o, P.origin v o = v) (text : Bytes)
    (ht : ∀ n, ¬ RepText x (y.getD []) mn mx text n) :
    LibGives rx (repLines e) P text (.ok none) ∨ ∃ v s, s ≠ [] ∧ LibGives rx (repLines e) P text (.ok (some (v, s))) := by
  have key : ∀ (n : Nat) (s : Bytes), Yields P text.length (repLines e) 0 (.part false (.rep "" (.lit "" x) (sepOf y) mn mx)) text
      (vstop P mn (List.replicate n (P.str x)) s) → (mn ≤ n → s = [] → RepText x (y.getD []) mn mx text n) →
      LibGives rx (repLines e) P text (.ok none) ∨ ∃ v s, s ≠ [] ∧ LibGives rx (repLines e) P text (.ok (some (v, s))) := by
    intro n s hy hf
    have hl := repLines_gives h ho P hP hy
    unfold vstop at hl
    rw [List.length_replicate] at hl
    split at hl
    · exact .inl hl
    · rename_i hmn
      exact .inr ⟨_, s, fun hs => ht n (hf (by omega) hs), hl⟩
  by_cases hp : ∃ t, text = x ++ t
  · obtain ⟨t, rfl⟩ := hp
    obtain ⟨n, s, rfl, hs⟩ := tails_split (x := x) (y := y.getD []) (by simp [hx]) t
    refine key (1 + roomFor mx 1 n) _ (rep_strs hs n) fun hmn hs0 => ⟨hmn, fun m hm => ?_, .inr ⟨n, ?_, ?_⟩⟩
    · subst hm
      simp only [roomFor]
      omega
    · have : n - roomFor mx 1 n = 0 := by
        cases hk : n - roomFor mx 1 n with
        | zero => rfl
        | succ k =>
          rw [hk] at hs0
          simp [tails, hx] at hs0
      have : roomFor mx 1 n ≤ n := by
        cases mx <;> simp [roomFor] <;> omega
      omega
    · rw [joined_eq, (List.append_eq_nil_iff.mp hs0).2, List.append_nil]
  · refine key 0 text (rep_none fun s' hs => hp ⟨s', hs⟩) fun hmn hs0 => ⟨hmn, fun m _ => Nat.zero_le _, .inl ⟨rfl, hs0⟩⟩

/-- A string without escapes. -/
def strP (s : String) : Prim := .str (s.toList.map fun c => ⟨false, c.toNat⟩)

/-- `{1,2}` -/
def oneTwo : Bounds := ⟨[], some (asc "1"), [], [], some (asc "2"), []⟩

/-- The patterns of README.md:140-146. -/
example : (Deco.starJoin (strP "a") (strP "b") none).text = asc "'a'*'b'" ∧ (Deco.plusJoin (strP "a") (strP "b")).text = asc "'a'+'b'" ∧
    (Deco.starJoin (strP "a") (strP "b") (some oneTwo)).text = asc "'a'*'b'{1,2}" := ⟨by kernel_rfl, by kernel_rfl, by kernel_rfl⟩

theorem plain_rep (r : Option Bounds) : StringRep (.starJoin (strP "a") (strP "b") r) (asc "a") (some (asc "b")) (minPat r) (maxPat r) ∧
    StringRep (.plusJoin (strP "a") (strP "b")) (asc "a") (some (asc "b")) 1 none :=
  ⟨.starJoin _ _ _, .plusJoin _ _⟩

theorem plain_ok : (∀ r : Option Bounds, (∀ b, r = some b → b.Ok) → (Deco.starJoin (strP "a") (strP "b") r).Ok rx) ∧ (Deco.plusJoin (strP "a") (strP "b")).Ok rx := by
  have ha : (strP "a").Ok rx := by simp [strP, Prim.Ok, Piece.Ok, Spec.Scalar]
  have hb : (strP "b").Ok rx := by simp [strP, Prim.Ok, Piece.Ok, Spec.Scalar]
  exact ⟨fun r hr => ⟨ha, hb, hr⟩, ha, hb⟩

theorem oneTwo_ok : oneTwo.Ok := by
  refine ⟨by simp [Blank, oneTwo], by simp [Blank, oneTwo], by simp [Blank, oneTwo], by simp [Blank, oneTwo], ?_, ?_⟩
  · intro ds h
    cases h
    exact ⟨by decide, by decide⟩
  · intro ds h
    cases h
    exact ⟨by decide, by decide⟩

/-- C64, a finding: the README is wrong about five texts. `'a'*'b'` does not match `aaa` and `aabababa`, `'a'+'b'` does not match
`abaaaba`, and `'a'*'b'{1,2}` neither `aaaa` nor `aaabaaa`: there is something left each time (README.md:140-146). -/
theorem C64_readme_wrong (P : PureOps V) (hP : ∀ v o, P.origin v o = v) :
    LibGives rx (repLines (.starJoin (strP "a") (strP "b") none)) P (asc "aaa") (.ok (some (P.arr [P.str (asc "a")], asc "aa"))) ∧
    LibGives rx (repLines (.starJoin (strP "a") (strP "b") none)) P (asc "aabababa") (.ok (some (P.arr [P.str (asc "a")], asc "abababa"))) ∧
    LibGives rx (repLines (.plusJoin (strP "a") (strP "b"))) P (asc "abaaaba") (.ok (some (P.arr [P.str (asc "a"), P.str (asc "a")], asc "aaba"))) ∧
    LibGives rx (repLines (.starJoin (strP "a") (strP "b") (some oneTwo))) P (asc "aaaa") (.ok (some (P.arr [P.str (asc "a")], asc "aaa"))) ∧
    LibGives rx (repLines (.starJoin (strP "a") (strP "b") (some oneTwo))) P (asc "aaabaaa") (.ok (some (P.arr [P.str (asc "a")], asc "aabaaa"))) := by
  have o1 := (plain_ok (rx := rx)).1 none (fun b h => by cases h)
  have o2 := (plain_ok (rx := rx)).1 (some oneTwo) (fun b h => by cases h; exact oneTwo_ok)
  have hs : ∀ (c : UInt8) (t : Bytes), c ≠ 0x62 → ∀ s', c :: t ≠ (some (asc "b")).getD [] ++ asc "a" ++ s' := by
    intro c t hc s' h
    simp only [Option.getD_some, show asc "b" = [0x62] from rfl, List.cons_append, List.cons.injEq] at h
    exact hc h.1
  refine ⟨repLines_gives (plain_rep _).1 o1 P hP ?_, repLines_gives (plain_rep _).1 o1 P hP ?_, repLines_gives (plain_rep none).2 plain_ok.2 P hP ?_,
    repLines_gives (plain_rep _).1 o2 P hP ?_, repLines_gives (plain_rep _).1 o2 P hP ?_⟩
  · exact rep_strs (hs 0x61 [0x61] (by decide)) 0
  · exact rep_strs (hs 0x61 (asc "bababa") (by decide)) 0
  · exact rep_strs (hs 0x61 (asc "aba") (by decide)) 1
  · exact rep_strs (hs 0x61 (asc "aa") (by decide)) 0
  · exact rep_strs (hs 0x61 (asc "abaaa") (by decide)) 0

/-- Right are `a`, `aba` for all three, and the empty text for the first. -/
example (P : PureOps V) (hP : ∀ v o, P.origin v o = v) :
    LibGives rx (repLines (.starJoin (strP "a") (strP "b") none)) P [] (.ok (some (P.arr [], []))) ∧
    LibGives rx (repLines (.plusJoin (strP "a") (strP "b"))) P (asc "ababa") (.ok (some (P.arr [P.str (asc "a"), P.str (asc "a"), P.str (asc "a")], []))) ∧
    LibGives rx (repLines (.starJoin (strP "a") (strP "b") (some oneTwo))) P (asc "aba") (.ok (some (P.arr [P.str (asc "a"), P.str (asc "a")], []))) := by
  refine ⟨C64_repeats (plain_rep none).1 (plain_ok.1 none fun b h => by cases h) (by decide) P hP [] 0 ⟨by decide, (fun m h => by cases h), .inl ⟨rfl, rfl⟩⟩,
    C64_repeats (plain_rep none).2 plain_ok.2 (by decide) P hP (asc "ababa") 3 ⟨by decide, (fun m h => by cases h), .inr ⟨2, rfl, rfl⟩⟩,
    C64_repeats (plain_rep _).1 (plain_ok.1 (some oneTwo) fun b h => by cases h; exact oneTwo_ok) (by decide) P hP (asc "aba") 2
      ⟨by decide, (fun m h => by cases h; decide), .inr ⟨1, rfl, rfl⟩⟩⟩

/-- C64, a finding: `'a'{,1}` matches `aa` (so does `'a'{,0}`). -/
theorem C64_max_one (P : PureOps V) (hP : ∀ v o, P.origin v o = v) (ds : Bytes) (hd : ds = asc "0" ∨ ds = asc "1") :
    LibGives rx (repLines (.times (strP "a") ⟨[], none, [], [], some ds, []⟩)) P (asc "aa") (.ok (some (P.arr [P.str (asc "a"), P.str (asc "a")], []))) := by
  have ho : (Deco.times (strP "a") ⟨[], none, [], [], some ds, []⟩).Ok rx := by
    refine ⟨by simp [strP, Prim.Ok, Piece.Ok, Spec.Scalar], by simp [Blank], by simp [Blank], by simp [Blank], by simp [Blank], (fun ds h => by cases h), ?_⟩
    intro ds' h
    cases h
    rcases hd with rfl | rfl <;> exact ⟨by decide, by decide⟩
  exact C64_repeats (x := asc "a") (.times _ _) ho (by decide) P hP (asc "aa") 2 ⟨by simp [minPat], (fun m _ => by omega), .inr ⟨1, rfl, rfl⟩⟩

/-- Nothing else: `'a'*'b'{1,2}` does not match the empty text. -/
example (n : Nat) : ¬ RepText (asc "a") (asc "b") 1 (some 2) [] n := by
  rintro ⟨h1, _, ⟨rfl, _⟩ | ⟨k, _, h⟩⟩
  · omega
  · rw [joined_eq] at h
    simp [asc] at h

end Joeson
