import Verif.Proofs.Regexp3
import Verif.Proofs.Regexp4
import Verif.Props.RuneStream
import Verif.Props.Bootstrap
import Verif.Props.Color
import Verif.Props.Lisp
import Verif.Props.Calculator
import Verif.Props.Precedence
import Verif.Props.ErrorHandling
/-!
# C88: the regular expressions of rule texts
-/

namespace Joeson
open RuleText Arith Calc

/-! ## What they match -/

/-- C88: `MatchRegexp` with a regular expression of a rule text succeeds iff a beginning of what is left of the text belongs to
its language, and what it takes is such a beginning. So it does not matter that Go searches for a match further on also. -/
theorem C88_language (src : Bytes) (x : Rx) (hx : rxCompile ([0x28] ++ src ++ [0x29]) = some x) :
    ∃ re, goRx src = some re ∧ ∀ c : RuneStream, c.Valid →
      ((∃ rest, x.Matches (c.text.drop c.pos).length (c.text.drop c.pos) rest) →
        ∃ got rest, c.text.drop c.pos = got ++ rest ∧ x.Matches (c.text.drop c.pos).length (c.text.drop c.pos) rest ∧
          c.matchRegexp re = .ok (some got, { c with pos := c.pos + got.length })) ∧
      ((¬ ∃ rest, x.Matches (c.text.drop c.pos).length (c.text.drop c.pos) rest) → c.matchRegexp re = .ok (none, c)) := by
  refine ⟨x.regex, by unfold goRx; rw [hx]; rfl, fun c hc => ⟨fun h => ?_, fun h => ?_⟩⟩
  · obtain ⟨m, hm⟩ := (x.find_iff _).mpr h
    obtain ⟨h1, h2⟩ := (C05_matchRegexp c hc x.regex).1 m hm
    have hl : ((c.text.drop c.pos).take m).length = m := by rw [List.length_take, List.length_drop]; omega
    exact ⟨(c.text.drop c.pos).take m, (c.text.drop c.pos).drop m, (List.take_append_drop ..).symm, x.find_sound hm, by rw [hl]; exact h1⟩
  · exact (C05_matchRegexp c hc x.regex).2 fun n hn => h ((x.find_iff _).mp ⟨n, hn⟩)

/-- `'a*b|a'` on `xab`: the search of Go finds `ab` at 1, but nothing matches at 0; then at 1 it does. -/
example : ∃ x, rxCompile (asc "(a*b|a)") = some x ∧ x.regex.find (asc "xab") = some (1, 3) ∧
    (((RuneStream.new (asc "xab")).matchRegexp x.regex).toOption.map fun r => (r.1, r.2.pos)) = some (none, 0) ∧
    x.regex.find (asc "aaa") = some (0, 1) ∧ x.regex.find (asc "aaab") = some (0, 4) := by
  refine ⟨_, rfl, ?_⟩
  decide +kernel

/-! ## Classes -/

theorem goRx_class (neg : Bool) (l : List CItem) (h : ∀ i ∈ l, i.Ok) (h0 : l ≠ []) :
    goRx (classText neg l) = some (Rx.regex (.seq (.seq (.cls ⟨neg, l.map CItem.pair⟩) .empty) .empty)) := by
  unfold goRx
  rw [rxCompile_class neg l h h0]
  rfl

theorem class_has (neg : Bool) (l : List CItem) (r : Nat) : RuneClass.has ⟨neg, l.map CItem.pair⟩ r = true ↔ ClassHas neg l r := by
  have : ((l.map CItem.pair).any fun p => decide (p.1 ≤ r) && decide (r ≤ p.2)) = true ↔ ∃ i ∈ l, i.Has r := by
    simp only [List.any_map, List.any_eq_true, Function.comp_apply, Bool.and_eq_true, decide_eq_true_eq, CItem.pair_has]
  cases neg with
  | true => simp only [RuneClass.has, ClassHas, if_true, Bool.true_bne, ← this, Bool.not_eq_true']; simp
  | false => simp only [RuneClass.has, ClassHas, Bool.false_bne, Bool.false_eq_true, if_false, this]

/-- C88: a class of a rule text, made of characters, escaped characters and ranges, with `^` or without, compiles. Where a
character begins it takes this character iff it is in the class; at the end of the text it fails. -/
theorem C88_class (neg : Bool) (l : List CItem) (h : ∀ i ∈ l, i.Ok) (h0 : l ≠ []) : ∃ re, goRx (classText neg l) = some re ∧
    (∀ r rest, Spec.Scalar r → (ClassHas neg l r → re.find (Spec.utf8 [r] ++ rest) = some (0, (Spec.utf8 [r]).length)) ∧
      (¬ ClassHas neg l r → ∀ n, re.find (Spec.utf8 [r] ++ rest) ≠ some (0, n))) ∧ ∀ n, re.find [] ≠ some (0, n) := by
  refine ⟨_, goRx_class neg l h h0, fun r rest hr => ?_, fun n hn => ?_⟩
  · have hd := decodeRune_encodeRune hr rest
    rw [← utf8_one hr] at hd
    have hne : Spec.utf8 [r] ++ rest ≠ [] := by rw [utf8_one hr]; simp [encodeRune_ne_nil]
    refine ⟨fun hc => ((Rx.isCls_group _).find _ _).mpr ⟨hne, ?_, by rw [hd]⟩, fun hc n hn => ?_⟩
    · rw [hd, class_has]; exact hc
    · have := (((Rx.isCls_group _).find _ _).mp hn).2.1
      rw [hd, class_has] at this
      exact hc this
  · exact (((Rx.isCls_group _).find _ _).mp hn).1 rfl

/-- The text is over, or the character it goes on with is not of the class, or it does not go on with a character. -/
def ClassStops (neg : Bool) (l : List CItem) (rest : Bytes) : Prop := rest = [] ∨ ¬ ClassHas neg l (decodeRune rest).1

theorem utf8_length {w : List Nat} (hw : ∀ r ∈ w, Spec.Scalar r) : w.length ≤ (Spec.utf8 w).length := by
  induction w with
  | nil => simp
  | cons r w ih =>
    have h1 := ih fun x hx => hw x (List.mem_cons_of_mem _ hx)
    have h2 := hw r (List.mem_cons_self ..)
    have e : Spec.utf8 (r :: w) = Spec.utf8 [r] ++ Spec.utf8 w := by simp [Spec.utf8]
    have : 0 < (Spec.utf8 [r]).length := by rw [utf8_one h2]; exact List.length_pos_iff.mpr (encodeRune_ne_nil r)
    rw [e, List.length_append, List.length_cons]
    omega

/-- C88: between slashes, a class followed by `*` takes all characters of the class that there are, and succeeds if there are
none; followed by `+`, it takes all there are and there must be one. -/
theorem C88_repeated_class (neg : Bool) (l : List CItem) (h : ∀ i ∈ l, i.Ok) (h0 : l ≠ []) :
    ∃ star plus, goRx (classText neg l ++ [0x2A]) = some star ∧ goRx (classText neg l ++ [0x2B]) = some plus ∧
    ∀ (w : List Nat) (rest : Bytes), (∀ r ∈ w, Spec.Scalar r ∧ ClassHas neg l r) → ClassStops neg l rest →
      star.find (Spec.utf8 w ++ rest) = some (0, (Spec.utf8 w).length) ∧
      (w ≠ [] → plus.find (Spec.utf8 w ++ rest) = some (0, (Spec.utf8 w).length)) ∧
      (w = [] → ∀ n, plus.find rest ≠ some (0, n)) := by
  obtain ⟨e1, e2⟩ := rxCompile_repeated neg l h h0
  refine ⟨_, _, by unfold goRx; rw [e1]; rfl, by unfold goRx; rw [e2]; rfl, fun w rest hw hr => ?_⟩
  have hw' : ∀ r ∈ w, Spec.Scalar r ∧ RuneClass.has ⟨neg, l.map CItem.pair⟩ r = true := fun r hr => ⟨(hw r hr).1, (class_has neg l r).mpr (hw r hr).2⟩
  have hr' : rest = [] ∨ RuneClass.has ⟨neg, l.map CItem.pair⟩ (decodeRune rest).1 = false := by
    rcases hr with hr | hr
    · exact .inl hr
    · rw [← class_has] at hr
      exact .inr (by simpa using hr)
  refine ⟨find_of_run ?_, fun h0 => find_of_run ?_, ?_⟩
  · rw [Rx.run_seq_empty, Rx.run_seq_empty]
    refine stars_utf8 w rest _ hw' hr' ?_
    have := utf8_length fun r hr => (hw r hr).1
    rw [List.length_append]
    omega
  · rw [Rx.run_seq_empty, Rx.run_seq_empty]
    match w, h0, hw, hw' with
    | r :: w, _, hw, hw' =>
      obtain ⟨h1, h2⟩ := hw' r (List.mem_cons_self ..)
      have hd := decodeRune_encodeRune h1 (Spec.utf8 w ++ rest)
      have e : Spec.utf8 (r :: w) ++ rest = encodeRune r ++ (Spec.utf8 w ++ rest) := by
        rw [← utf8_one h1, ← List.append_assoc]
        simp [Spec.utf8]
      rw [e]
      refine flatMap_head (x := Spec.utf8 w ++ rest) ?_ ?_
      · rw [RuneClass.run _ _ _ (by simp [encodeRune_ne_nil]) (by rw [hd]; exact h2), hd, List.drop_left]
        rfl
      · refine stars_utf8 w rest _ (fun x hx => hw' x (List.mem_cons_of_mem _ hx)) hr' ?_
        have := utf8_length fun r hr => (hw r (List.mem_cons_of_mem _ hr)).1
        rw [List.length_append]
        omega
  · rintro rfl n hn
    obtain ⟨_, hm, _⟩ := (Rx.find_zero ..).mp hn
    rw [Rx.run_seq_empty, Rx.run_seq_empty] at hm
    have : (Rx.plus (.cls ⟨neg, l.map CItem.pair⟩)).run rest.length rest = ((Rx.cls ⟨neg, l.map CItem.pair⟩).run rest.length rest).flatMap
      fun r => Re.stars ((Rx.cls ⟨neg, l.map CItem.pair⟩).run rest.length) r.length r := rfl
    rw [this, RuneClass.run_not _ _ _ hr'] at hm
    cases hm

/-- `[a-c]+` on `abcd`, and on `d`. -/
example : classText false [.range false 0x61 false 0x63] = asc "[a-c]" ∧ Spec.utf8 [0x61, 0x62, 0x63] ++ asc "d" = asc "abcd" ∧
    (∀ r ∈ [0x61, 0x62, 0x63], Spec.Scalar r ∧ ClassHas false [.range false 0x61 false 0x63] r) ∧ ClassStops false [.range false 0x61 false 0x63] (asc "d") := by
  have e : (decodeRune (asc "d")).1 = 0x64 := by decide
  refine ⟨by kernel_rfl, by kernel_rfl, ?_, .inr (by rw [e]; simp [ClassHas, CItem.Has])⟩
  intro r hr
  simp only [List.mem_cons, List.not_mem_nil, or_false] at hr
  rcases hr with rfl | rfl | rfl <;> exact ⟨.inl (by decide), by simp [ClassHas, CItem.Has]⟩

/-- The pieces of a rule text for a class. -/
def CItem.pieces : CItem → List Piece
  | .one e r => [⟨e, r⟩]
  | .range e lo e' hi => [⟨e, lo⟩, ⟨false, 0x2D⟩, ⟨e', hi⟩]

/-- The pieces of a rule text for a class. -/
def classPieces (neg : Bool) (l : List CItem) : List Piece := (if neg then [⟨false, 0x5E⟩] else []) ++ l.flatMap CItem.pieces

theorem classPieces_text (neg : Bool) (l : List CItem) : [0x5B] ++ RuleText.pieces (classPieces neg l) ++ [0x5D] = classText neg l := by
  have : RuleText.pieces (l.flatMap CItem.pieces) = l.flatMap CItem.text := by
    induction l with
    | nil => rfl
    | cons i l ih =>
      rw [List.flatMap_cons, List.flatMap_cons, ← ih]
      simp only [RuleText.pieces, List.flatMap_append]
      congr 1
      cases i <;> simp [CItem.pieces, CItem.text, Piece.text, charText, Spec.utf8, Spec.utf8Nat]
  unfold classText classPieces
  rw [← this]
  cases neg <;> simp [RuleText.pieces, Piece.text, Spec.utf8, Spec.utf8Nat]

theorem charOk_piece {e : Bool} {r : Nat} (h : charOk e r) : Piece.Ok 0x5D ⟨e, r⟩ := by
  cases e with
  | true =>
    simp only [charOk, if_true] at h
    refine ⟨.inl (by dsimp only; omega), fun h => by cases h⟩
  | false =>
    simp only [charOk, Bool.false_eq_true, if_false] at h
    exact ⟨h.1, fun _ => ⟨h.2.2.1, h.2.1⟩⟩

theorem classPieces_ok (neg : Bool) (l : List CItem) (h : ∀ i ∈ l, i.Ok) : ∀ p ∈ classPieces neg l, p.Ok 0x5D := by
  intro p hp
  rcases List.mem_append.mp hp with hp | hp
  · cases neg with
    | true =>
      simp only [if_true, List.mem_singleton] at hp
      subst hp
      exact ⟨.inl (by decide), fun _ => ⟨by decide, by decide⟩⟩
    | false => cases hp
  · obtain ⟨i, hi, hp⟩ := List.mem_flatMap.mp hp
    have hd : Piece.Ok 0x5D ⟨false, 0x2D⟩ := ⟨.inl (by decide), fun _ => ⟨by decide, by decide⟩⟩
    match i, h i hi, hp with
    | .one e r, ho, hp =>
      simp only [CItem.pieces, List.mem_singleton] at hp
      exact hp ▸ charOk_piece ho
    | .range e lo e' hi, ho, hp =>
      simp only [CItem.pieces, List.mem_cons, List.not_mem_nil, or_false] at hp
      rcases hp with rfl | rfl | rfl
      · exact charOk_piece ho.1
      · exact hd
      · exact charOk_piece ho.2.1

/-- A rule that is a class. -/
def classRule (neg : Bool) (l : List CItem) (re : Regex) : Expr := .single (.one [] none (.prim (.cls (classPieces neg l) re))) []

/-- The grammar of this rule only. -/
def classLines (neg : Bool) (l : List CItem) (re : Regex) : List GLine := [.alt "Input" none (.text (classRule neg l re))]

theorem classLines_names (neg : Bool) (l : List CItem) (re : Regex) : GoodNames (classLines neg l re) := by
  refine goodNames_of rfl ?_ fun d hd => ?_
  · show (["Input"] : List String).Nodup
    decide
  · have : d.1 ∈ ["Input"] := List.mem_map_of_mem (f := (·.1)) hd
    simp only [List.mem_cons, List.not_mem_nil, or_false] at this
    rw [this]; decide

theorem classLines_texts {rx : Bytes → Option Regex} {neg : Bool} {l : List CItem} {re : Regex} (h : ∀ i ∈ l, i.Ok) (hrx : rx (classText neg l) = some re) :
    AllLines (TextOk rx (classLines neg l re)) (classLines neg l re) := by
  have hvp : (classRule neg l re).vp = .re "" re := rfl
  have hok : (classRule neg l re).Ok rx := by
    simp only [classRule, Expr.Ok, Units.Ok, Deco.Ok, Prim.Ok, Units.isOpen]
    exact ⟨⟨(by intro x hx; cases hx), (by intro w hw; cases hw), classPieces_ok neg l h, by rw [classPieces_text]; exact hrx⟩, (by intro x hx; cases hx), by simp⟩
  have ht : TextOk rx (classLines neg l re) (classRule neg l re) :=
    ⟨hok, by simp [classRule, Expr.nest, Units.nest, Deco.nest, Prim.nest], by unfold Expr.Merges; rw [hvp]; exact ⟨(by intro x hx; cases hx), rfl⟩⟩
  simp only [classLines, AllLines, GLine.All, Body.All, and_true]
  exact ht

/-- C88: a grammar whose only rule has the text `[...]`: it reads one character of the class. -/
theorem C88_class_rule {V : Type} (neg : Bool) (l : List CItem) (h : ∀ i ∈ l, i.Ok) (h0 : l ≠ []) : ∃ re, goRx (classText neg l) = some re ∧
    (classRule neg l re).text = classText neg l ∧
    ∀ (P : PureOps V), (∀ v o, P.origin v o = v) → ∀ r rest, Spec.Scalar r →
      (ClassHas neg l r → LibGives goRx (classLines neg l re) P (Spec.utf8 [r] ++ rest) (.ok (some (P.str (Spec.utf8 [r]), rest)))) ∧
      (¬ ClassHas neg l r → LibGives goRx (classLines neg l re) P (Spec.utf8 [r] ++ rest) (.ok none)) := by
  obtain ⟨re, h1, h2, _⟩ := C88_class neg l h h0
  refine ⟨re, h1, ?_, fun P ho r rest hr => ?_⟩
  · rw [← classPieces_text]
    simp [classRule, Expr.text, Units.text, Deco.text, Prim.text, labText]
  · have hlib := fun {x : VRes V} (hy : Yields P (Spec.utf8 [r] ++ rest).length (classLines neg l re) 1 (.lines (classLines neg l re)) (Spec.utf8 [r] ++ rest) x) =>
      libGives_of (classLines_names neg l re) (classLines_texts h h1) ho (by decide) hy
    refine ⟨fun hc => hlib ?_, fun hc => hlib ?_⟩
    · have h3 := Yields.re (P := P) (N := (Spec.utf8 [r] ++ rest).length) (L := classLines neg l re) (d := 0) (h := false) (lab := "") ((h2 r rest hr).1 hc)
      rw [List.take_left' rfl, List.drop_left' rfl] at h3
      exact .altDone (Yields.rtext (e := classRule neg l re) (cb := none) rfl (Yields.bare (.inr rfl) h3)) (by simp)
    · have h3 := Yields.reMiss (P := P) (N := (Spec.utf8 [r] ++ rest).length) (L := classLines neg l re) (d := 0) (h := false) (lab := "") ((h2 r rest hr).2 hc)
      exact .altMiss (Yields.rtext (e := classRule neg l re) (cb := none) rfl (Yields.bare (.inr rfl) h3)) .linesEnd

/-- `[^a-z\]é]`: what it is, and that it reads `B` and not `b`, `]` or `é`. -/
example : ∃ l : List CItem, (∀ i ∈ l, i.Ok) ∧ classText true l = asc "[^a-z\\]" ++ [0xC3, 0xA9, 0x5D] ∧
    ClassHas true l 0x42 ∧ ¬ ClassHas true l 0x62 ∧ ¬ ClassHas true l 0x5D ∧ ¬ ClassHas true l 0xE9 := by
  refine ⟨[.range false 0x61 false 0x7A, .one true 0x5D, .one false 0xE9], ?_, by kernel_rfl, ?_⟩
  · intro i hi
    simp only [List.mem_cons, List.not_mem_nil, or_false] at hi
    rcases hi with rfl | rfl | rfl
    · exact ⟨⟨.inl (by decide), by decide⟩, ⟨.inl (by decide), by decide⟩, by decide⟩
    · show charOk true _; simp [charOk]
    · exact ⟨.inl (by decide), by decide⟩
  · simp [ClassHas, CItem.Has]

/-! ## The regular expressions of the library and of its examples -/

/-- A class by itself, as it compiles. -/
def clsRx (c : RuneClass) : Rx := .seq (.seq (.cls c) .empty) .empty

theorem goRx_of {src : Bytes} {x : Rx} (h : rxCompile ([0x28] ++ src ++ [0x29]) = some x) : goRx src = some x.regex := by
  unfold goRx
  rw [h]
  rfl

theorem findsOne_of {c : RuneClass} (hc : c.Ascii) {C : UInt8 → Prop} (hC : ∀ b, C b ↔ c.has b.toNat = true) : FindsOne C (clsRx c).regex :=
  (Rx.isCls_group c).findsOne hc hC

theorem reWord_eq : goRx (asc "[a-zA-Z\\._][a-zA-Z\\._0-9]*") = some reWord := by
  rw [goRx_of (x := .seq (.seq (.cls ⟨false, [(0x61, 0x7A), (0x41, 0x5A), (0x2E, 0x2E), (0x5F, 0x5F)]⟩)
    (.seq (.star (.cls ⟨false, [(0x61, 0x7A), (0x41, 0x5A), (0x2E, 0x2E), (0x5F, 0x5F), (0x30, 0x39)]⟩)) .empty)) .empty) (by kernel_rfl)]
  refine congrArg _ (runRegex_eq (A := ⟨false, [(0x61, 0x7A), (0x41, 0x5A), (0x2E, 0x2E), (0x5F, 0x5F)]⟩)
    (B := ⟨false, [(0x61, 0x7A), (0x41, 0x5A), (0x2E, 0x2E), (0x5F, 0x5F), (0x30, 0x39)]⟩) (by decide) ?_ ?_ (by decide) fun n s => ?_)
  · intro b
    have h1 : (b == 0x2E) = decide (b.toNat = 0x2E) := by rw [beq_eq_decide]; exact decide_eq_decide.mpr UInt8.toNat_inj.symm
    have h2 : (b == 0x5F) = decide (b.toNat = 0x5F) := by rw [beq_eq_decide]; exact decide_eq_decide.mpr UInt8.toNat_inj.symm
    rw [Bool.eq_iff_iff]
    simp only [wordFirst, h1, h2, RuneClass.has, List.any_cons, List.any_nil, Bool.or_eq_true, Bool.and_eq_true, decide_eq_true_eq, Bool.false_bne, Bool.or_false]
    omega
  · intro b
    have h1 : (b == 0x2E) = decide (b.toNat = 0x2E) := by rw [beq_eq_decide]; exact decide_eq_decide.mpr UInt8.toNat_inj.symm
    have h2 : (b == 0x5F) = decide (b.toNat = 0x5F) := by rw [beq_eq_decide]; exact decide_eq_decide.mpr UInt8.toNat_inj.symm
    rw [Bool.eq_iff_iff]
    simp only [wordMore, wordFirst, isDigit, h1, h2, RuneClass.has, List.any_cons, List.any_nil, Bool.or_eq_true, Bool.and_eq_true, decide_eq_true_eq, Bool.false_bne, Bool.or_false]
    omega
  · rw [Rx.run_seq_empty]
    simp [Rx.run]

theorem reInt_eq : goRx (asc "[0-9]+") = some reInt := by
  rw [goRx_of (x := .seq (.seq (.plus (.cls digitCls)) .empty) .empty) (by kernel_rfl)]
  refine congrArg _ (runRegex_eq digitCls_ascii ?_ ?_ digitCls_ascii fun n s => ?_)
  · intro b
    rw [Bool.eq_iff_iff, digitCls_has]
    simp [isDigit, IsDigit]
  · intro b
    rw [Bool.eq_iff_iff, digitCls_has]
    simp [isDigit, IsDigit]
  · rw [Rx.run_seq_empty, Rx.run_seq_empty]
    rfl

theorem reAny_eq : goRx (asc "[\\s\\S]") = some reAny := by
  rw [goRx_of (x := clsRx ⟨false, [(0x09, 0x0A), (0x0C, 0x0D), (0x20, 0x20), (0x00, 0x08), (0x0B, 0x0B), (0x0E, 0x1F), (0x21, 0x10FFFF)]⟩) (by kernel_rfl)]
  refine congrArg _ ?_
  have hle : ∀ s : Bytes, (decodeRune s).1 ≤ 0x10FFFF := by
    intro s
    by_cases h : (decodeRune s).1 = runeError
    · rw [h]; decide
    · have := (decodeRune_sound h).1
      unfold Spec.Scalar at this
      omega
  have : ∀ (r : Regex), (∀ s, r.find s = reAny.find s) → r = reAny := by
    intro r h
    have : r.find = reAny.find := funext h
    generalize reAny = r2 at *
    cases r; cases r2
    simp only at this
    subst this
    rfl
  refine this _ fun s => ?_
  show Rx.findFrom _ s.length s.length 0 s = if s = [] then none else some (0, min (decodeRune s).2 s.length)
  by_cases hs : s = []
  · subst hs; rfl
  · rw [if_neg hs]
    have hw := decodeRune_width_le s
    have h1 := (((Rx.isCls_group _).find (c := ⟨false, [(0x09, 0x0A), (0x0C, 0x0D), (0x20, 0x20), (0x00, 0x08), (0x0B, 0x0B), (0x0E, 0x1F), (0x21, 0x10FFFF)]⟩) s (decodeRune s).2).mpr
      ⟨hs, ?_, rfl⟩)
    · rw [Nat.min_eq_left hw]
      exact h1
    · have := hle s
      simp only [RuneClass.has, List.any_cons, List.any_nil, Bool.or_eq_true, Bool.and_eq_true, decide_eq_true_eq, Bool.false_bne, Bool.or_false]
      omega

/-- C88: the regular expressions that the handwritten grammar of rule texts uses are what their sources compile to. So the
assumption of C52 and C68 is met. -/
theorem C88_joeson : RxJoeson goRx := ⟨reWord_eq, reInt_eq, reAny_eq⟩

/-- The whole of C52 for example needs no assumption on regular expressions. -/
example (tr : Trace) (htr : tr.stack = false) :
    ∃ m0, joesonMade = .ok m0 ∧ ∃ k0, ∀ k, k0 ≤ k → ∃ m, intentionMade goRx m0.g tr k "gmIntention" = .ok m ∧
      ∀ text : Bytes, text.length ≤ 28 → ∃ o, CompilesTo goRx m0.g tr text o ∧ CompilesTo goRx m.g tr text o :=
  C52_short_texts goRx C88_joeson tr htr

theorem byteEq (b q : UInt8) : b = q ↔ b.toNat = q.toNat := UInt8.toNat_inj.symm

/-- `[0-9]` -/
theorem digit_class : goRx (asc "[0-9]") = some (clsRx digitCls).regex ∧ FindsOne IsDigit (clsRx digitCls).regex ∧ FindsDigit (clsRx digitCls).regex := by
  refine ⟨goRx_of (by kernel_rfl), findsOne_of digitCls_ascii fun b => (digitCls_has b).symm, ?_⟩
  have := findsOne_of digitCls_ascii fun b => (digitCls_has b).symm
  refine ⟨fun c s h1 h2 => this.1 c s ⟨h1, h2⟩, fun s n h => ?_⟩
  obtain ⟨c, s', h1, h2⟩ := this.2 s n h
  exact ⟨c, s', h1, h2.1, h2.2⟩

/-- `[1-9]` -/
def firstCls : RuneClass := ⟨false, [(0x31, 0x39)]⟩
/-- `[ \t]` -/
def blankCls : RuneClass := ⟨false, [(0x20, 0x20), (0x09, 0x09)]⟩
/-- `[ ,]` -/
def commaCls : RuneClass := ⟨false, [(0x20, 0x20), (0x2C, 0x2C)]⟩
/-- `[0-7]` -/
def octalCls : RuneClass := ⟨false, [(0x30, 0x37)]⟩
/-- `[a-zA-Z0-9]` -/
def glyphCls : RuneClass := ⟨false, [(0x61, 0x7A), (0x41, 0x5A), (0x30, 0x39)]⟩
/-- `[^"]` -/
def unquotedCls : RuneClass := ⟨true, [(0x22, 0x22)]⟩

theorem first_class : goRx (asc "[1-9]") = some (clsRx firstCls).regex ∧ FindsOne (fun c => IsDigit c ∧ c ≠ 0x30) (clsRx firstCls).regex := by
  refine ⟨goRx_of (by kernel_rfl), findsOne_of (by decide) fun b => ?_⟩
  rw [ne_eq, byteEq]
  simp [RuneClass.has, firstCls, IsDigit]
  omega

theorem blank_class : goRx (asc "[ \\t]") = some (clsRx blankCls).regex ∧ FindsOne IsBlank (clsRx blankCls).regex := by
  refine ⟨goRx_of (by kernel_rfl), findsOne_of (by decide) fun b => ?_⟩
  simp only [RuneClass.has, blankCls, IsBlank, byteEq, List.any_cons, List.any_nil, Bool.or_eq_true, Bool.and_eq_true, decide_eq_true_eq, Bool.false_bne, Bool.or_false]
  simp
  omega

theorem comma_class : goRx (asc "[ ,]") = some (clsRx commaCls).regex ∧ FindsOne (fun c => c = 0x20 ∨ c = 0x2C) (clsRx commaCls).regex := by
  refine ⟨goRx_of (by kernel_rfl), findsOne_of (by decide) fun b => ?_⟩
  simp only [RuneClass.has, commaCls, byteEq, List.any_cons, List.any_nil, Bool.or_eq_true, Bool.and_eq_true, decide_eq_true_eq, Bool.false_bne, Bool.or_false]
  simp
  omega

theorem octal_class : goRx (asc "[0-7]") = some (clsRx octalCls).regex ∧ FindsOne IsOctal (clsRx octalCls).regex := by
  refine ⟨goRx_of (by kernel_rfl), findsOne_of (by decide) fun b => ?_⟩
  simp [RuneClass.has, octalCls, IsOctal, UInt8.le_iff_toNat_le]

theorem glyph_class : goRx (asc "[a-zA-Z0-9]") = some (clsRx glyphCls).regex ∧ FindsGlyph (clsRx glyphCls).regex := by
  refine ⟨goRx_of (by kernel_rfl), findsOne_of (by decide) fun b => ?_⟩
  simp [RuneClass.has, glyphCls, IsGlyph, UInt8.le_iff_toNat_le]

theorem unquoted_class : goRx (asc "[^\"]") = some (clsRx unquotedCls).regex ∧ FindsRune (· ≠ 0x22) (· ≠ 0x22) (clsRx unquotedCls).regex ∧
    FindsBut 0x22 (clsRx unquotedCls).regex :=
  ⟨goRx_of (by kernel_rfl), Rx.IsCls.findsRune (q := 0x22) (by decide) (Rx.isCls_group _), Rx.IsCls.findsBut (q := 0x22) (by decide) (Rx.isCls_group _)⟩

/-- C88: so are the assumptions of the theorems on the examples: calculator (C59), precedence (C62, C65), subtraction (C57, C76),
the VideoGame grammars (C63), colors (C69), the lisp reader (C66), octal values (C82). -/
theorem C88_examples :
    (∃ reB reI, goRx (asc "[ \\t]") = some reB ∧ goRx (asc "^-?[0-9]+") = some reI ∧ FindsBlank reB ∧ FindsInt reI) ∧
    (∃ reG reB, goRx (asc "[a-zA-Z0-9]") = some reG ∧ goRx (asc "[ \\t]") = some reB ∧ FindsGlyph reG ∧ FindsBlank reB) ∧
    (∃ re, goRx (asc "[0-9]") = some re ∧ FindsDigit re) ∧
    (∃ r1 r2 r rb, GameClasses goRx r1 r2 r rb) ∧
    (∃ r1 r2 rc rb, ColorClasses goRx r1 r2 rc rb) ∧
    (∃ rs rn rw, Lisp.Classes goRx rs rn rw) ∧
    ∃ r, OctalClass goRx r := by
  refine ⟨⟨_, _, blank_class.1, goRx_of (x := .seq (.seq .bol (.seq (.opt (.lit 0x2D)) (.seq (.plus (.cls digitCls)) .empty))) .empty) (by kernel_rfl), blank_class.2, ?_⟩,
    ⟨_, _, glyph_class.1, blank_class.1, glyph_class.2, blank_class.2⟩, ⟨_, digit_class.1, digit_class.2.2⟩,
    ⟨_, _, _, _, first_class.1, digit_class.1, unquoted_class.1, blank_class.1, first_class.2, digit_class.2.1, unquoted_class.2.1, blank_class.2⟩,
    ⟨_, _, _, _, first_class.1, digit_class.1, comma_class.1, blank_class.1, first_class.2, digit_class.2.1, comma_class.2, blank_class.2⟩,
    ⟨_, _, _, unquoted_class.1, goRx_of (x := .seq (.seq (.opt (.lit 0x2D)) (.seq (.plus (.cls digitCls)) .empty)) .empty) (by kernel_rfl),
      goRx_of (x := .seq (.seq (.cls ⟨false, [(0x61, 0x7A), (0x41, 0x5A), (0x2E, 0x2E), (0x5F, 0x5F)]⟩)
        (.seq (.star (.cls ⟨false, [(0x61, 0x7A), (0x41, 0x5A), (0x2E, 0x2E), (0x5F, 0x5F), (0x30, 0x39), (0x3F, 0x3F)]⟩)) .empty)) .empty) (by kernel_rfl),
      unquoted_class.2.2, ?_, ?_⟩,
    ⟨_, octal_class.1, octal_class.2⟩⟩
  · refine findsInt_of fun s => ?_
    rw [Rx.run_seq_empty]
    simp [Rx.run, numRx]
  · refine findsNumber_of fun n s => ?_
    rw [Rx.run_seq_empty]
    simp [Rx.run, numRx]
  · refine findsWord_of (A := ⟨false, [(0x61, 0x7A), (0x41, 0x5A), (0x2E, 0x2E), (0x5F, 0x5F)]⟩)
      (B := ⟨false, [(0x61, 0x7A), (0x41, 0x5A), (0x2E, 0x2E), (0x5F, 0x5F), (0x30, 0x39), (0x3F, 0x3F)]⟩) (by decide) (by decide) (fun n s => ?_) (fun b => ?_) fun b => ?_
    · rw [Rx.run_seq_empty]
      simp [Rx.run]
    · simp only [RuneClass.has, Lisp.IsLetter, byteEq, List.any_cons, List.any_nil, Bool.or_eq_true, Bool.and_eq_true, decide_eq_true_eq, Bool.false_bne, Bool.or_false]
      simp
      omega
    · simp only [RuneClass.has, Lisp.IsLater, Lisp.IsLetter, IsDigit, byteEq, List.any_cons, List.any_nil, Bool.or_eq_true, Bool.and_eq_true, decide_eq_true_eq, Bool.false_bne, Bool.or_false]
      simp
      omega

end Joeson
