import Verif.Props.RegexpText2
/-!
# C88: rules made of one regular expression
-/

namespace Joeson
open RegexpText RuleText

/-- The characters of ASCII text. -/
def asciiPieces (s : Bytes) : List Piece := s.map fun b => ⟨false, b.toNat⟩

/-- How a rule text spells the regular expression. -/
def RegexpText.Tree.pieces {k : RxKind} : Tree k → List Piece
  | .last s => s.pieces
  | .or s a => s.pieces ++ asciiPieces (asc "|") ++ a.pieces
  | .nil => []
  | .cons a q s => a.pieces ++ asciiPieces q.text ++ s.pieces
  | .char r => [⟨false, r⟩]
  | .esc b => [⟨true, b.toNat⟩]
  | .cls neg l => asciiPieces (asc "[") ++ classPieces neg l ++ asciiPieces (asc "]")
  | .dot => asciiPieces (asc ".")
  | .start => asciiPieces (asc "^")
  | .group capturing a => asciiPieces (if capturing then asc "(" else asc "(?:") ++ a.pieces ++ asciiPieces (asc ")")

/-- A slash without a backslash would end the expression. -/
def CItem.NoSlash : CItem → Prop
  | .one e r => e = false → r ≠ 0x2F
  | .range e lo e' hi => (e = false → lo ≠ 0x2F) ∧ (e' = false → hi ≠ 0x2F)

/-- A slash without a backslash would end the expression. -/
def RegexpText.Tree.NoSlash {k : RxKind} : Tree k → Prop
  | .last s => s.NoSlash
  | .or s a => s.NoSlash ∧ a.NoSlash
  | .cons a _ s => a.NoSlash ∧ s.NoSlash
  | .char r => r ≠ 0x2F
  | .cls _ l => ∀ i ∈ l, i.NoSlash
  | .group _ a => a.NoSlash
  | _ => True

/-- ASCII, neither slash nor backslash. -/
def PlainByte (b : UInt8) : Prop := b.toNat < 0x80 ∧ b ≠ 0x2F ∧ b ≠ 0x5C

theorem asciiPieces_text {s : Bytes} (h : ∀ b ∈ s, PlainByte b) : RuleText.pieces (asciiPieces s) = s := by
  induction s with
  | nil => rfl
  | cons b s ih =>
    have h1 := (h b (List.mem_cons_self ..)).1
    have := ih fun x hx => h x (List.mem_cons_of_mem _ hx)
    unfold asciiPieces RuleText.pieces at this ⊢
    rw [List.map_cons, List.flatMap_cons, this]
    simp [Piece.text, utf8_one_ascii h1]

theorem asciiPieces_ok {s : Bytes} (h : ∀ b ∈ s, PlainByte b) : ∀ p ∈ asciiPieces s, p.Ok 0x2F := by
  intro p hp
  obtain ⟨b, hb, rfl⟩ := List.mem_map.mp hp
  obtain ⟨h1, h2, h3⟩ := h b hb
  refine ⟨.inl (by dsimp only; omega), fun _ => ⟨fun e => h2 ?_, fun e => h3 ?_⟩⟩
  · exact UInt8.toNat_inj.mp (by simpa using e)
  · exact UInt8.toNat_inj.mp (by simpa using e)

instance (b : UInt8) : Decidable (PlainByte b) := inferInstanceAs (Decidable (_ ∧ _ ∧ _))

theorem itoa_plain (n : Nat) : ∀ b ∈ itoa n, PlainByte b := by
  obtain ⟨ds, _, h2, h3, _⟩ := itoaNat_plain (n + 1) n (by omega)
  have e : itoa n = ds.map Spec.digitByte := by
    unfold itoa
    rw [if_neg (by omega)]
    exact h3
  rw [e]
  intro b hb
  obtain ⟨d, hd, rfl⟩ := List.mem_map.mp hb
  have : ∀ d : Fin 10, PlainByte (Spec.digitByte d.val) := by decide
  exact this ⟨d, h2 d hd⟩

theorem count_plain (q : Count) : ∀ b ∈ q.text, PlainByte b := by
  have h : ∀ b ∈ asc "*+?{,}", PlainByte b := by decide
  have e : asc "{" = [0x7B] ∧ asc "}" = [0x7D] ∧ asc "," = [0x2C] := by decide
  cases q with
  | once => intro b hb; cases hb
  | star => intro b hb; exact h b (by revert b; decide)
  | plus => intro b hb; exact h b (by revert b; decide)
  | opt => intro b hb; exact h b (by revert b; decide)
  | exact n =>
    intro b hb
    simp only [Count.text, e, List.mem_append, List.mem_singleton] at hb
    rcases hb with (rfl | hb) | rfl
    · decide
    · exact itoa_plain n b hb
    · decide
  | range n m =>
    intro b hb
    simp only [Count.text, e, List.mem_append, List.mem_singleton] at hb
    rcases hb with (((rfl | hb) | rfl) | hb) | rfl
    · decide
    · exact itoa_plain n b hb
    · decide
    · exact itoa_plain m b hb
    · decide

theorem pieces_append (a b : List Piece) : RuleText.pieces (a ++ b) = RuleText.pieces a ++ RuleText.pieces b := by
  simp [RuleText.pieces]

theorem escOk_ascii {b : UInt8} (h : EscOk b) : b.toNat < 0x80 := by
  rcases h.cases with h | h
  · have : ∀ b ∈ asc "dDsSwWafnrtv", b.toNat < 0x80 := by decide
    exact this b h
  · exact h.1

theorem tree_pieces {k : RxKind} : ∀ (w : Tree k) (_ : w.Ok), RuleText.pieces w.pieces = w.text
  | .last s, h => by rw [Tree.pieces, Tree.text]; exact tree_pieces s h
  | .or s a, h => by
    rw [Tree.pieces, Tree.text, pieces_append, pieces_append, tree_pieces s h.1, tree_pieces a h.2, asciiPieces_text (by decide)]
  | .nil, _ => rfl
  | .cons a q s, h => by
    rw [Tree.pieces, Tree.text, pieces_append, pieces_append, tree_pieces a h.1, tree_pieces s h.2.2.1, asciiPieces_text (count_plain q)]
  | .char r, _ => by simp [Tree.pieces, Tree.text, RuleText.pieces, Piece.text]
  | .esc b, h => by
    simp [Tree.pieces, Tree.text, RuleText.pieces, Piece.text, utf8_one_ascii (escOk_ascii h)]
  | .cls neg l, _ => by
    rw [Tree.pieces, Tree.text, pieces_append, pieces_append, asciiPieces_text (by decide), asciiPieces_text (by decide)]
    exact classPieces_text neg l
  | .dot, _ => asciiPieces_text (by decide)
  | .start, _ => asciiPieces_text (by decide)
  | .group c a, h => by
    rw [Tree.pieces, Tree.text, pieces_append, pieces_append, tree_pieces a h, asciiPieces_text (by cases c <;> decide), asciiPieces_text (by decide)]

theorem charOk_slash {e : Bool} {r : Nat} (h : charOk e r) (hs : e = false → r ≠ 0x2F) : Piece.Ok 0x2F ⟨e, r⟩ := by
  cases e with
  | true =>
    simp only [charOk, if_true] at h
    refine ⟨.inl (by dsimp only; omega), fun h => by cases h⟩
  | false =>
    simp only [charOk, Bool.false_eq_true, if_false] at h
    exact ⟨h.1, fun _ => ⟨hs rfl, h.2.1⟩⟩

theorem class_slash (neg : Bool) (l : List CItem) (h : ∀ i ∈ l, i.Ok) (hs : ∀ i ∈ l, i.NoSlash) : ∀ p ∈ classPieces neg l, p.Ok 0x2F := by
  intro p hp
  rcases List.mem_append.mp hp with hp | hp
  · cases neg with
    | true =>
      simp only [if_true, List.mem_singleton] at hp
      subst hp
      exact ⟨.inl (by decide), fun _ => ⟨by decide, by decide⟩⟩
    | false => cases hp
  · obtain ⟨i, hi, hp⟩ := List.mem_flatMap.mp hp
    have hd : Piece.Ok 0x2F ⟨false, 0x2D⟩ := ⟨.inl (by decide), fun _ => ⟨by decide, by decide⟩⟩
    match i, h i hi, hs i hi, hp with
    | .one e r, ho, hn, hp =>
      simp only [CItem.pieces, List.mem_singleton] at hp
      exact hp ▸ charOk_slash ho hn
    | .range e lo e' hi, ho, hn, hp =>
      simp only [CItem.pieces, List.mem_cons, List.not_mem_nil, or_false] at hp
      rcases hp with rfl | rfl | rfl
      · exact charOk_slash ho.1 hn.1
      · exact hd
      · exact charOk_slash ho.2.1 hn.2

theorem tree_pieces_ok {k : RxKind} : ∀ (w : Tree k) (_ : w.Ok) (_ : w.NoSlash), ∀ p ∈ w.pieces, p.Ok 0x2F
  | .last s, h, hs, p, hp => tree_pieces_ok s h hs p (by rw [Tree.pieces] at hp; exact hp)
  | .or s a, h, hs, p, hp => by
    rw [Tree.pieces] at hp
    rcases List.mem_append.mp hp with hp | hp
    · rcases List.mem_append.mp hp with hp | hp
      · exact tree_pieces_ok s h.1 hs.1 p hp
      · exact asciiPieces_ok (by decide) p hp
    · exact tree_pieces_ok a h.2 hs.2 p hp
  | .nil, _, _, p, hp => by cases hp
  | .cons a q s, h, hs, p, hp => by
    rw [Tree.pieces] at hp
    rcases List.mem_append.mp hp with hp | hp
    · rcases List.mem_append.mp hp with hp | hp
      · exact tree_pieces_ok a h.1 hs.1 p hp
      · exact asciiPieces_ok (count_plain q) p hp
    · exact tree_pieces_ok s h.2.2.1 hs.2 p hp
  | .char r, h, hs, p, hp => by
    rw [Tree.pieces, List.mem_singleton] at hp
    subst hp
    exact ⟨h.1, fun _ => ⟨hs, h.2 0x5C (by decide)⟩⟩
  | .esc b, h, _, p, hp => by
    rw [Tree.pieces, List.mem_singleton] at hp
    subst hp
    have := escOk_ascii h
    exact ⟨.inl (by dsimp only; omega), fun h => by cases h⟩
  | .cls neg l, h, hs, p, hp => by
    rw [Tree.pieces] at hp
    rcases List.mem_append.mp hp with hp | hp
    · rcases List.mem_append.mp hp with hp | hp
      · exact asciiPieces_ok (by decide) p hp
      · exact class_slash neg l h.1 hs p hp
    · exact asciiPieces_ok (by decide) p hp
  | .dot, _, _, p, hp => asciiPieces_ok (s := asc ".") (by decide) p hp
  | .start, _, _, p, hp => asciiPieces_ok (s := asc "^") (by decide) p hp
  | .group c a, h, hs, p, hp => by
    rw [Tree.pieces] at hp
    rcases List.mem_append.mp hp with hp | hp
    · rcases List.mem_append.mp hp with hp | hp
      · exact asciiPieces_ok (by cases c <;> decide) p hp
      · exact tree_pieces_ok a h hs p hp
    · exact asciiPieces_ok (by decide) p hp

/-- A rule that is a regular expression. -/
def regexRule (w : Tree .alt) (re : Regex) : Expr := .single (.one [] none (.prim (.regex w.pieces re))) []

/-- The grammar of this rule only. -/
def regexLines (w : Tree .alt) (re : Regex) : List GLine := [.alt "Input" none (.text (regexRule w re))]

theorem regexLines_names (w : Tree .alt) (re : Regex) : GoodNames (regexLines w re) := by
  refine goodNames_of rfl ?_ fun d hd => ?_
  · show (["Input"] : List String).Nodup
    decide
  · have : d.1 ∈ ["Input"] := List.mem_map_of_mem (f := (·.1)) hd
    simp only [List.mem_cons, List.not_mem_nil, or_false] at this
    rw [this]; decide

theorem regexLines_texts {rx : Bytes → Option Regex} {w : Tree .alt} {re : Regex} (h : w.Ok) (hs : w.NoSlash) (hrx : rx w.text = some re) :
    AllLines (TextOk rx (regexLines w re)) (regexLines w re) := by
  have hvp : (regexRule w re).vp = .re "" re := rfl
  have hok : (regexRule w re).Ok rx := by
    simp only [regexRule, Expr.Ok, Units.Ok, Deco.Ok, Prim.Ok, Units.isOpen]
    exact ⟨⟨(by intro x hx; cases hx), (by intro w hw; cases hw), tree_pieces_ok w h hs, by rw [tree_pieces w h]; exact hrx⟩, (by intro x hx; cases hx), by simp⟩
  have ht : TextOk rx (regexLines w re) (regexRule w re) :=
    ⟨hok, by simp [regexRule, Expr.nest, Units.nest, Deco.nest, Prim.nest], by unfold Expr.Merges; rw [hvp]; exact ⟨(by intro x hx; cases hx), rfl⟩⟩
  simp only [regexLines, AllLines, GLine.All, Body.All, and_true]
  exact ht

/-- C88: a grammar whose only rule has the text `/.../`: it reads what the regular expression takes, and fails where it does not match at the cursor. -/
theorem C88_regex_rule {V : Type} (w : Tree .alt) (h : w.Ok) (hs : w.NoSlash) : ∃ re, goRx w.text = some re ∧
    (regexRule w re).text = asc "/" ++ w.text ++ asc "/" ∧
    ∀ (P : PureOps V), (∀ v o, P.origin v o = v) → ∀ s : Bytes,
      (∀ m, Took w s m → LibGives goRx (regexLines w re) P s (.ok (some (P.str (s.take m), s.drop m)))) ∧
      ((¬ ∃ rest, w.Lang s.length s rest) → LibGives goRx (regexLines w re) P s (.ok none)) := by
  obtain ⟨re, h1, _⟩ := C88_written w h
  have hl : ∀ s, (¬ ∃ rest, w.Lang s.length s rest) → ∀ n, re.find s ≠ some (0, n) := by
    intro s hn n hf
    obtain ⟨rest, h2, _⟩ := (took_iff h s n).mp ⟨re, h1, hf⟩
    exact hn ⟨rest, (w.matches s.length h s rest).mp ((Rx.run_iff ..).mp (List.mem_of_mem_head? h2))⟩
  refine ⟨re, h1, ?_, fun P ho s => ?_⟩
  · rw [← tree_pieces w h, show asc "/" = [0x2F] by decide]
    simp [regexRule, Expr.text, Units.text, Deco.text, Prim.text, labText]
  · have hlib := fun {x : VRes V} (hy : Yields P s.length (regexLines w re) 1 (.lines (regexLines w re)) s x) =>
      libGives_of (regexLines_names w re) (regexLines_texts h hs h1) ho (by decide) hy
    refine ⟨fun m hm => hlib ?_, fun hc => hlib ?_⟩
    · obtain ⟨re', e, hf⟩ := hm
      rw [h1] at e
      cases e
      have h3 := Yields.re (P := P) (N := s.length) (L := regexLines w re) (d := 0) (h := false) (lab := "") hf
      exact .altDone (Yields.rtext (e := regexRule w re) (cb := none) rfl (Yields.bare (.inr rfl) h3)) (by simp)
    · have h3 := Yields.reMiss (P := P) (N := s.length) (L := regexLines w re) (d := 0) (h := false) (lab := "") (hl s hc)
      exact .altMiss (Yields.rtext (e := regexRule w re) (cb := none) rfl (Yields.bare (.inr rfl) h3)) .linesEnd

/-- The rule `/a|ab/`, and a class with a slash in it. -/
example : sampleAB.Ok ∧ sampleAB.NoSlash ∧ (∃ m, Took sampleAB (asc "ab") m) ∧ (CItem.one true 0x2F).NoSlash ∧ ¬ (CItem.one false 0x2F).NoSlash := by
  have ho : sampleAB.Ok := ⟨⟨⟨.inl (by decide), by decide⟩, trivial, trivial, fun h => by cases h⟩, ⟨.inl (by decide), by decide⟩, trivial,
      ⟨⟨.inl (by decide), by decide⟩, trivial, trivial, fun h => by cases h⟩, fun h => by cases h⟩
  refine ⟨ho, ⟨⟨by show (0x61 : Nat) ≠ 0x2F; decide, trivial⟩, by show (0x61 : Nat) ≠ 0x2F; decide, by show (0x62 : Nat) ≠ 0x2F; decide, trivial⟩,
    ⟨1, (took_iff ho _ _).mpr ⟨asc "b", by kernel_rfl, by kernel_rfl⟩⟩, (fun h => by cases h), fun h => h rfl rfl⟩

end Joeson
